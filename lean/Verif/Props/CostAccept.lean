import Verif.Proofs.PricedAt
import Verif.Proofs.SoftOps
import Verif.Props.Soft

/-!
# C125: a violation cost changes no call's outcome

A call that is accepted without a violation cost is accepted with one, and a call that raises an exception raises the same one.  Joint
ramping constraints are an exception.
-/

namespace Verif

theorem elasticRamps_outcome {m : Market} (h : ∀ k : CKey, k.optional → Typed k m) (hu : There .rampUp m) (hd : There .rampDown m) (c : ℚ) :
    (m.elasticRamps (some (.num c))).2 = none := by
  unfold Market.elasticRamps
  simp only [andThen_accepted]
  refine ⟨(elastic_outcome (h .rampUp trivial) c).2 hu, ?_⟩
  have h1 : ∀ k : CKey, k.optional → Typed k (m.makeElastic .rampUp (.num c)).1 := fun k hk => (h k hk).elastic _
  refine ⟨(elastic_outcome (h1 .rampDown trivial) c).2 ((There.elastic _).2 hd), ?_⟩
  have h2 := fun (k : CKey) (hk : k.optional) => (h1 k hk).elastic (k' := .rampDown) (.num c)
  exact ⟨ifPresent_accepted (h2 .biRampUp trivial) c, ifPresent_accepted ((h2 .biRampDown trivial).ifPresent _) c⟩

theorem There.addBiRamps {k : CKey} {m : Market} (h : There k m) (bi : List BiRamp) : There k (m.addBiRamps bi).1 := by
  unfold Market.addBiRamps
  split
  · exact h
  · unfold Res.andThen
    split
    · exact (h.unitSet _).unitSet _
    · exact h.unitSet _

theorem rampRates_outcome {m : Market} (h : ∀ k : CKey, k.optional → Typed k m) (rs : List RampRow) (sc : Option (List Scada))
    (ps : Option (List FsRamp)) (rt : RunType) (c : ℚ) :
    (m.setRampRates rs sc ps rt (some (.num c))).2 = (m.setRampRates rs sc ps rt none).2 := by
  unfold Market.setRampRates
  dsimp only
  repeat' split
  all_goals first | rfl | skip
  refine andThen_outcome (fun _ => andThen_outcome (fun _ => andThen_outcome (fun _ => ?_)))
  refine elasticRamps_outcome (fun k hk => ?_) ?_ ?_ c
  · exact (((h k hk).unitSet (fun _ => softens_limits _ _ (by decide))).unitSet (fun _ => softens_limits _ _ (by decide))).addBiRamps _
  · exact ((there_unitSet _ _ _).unitSet _).addBiRamps _
  · exact (there_unitSet _ _ _).addBiRamps _

theorem softens_blocks {α : Type} (l : List α) (n n' : Nat) (f g : α → ℚ) :
    Softens (saveIndex l n (fun i t => ({ cid := i, ctype := .le, rhs := f t } : Row)) ++
      saveIndex l n' (fun i t => ({ cid := i, ctype := .ge, rhs := g t } : Row))) := by
  refine Softens.of (fun r hr => ?_)
  rcases List.mem_append.1 hr with hr | hr
  all_goals
    obtain ⟨i, l, _, rfl⟩ := mem_saveIndex.1 hr
    simp

theorem softens_fastStart (ps : List FsProfile) (n : Nat) : Softens (fastStartConstraints ps n).1 := by
  refine Softens.of (fun r hr => ?_)
  simp only [fastStartConstraints, createConstraints, List.mem_append] at hr
  rcases hr with (((hr | hr) | hr) | hr) | hr
  all_goals
    obtain ⟨i, l, _, rfl⟩ := mem_saveIndex.1 hr
    simp

/-- **C125**, apart from joint ramping constraints.  A call with a number as violation cost has the outcome of the same call without:
it is accepted if that is, and raises the same exception otherwise. -/
theorem C125_same_outcome_partial {m : Market} (h : Reached m) {op : Op} (hv : op.vcost = none)
    (hj : ∀ rs ps rt, op ≠ .jointRamping rs ps rt none) (hg : ∀ gs, op = .generic gs none → ∀ g ∈ gs, g.ctype ≠ .other) (c : ℚ) :
    (m.step (op.pricedAt c)).2 = (m.step op).2 := by
  have hw := h.wf
  unfold Market.step
  split
  · rfl
  cases op <;> simp only [Op.vcost, reduceCtorEq] at hv <;> first | subst hv | skip
  all_goals first | rfl | skip
  case capacity =>
    simp only [Op.pricedAt, Market.setCapacity]
    repeat' split
    all_goals first | rfl | skip
    exact unit_accepted (t := capacityConstraints _ _ _) (noMkt hw rfl) (by unfold capacityConstraints; exact softens_limits _ _ (by decide)) c
  case uigf =>
    simp only [Op.pricedAt, Market.setUigf]
    repeat' split
    all_goals first | rfl | skip
    exact unit_accepted (noMkt hw rfl) (softens_limits _ _ (by decide)) c
  case rampRates =>
    exact rampRates_outcome (fun k hk => h.typed hk) _ _ _ _ c
  case fastStart =>
    simp only [Op.pricedAt, Market.setFastStart]
    repeat' split
    all_goals first | rfl | skip
    exact unit_accepted (noMkt hw rfl) (softens_fastStart _ _) c
  case demand =>
    simp only [Op.pricedAt, Market.setDemand]
    repeat' split
    all_goals first | rfl | skip
    refine reg_accepted (Softens.of (fun r hr => ?_)) c
    obtain ⟨i, l, _, rfl⟩ := mem_saveIndex.1 hr
    simp
  case fcasReq rs =>
    simp only [Op.pricedAt, Market.setFcasReq]
    split
    · rfl
    rename_i hc
    refine reg_accepted (Softens.of (fun r hr => ?_)) c
    obtain ⟨i, l, hl, rfl⟩ := mem_saveIndex.1 hr
    simp only [Bool.not_eq_true', Bool.not_eq_false, Bool.and_eq_true, List.all_eq_true, decide_eq_true_eq] at hc
    obtain ⟨pre, post, ers, _⟩ := mem_dropDup_first.1 (List.mem_of_getElem? hl)
    exact (hc.1 l (by rw [ers]; simp)).2
  case fcasMaxAvail =>
    simp only [Op.pricedAt, Market.setFcasMaxAvail]
    repeat' split
    all_goals first | rfl | skip
    exact unit_accepted (noMkt hw rfl) (softens_limits _ _ (by decide)) c
  case jointRamping => exact absurd rfl (hj _ _ _)
  case jointCapacity =>
    simp only [Op.pricedAt, Market.setJointCapacity]
    repeat' split
    all_goals first | rfl | skip
    exact unit_accepted (noMkt hw rfl) (softens_blocks _ _ _ _ _) c
  case energyReg =>
    simp only [Op.pricedAt, Market.setEnergyReg]
    repeat' split
    all_goals first | rfl | skip
    exact unit_accepted (noMkt hw rfl) (softens_blocks _ _ _ _ _) c
  case generic gs =>
    simp only [Op.pricedAt, Market.setGeneric]
    split
    · rfl
    have hs : Softens (saveIndex gs m.nextCon (fun i g => ({ cid := i, ctype := g.ctype, rhs := g.rhs, set := some g.set } : Row))) := by
      refine Softens.of (fun r hr => ?_)
      obtain ⟨i, l, hl, rfl⟩ := mem_saveIndex.1 hr
      exact hg gs rfl l (List.mem_of_getElem? hl)
    have hm := noMkt hw (k := .generic) rfl
    split
    all_goals
      refine makeElastic_accepted (rows := _) ?_ hs c
      unfold Market.rowsOf
      dsimp only
      rw [hm, Dict.get?_set_self]

/-- **C125**.  Joint ramping constraints with a violation cost are accepted exactly if they are without, and then there are constraints for
raise regulation and constraints for lower regulation. -/
theorem C125_joint_ramping {m : Market} (h : Reached m) (rs : List RampRow) (ps : Option (List FsRamp)) (rt : RunType) (c : ℚ) :
    (m.step (.jointRamping rs ps rt (some (.num c)))).2 = none ↔
      (m.step (.jointRamping rs ps rt none)).2 = none ∧
      (∃ rows, (m.step (.jointRamping rs ps rt none)).1.conRhs.get? .jrRaise = some rows) ∧
      ∃ rows, (m.step (.jointRamping rs ps rt none)).1.conRhs.get? .jrLower = some rows := by
  have key : ∀ a : Market, (∀ k : CKey, k.optional → Typed k a) → ((a.elasticJr (some (.num c))).2 = none ↔ There .jrRaise a ∧ There .jrLower a) := by
    intro a h
    unfold Market.elasticJr
    simp only [andThen_accepted]
    have h1 : ∀ k : CKey, k.optional → Typed k (a.makeElastic .jrRaise (.num c)).1 := fun k hk => (h k hk).elastic _
    have h2 := fun (k : CKey) (hk : k.optional) => (h1 k hk).elastic (k' := .jrLower) (.num c)
    rw [elastic_outcome (h .jrRaise trivial), elastic_outcome (h1 .jrLower trivial), There.elastic]
    constructor
    · rintro ⟨a, b, _⟩; exact ⟨a, b⟩
    · rintro ⟨a, b⟩; exact ⟨a, b, ifPresent_accepted (h2 .jrRaiseBdu trivial) c, ifPresent_accepted ((h2 .jrLowerBdu trivial).ifPresent _) c⟩
  have hT := fun (k : CKey) (hk : k.optional) => h.typed hk
  simp only [← Option.isSome_iff_exists]
  unfold Market.step
  split
  · simp
  dsimp only
  unfold Market.setJointRamping
  dsimp only
  repeat' split
  all_goals first | simp; done | skip
  refine andThen_iff (P := fun a => There .jrRaise a ∧ There .jrLower a) (andThen_iff (P := fun a => There .jrRaise a ∧ There .jrLower a)
    (andThen_iff (P := fun a => There .jrRaise a ∧ There .jrLower a) (andThen_iff (P := fun a => There .jrRaise a ∧ There .jrLower a) ?_)))
  refine (key _ (fun k hk => ((((hT k hk).unitSetIf (fun _ => softens_jr _ _ _ (by simp) (by simp))).unitSetIf
    (fun _ => softens_jrBdu _ _ _ (by simp) _)).unitSetIf (fun _ => softens_jr _ _ _ (by simp) (by simp))).unitSetIf
    (fun _ => softens_jrBdu _ _ _ (by simp) _))).trans ?_
  exact ⟨fun h => ⟨rfl, h⟩, fun h => h.2⟩

/-! ## Examples -/

/-- a generator that bids for energy and raise regulation -/
def jrOneSided : Case where
  regions := ["NSW"]
  units := [{ unit := "A", region := "NSW" }]
  hist := [.volumeBids [{ unit := "A", bands := [("1", 100)] }, { unit := "A", service := .raiseReg, bands := [("1", 20)] }]]
  sol := []

/-- **C125** fails for joint ramping constraints: if units bid for raise regulation but none for lower regulation, the call is accepted
without a violation cost and raises ModelBuildError with one. -/
theorem C125_joint_ramping_negation :
    ∃ (m : Market) (op : Op), Reached m ∧ (m.step op).2 = none ∧ (m.step (op.pricedAt 1000)).2 = some .modelBuild := by
  obtain ⟨m, h1, h2⟩ : ∃ m, jrOneSided.final = some m ∧
      ((m.step (.jointRamping [{ unit := "A", init := 50, up := 60, down := 60 }] none .noFastStart none)).2 = none ∧
      (m.step (.jointRamping [{ unit := "A", init := 50, up := 60, down := 60 }] none .noFastStart (some (.num 1000)))).2 = some .modelBuild) := by
    refine ⟨_, rfl, ?_⟩
    decide +kernel
  exact ⟨m, _, Case.reached h1, h2.1, h2.2⟩

/-- instance of `C125_same_outcome_partial`: ramp rates of a known unit are accepted, those of an unknown unit are not -/
example : ∃ (m : Market) (op op' : Op), Reached m ∧ op.vcost = none ∧ op'.vcost = none ∧ (∀ rs ps rt, op ≠ .jointRamping rs ps rt none) ∧
    (∀ rs ps rt, op' ≠ .jointRamping rs ps rt none) ∧ (∀ gs, op = .generic gs none → ∀ g ∈ gs, g.ctype ≠ .other) ∧
    (∀ gs, op' = .generic gs none → ∀ g ∈ gs, g.ctype ≠ .other) ∧ op.pricedAt 5 ≠ op ∧
    (m.step op).2 = none ∧ (m.step op').2 = some .validation := by
  obtain ⟨m, h1, h2⟩ : ∃ m, jrOneSided.final = some m ∧
      ((m.step (.rampRates [{ unit := "A", init := 50, up := 60, down := 60 }] none none .noFastStart none)).2 = none ∧
      (m.step (.rampRates [{ unit := "B", init := 50, up := 60, down := 60 }] none none .noFastStart none)).2 = some .validation) := by
    refine ⟨_, rfl, ?_⟩
    decide +kernel
  exact ⟨m, _, _, Case.reached h1, rfl, rfl, by simp, by simp, by simp, by simp, by simp [Op.pricedAt], h2.1, h2.2⟩

/-- as above, with bids for lower regulation -/
def jrTwoSided : Case := { jrOneSided with
  hist := [.volumeBids [{ unit := "A", bands := [("1", 100)] }, { unit := "A", service := .raiseReg, bands := [("1", 20)] },
    { unit := "A", service := .lowerReg, bands := [("1", 20)] }]] }

/-- instance of `C125_joint_ramping`: with bids for both regulation services the call is accepted -/
example : ∃ (m : Market) (rs : List RampRow), Reached m ∧ (m.step (.jointRamping rs none .noFastStart (some (.num 5)))).2 = none := by
  obtain ⟨m, h1, h2⟩ : ∃ m, jrTwoSided.final = some m ∧
      (m.step (.jointRamping [{ unit := "A", init := 130, up := 60, down := 60 }] none .noFastStart (some (.num 5)))).2 = none := by
    refine ⟨_, rfl, ?_⟩
    decide +kernel
  exact ⟨m, _, Case.reached h1, h2⟩

end Verif
