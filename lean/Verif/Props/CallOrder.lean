import Verif.Proofs.Reads
import Verif.Proofs.Demo

/-!
# C37, C38: rejected input and call order
-/

namespace Verif

/-- The exceptions by which the API rejects its input: those of the validator and `ModelBuildError`. -/
def Err.rejects : Err → Bool
  | .validation => true
  | .modelBuild => true
  | _ => false

/-- the call did not end with a rejection -/
def Late (r : Res) : Prop := ∀ e, r.2 = some e → e.rejects = false

theorem late_andThen {r : Res} {f : Market → Res} (h : Late r) (hf : r.2 = none → Late (f r.1)) : Late (r.andThen f) := by
  unfold Res.andThen
  cases h' : r.2 with
  | none => exact hf h'
  | some e =>
    intro e' he
    simp only [Option.some.injEq] at he
    subst he
    exact h _ h'

theorem late_none {m : Market} : Late (m, none) := by intro e h; cases h

theorem late_unitSet (m : Market) (k : CKey) (t : List Row × List ConUnit) : Late (m.addUnitSet k t) := by
  intro e h
  unfold Market.addUnitSet at h
  dsimp only at h
  split at h
  · simp only [Option.some.injEq] at h; subst h; rfl
  · cases h

theorem late_regSet (m : Market) (k : CKey) (t : List Row × List ConReg) : Late (m.addRegSet k t) := by
  intro e h
  unfold Market.addRegSet at h
  dsimp only at h
  split at h
  · simp only [Option.some.injEq] at h; subst h; rfl
  · cases h

theorem late_unitSetIf (m : Market) (k : CKey) (b : Bool) (t : List Row × List ConUnit) : Late (m.addUnitSetIf k b t) := by
  unfold Market.addUnitSetIf
  split
  · exact late_unitSet _ _ _
  · exact late_none

theorem late_elastic_num {m : Market} {k : CKey} (h : m.rowsOf k ≠ none) (c : ℚ) : Late (m.makeElastic k (.num c)) := by
  unfold Market.makeElastic
  split
  · contradiction
  · simp only [costRows]
    split
    · exact late_none
    · split
      · intro e h; simp only [Option.some.injEq] at h; subst h; rfl
      · exact late_none

theorem rowsOf_of_con {m : Market} {k : CKey} {rows : List Row} (h : m.conRhs.get? k = some rows) : m.rowsOf k ≠ none := by
  unfold Market.rowsOf
  split <;> simp_all

theorem rowsOf_unitSet (m : Market) (k : CKey) (t : List Row × List ConUnit) : (m.addUnitSet k t).1.rowsOf k ≠ none := by
  refine rowsOf_of_con (rows := t.1) ?_
  unfold Market.addUnitSet
  dsimp only
  split <;> exact Dict.get?_set_self _ _ _

theorem rowsOf_regSet (m : Market) (k : CKey) (t : List Row × List ConReg) : (m.addRegSet k t).1.rowsOf k ≠ none := by
  have : (m.addRegSet k t).1.mktRhs.get? k = some t.1 := by
    unfold Market.addRegSet
    dsimp only
    split <;> exact Dict.get?_set_self _ _ _
  unfold Market.rowsOf
  rw [this]; simp

theorem late_elasticOpt {m : Market} {k : CKey} {vc : Option VCost} (h : m.rowsOf k ≠ none)
    (hv : vc = none ∨ ∃ c, vc = some (.num c)) : Late (m.elasticOpt k vc) := by
  rcases hv with rfl | ⟨c, rfl⟩
  · exact late_none
  · exact late_elastic_num h c

theorem late_unit {m : Market} {k : CKey} {t : List Row × List ConUnit} {vc : Option VCost}
    (hv : vc = none ∨ ∃ c, vc = some (.num c)) : Late ((m.addUnitSet k t).andThen (fun m => m.elasticOpt k vc)) :=
  late_andThen (late_unitSet _ _ _) (fun _ => late_elasticOpt (rowsOf_unitSet _ _ _) hv)

theorem late_reg {m : Market} {k : CKey} {t : List Row × List ConReg} {vc : Option VCost}
    (hv : vc = none ∨ ∃ c, vc = some (.num c)) : Late ((m.addRegSet k t).andThen (fun m => m.elasticOpt k vc)) :=
  late_andThen (late_regSet _ _ _) (fun _ => late_elasticOpt (rowsOf_regSet _ _ _) hv)

/-- the call leaves the market as it was, or does not end with a rejection -/
def CleanRes (m : Market) (r : Res) : Prop := r.1 = m ∨ Late r

theorem clean_guard {m : Market} {c : Bool} {e : Err} {r : Res} (h : CleanRes m r) :
    CleanRes m (if c = true then (m, some e) else r) := by
  split
  · exact Or.inl rfl
  · exact h

/-- **C37** A call that rejects its input (an exception of the validator or a `ModelBuildError`) leaves the market as it was.
What is missing: tables by set as violation cost, a violation cost for ramp rates and joint ramping, and other exceptions
(see `C37_negation`). -/
theorem C37_rejected_input_partial (m : Market) (op : Op) {e : Err} (he : (m.step op).2 = some e) (hr : e.rejects = true)
    (hv : op.vcost = none ∨ (∃ k c, op = .elastic k c) ∨ (op.parts.length = 1 ∧ ∃ c, op.vcost = some (.num c))) :
    (m.step op).1 = m := by
  have key : CleanRes m (m.step op) := by
    unfold Market.step
    split
    · exact Or.inl rfl
    cases op with
    | volumeBids b =>
      refine clean_guard (clean_guard ?_)
      dsimp only
      split
      · right; intro e h; simp only [Option.some.injEq] at h; subst h; rfl
      · exact Or.inr late_none
    | priceBids b =>
      simp only [Market.setPriceBids]
      split
      · exact Or.inl rfl
      · exact clean_guard (clean_guard (Or.inr late_none))
    | capacity l vc =>
      refine clean_guard (clean_guard (Or.inr (late_unit ?_)))
      simpa [Op.vcost, Op.parts] using hv
    | uigf l vc =>
      refine clean_guard (clean_guard (Or.inr (late_unit ?_)))
      simpa [Op.vcost, Op.parts] using hv
    | rampRates r sc ps rt vc =>
      simp only [Op.vcost, Op.parts, List.length_cons, List.length_nil] at hv
      have hv : vc = none := by simpa using hv
      subst hv
      refine clean_guard (clean_guard (clean_guard (clean_guard ?_)))
      dsimp only
      split
      · exact Or.inl rfl
      · right
        refine late_andThen (late_unitSet _ _ _) (fun _ => late_andThen (late_unitSet _ _ _) (fun _ => late_andThen ?_ (fun _ => late_none)))
        unfold Market.addBiRamps
        split
        · exact late_none
        · exact late_andThen (late_unitSet _ _ _) (fun _ => late_unitSet _ _ _)
    | fastStart p vc =>
      refine clean_guard ?_
      dsimp only
      split
      · exact Or.inl rfl
      · refine Or.inr (late_unit ?_)
        simpa [Op.vcost, Op.parts] using hv
    | removeFastStart => exact Or.inr late_none
    | demand d vc =>
      refine clean_guard (Or.inr (late_reg ?_))
      simpa [Op.vcost, Op.parts] using hv
    | fcasReq r vc =>
      refine clean_guard (Or.inr (late_reg ?_))
      simpa [Op.vcost, Op.parts] using hv
    | fcasMaxAvail l vc =>
      refine clean_guard (Or.inr (late_unit ?_))
      simpa [Op.vcost, Op.parts] using hv
    | jointRamping r ps rt vc =>
      simp only [Op.vcost, Op.parts, List.length_cons, List.length_nil] at hv
      have hv : vc = none := by simpa using hv
      subst hv
      refine clean_guard (clean_guard ?_)
      dsimp only
      split
      · exact Or.inl rfl
      split
      · exact Or.inl rfl
      · right
        exact late_andThen (late_unitSetIf _ _ _ _) (fun _ => late_andThen (late_unitSetIf _ _ _ _) (fun _ =>
          late_andThen (late_unitSetIf _ _ _ _) (fun _ => late_andThen (late_unitSetIf _ _ _ _) (fun _ => late_none))))
    | jointCapacity t vc =>
      refine clean_guard (clean_guard (Or.inr (late_unit ?_)))
      simpa [Op.vcost, Op.parts] using hv
    | energyReg t vc =>
      refine clean_guard (clean_guard (Or.inr (late_unit ?_)))
      simpa [Op.vcost, Op.parts] using hv
    | interconnectors d =>
      refine clean_guard ?_
      dsimp only
      split
      · right; intro e h; simp only [Option.some.injEq] at h; subst h; rfl
      · exact Or.inr late_none
    | losses f b =>
      refine clean_guard ?_
      dsimp only
      split
      · split
        · right; intro e h; simp only [Option.some.injEq] at h; subst h; rfl
        · exact Or.inr late_none
      · right; intro e h; simp only [Option.some.injEq] at h; subst h; rfl
    | generic g vc =>
      refine clean_guard ?_
      dsimp only
      refine Or.inr (late_elasticOpt (rowsOf_of_con (rows := saveIndex g m.nextCon (fun i g =>
        ({ cid := i, ctype := g.ctype, rhs := g.rhs, set := some g.set } : Row))) ?_) (by simpa [Op.vcost, Op.parts] using hv))
      split <;> exact Dict.get?_set_self _ _ _
    | linkUnits g => exact clean_guard (Or.inr late_none)
    | linkRegions g => exact clean_guard (Or.inr late_none)
    | linkInters g => exact clean_guard (Or.inr late_none)
    | elastic k c =>
      simp only [Market.makeElastic]
      split
      · exact Or.inl rfl
      split
      · exact Or.inl rfl
      split
      · exact Or.inl rfl
      split
      · right; intro e h; simp only [Option.some.injEq] at h; subst h; rfl
      · exact Or.inr late_none
    | tieBreak c =>
      simp only [Market.setTieBreak]
      split
      · split
        · exact Or.inl rfl
        · exact Or.inr (late_elastic_num (rowsOf_of_con (Dict.get?_set_self _ _ _)) c)
      · exact Or.inl rfl
  rcases key with h | h
  · exact h
  · have := h e he; rw [hr] at this; cases this

/-- the capacity of a unit is limited to 40 MW, then the limits are set again with an empty table -/
def emptyCase : Case where
  regions := ["NSW"]
  units := [{ unit := "A", region := "NSW" }]
  hist := [.volumeBids [{ unit := "A", bands := [("1", 50)] }], .demand [{ region := "NSW", demand := 50 }] none,
    .capacity [{ unit := "A", val := 40 }] none]
  sol := [50]

/-- **C37** As stated the property fails: an empty table of limits raises an exception, but the limits set before are gone.
A dispatch of 50 MW is infeasible before the call and feasible after it. -/
theorem C37_negation : ∃ m lp m' lp', emptyCase.final = some m ∧ m.assemble = .ok lp ∧ ¬ Feasible lp emptyCase.x ∧
    m.step (.capacity [] none) = (m', some .valueError) ∧ m'.assemble = .ok lp' ∧ Feasible lp' emptyCase.x := by
  have hb : (match emptyCase.final with
    | none => false
    | some m => (match m.assemble, (m.step (.capacity [] none)).1.assemble with
      | .ok lp, .ok lp' => decide (¬ Feasible lp emptyCase.x ∧ (m.step (.capacity [] none)).2 = some .valueError ∧ Feasible lp' emptyCase.x)
      | _, _ => false)) = true := by decide +kernel
  split at hb
  · cases hb
  rename_i m hm
  split at hb
  · rename_i lp lp' h1 h2
    obtain ⟨a, b, c⟩ := of_decide_eq_true hb
    exact ⟨m, lp, _, lp', hm, h1, a, Prod.ext rfl b, h2, c⟩
  · cases hb

/-- instance of C37: a limit for an unknown unit -/
example : ∃ m, emptyCase.final = some m ∧ (m.step (.capacity [{ unit := "B", val := 40 }] none)).2 = some .validation := by
  have hb : (match emptyCase.final with
    | none => false
    | some m => decide ((m.step (.capacity [{ unit := "B", val := 40 }] none)).2 = some .validation)) = true := by decide +kernel
  split at hb
  · cases hb
  rename_i m hm
  exact ⟨m, hm, of_decide_eq_true hb⟩

/-! ### C38 -/

/-- The call needs volume bids. -/
def Op.needsBids : Op → Bool
  | .priceBids _ | .capacity _ _ | .uigf _ _ | .jointRamping _ _ _ _ | .tieBreak _ => true
  | _ => false

/-- **C38** As long as no volume bids have been set, price bids, capacity limits, UIGF limits, joint ramping and tie break
constraints raise and change nothing. -/
theorem C38_needs_volume_bids {regions : List String} {units : List UnitInfo} {di : ℚ} {m0 : Market} {ops : List Op}
    (h0 : Market.init regions units di = .ok m0) (h : ∀ o ∈ ops, Part.bids ∉ o.parts) {op : Op} (hn : op.needsBids = true) :
    ((m0.run ops).step op).2 ≠ none ∧ ((m0.run ops).step op).1 = m0.run ops := by
  have hs : SamePart m0 (m0.run ops) .bids := part_run h
  have hb : (m0.run ops).bids = none := by rw [hs.1, (init_fresh h0).1]
  generalize m0.run ops = m at hb ⊢
  unfold Market.step
  split
  · simp
  cases op with
  | priceBids b => simp [Market.setPriceBids, hb]
  | capacity l vc => simp [Market.setCapacity, hb]
  | uigf l vc => simp [Market.setUigf, hb]
  | jointRamping r ps rt vc =>
    simp only [Market.setJointRamping, hb]
    split
    · simp
    split <;> simp
  | tieBreak c =>
    simp only [Market.setTieBreak, hb]
    split
    · rename_i h2; cases h2
    · simp
  | _ => simp [Op.needsBids] at hn

/-- **C38** As long as no interconnectors have been set, setting interconnector losses raises, and the program handed to the
solver stays as it was. -/
theorem C38_losses_need_interconnectors {regions : List String} {units : List UnitInfo} {di : ℚ} {m0 : Market} {ops : List Op}
    (h0 : Market.init regions units di = .ok m0) (h : ∀ o ∈ ops, Part.inters ∉ o.parts) (f : List LossFn) (b : List BreakPt) :
    ((m0.run ops).step (.losses f b)).2 ≠ none ∧ ((m0.run ops).step (.losses f b)).1.assemble = (m0.run ops).assemble := by
  have hs : SamePart m0 (m0.run ops) .inters := part_run h
  have hb : (m0.run ops).dirs = none := by rw [hs.1, (init_fresh h0).1]
  generalize m0.run ops = m at hb ⊢
  unfold Market.step
  split
  · simp
  simp only [Market.setLosses, hb]
  split
  · simp
  · exact ⟨by simp, rfl⟩

/-- **C38** Constraints that have not been set cannot be made elastic: the call raises and changes nothing. -/
theorem C38_elastic_needs_constraints {regions : List String} {units : List UnitInfo} {di : ℚ} {m0 : Market} {ops : List Op}
    (h0 : Market.init regions units di = .ok m0) {k : CKey} (h : ∀ o ∈ ops, Part.set k ∉ o.parts) (c : VCost) :
    ((m0.run ops).step (.elastic k c)).2 ≠ none ∧ ((m0.run ops).step (.elastic k c)).1 = m0.run ops := by
  have hs : SameSet k m0 (m0.run ops) := frame_run h
  have h1 : (m0.run ops).conRhs.get? k = none := by rw [hs.conRhs, (init_fresh h0).1]; rfl
  have h2 : (m0.run ops).mktRhs.get? k = none := by rw [hs.mktRhs, (init_fresh h0).1]; rfl
  generalize m0.run ops = m at h1 h2 ⊢
  unfold Market.step
  split
  · simp
  simp [Market.makeElastic, Market.rowsOf, h1, h2]

/-- losses and weights exist only with interconnectors -/
theorem no_losses {m : Market} {ops : List Op} (hi : ∀ o ∈ ops, Part.inters ∉ o.parts) (h0 : m.dirs = none ∧ m.losses = none ∧ m.weights = none) :
    (m.run ops).losses = none ∧ (m.run ops).weights = none := by
  induction ops generalizing m with
  | nil => exact h0.2
  | cons op ops ih =>
    rw [run_cons]
    apply ih (fun o ho => hi o (List.mem_cons_of_mem _ ho))
    have hs : SamePart m (m.run [op]) .inters := part_run (by
      intro o ho; rw [List.mem_singleton.1 ho]; exact hi op (List.mem_cons_self ..))
    refine ⟨by rw [← h0.1]; exact hs.1, ?_⟩
    by_cases hl : Part.set .interpWeights ∈ op.parts
    · cases op with
      | losses f b =>
        unfold Market.step
        split
        · exact h0.2
        simp only [Market.setLosses, h0.1]
        split
        · exact h0.2
        · exact h0.2
      | elastic k c =>
        unfold Market.step
        split
        · exact h0.2
        simp only [Market.makeElastic]
        split
        · exact h0.2
        split
        · exact h0.2
        split
        · exact h0.2
        split <;> exact h0.2
      | _ => simp [Op.parts] at hl
    · have hs : SameSet .interpWeights m (m.run [op]) := frame_run (by
        intro o ho; rw [List.mem_singleton.1 ho]; exact hl)
      have := hs.loss rfl
      have e : m.run [op] = (m.step op).1 := rfl
      rw [e] at this
      rw [this.2.2.1, this.2.2.2.1]
      exact h0.2

/-- **C38** Dispatch needs decision variables: without bids, interconnectors and violation costs it raises. -/
theorem C38_dispatch_needs_variables {regions : List String} {units : List UnitInfo} {di : ℚ} {m0 : Market} {ops : List Op}
    (h0 : Market.init regions units di = .ok m0) (h : ∀ o ∈ ops, Part.bids ∉ o.parts ∧ Part.inters ∉ o.parts ∧ o.vcost = none) :
    ∃ e, (m0.run ops).assemble = .error e := by
  have e0 := (init_fresh h0).1
  have hb : SamePart m0 (m0.run ops) .bids := part_run (fun o ho => (h o ho).1)
  have hi : SamePart m0 (m0.run ops) .inters := part_run (fun o ho => (h o ho).2.1)
  have hd : (m0.run ops).deficits = [] := by
    cases hd : (m0.run ops).deficits with
    | nil => rfl
    | cons e l =>
      have := deficits_never (k := e.1) (m := m0) (ops := ops) (by rw [e0]; rfl) (fun o ho => by simp [Op.asksElastic, (h o ho).2.2])
      rw [hd] at this
      obtain ⟨k, v⟩ := e
      simp [Dict.get?] at this
  have hl := no_losses (m := m0) (fun o ho => (h o ho).2.1) (by rw [e0]; simp)
  have hb1 : (m0.run ops).bids = none := by rw [hb.1, e0]
  have hi1 : (m0.run ops).inters = none := by rw [hi.2.1, e0]
  unfold Market.assemble
  split
  · exact ⟨_, rfl⟩
  split
  · exact ⟨_, rfl⟩
  have : (m0.run ops).noVars = true := by
    simp [Market.noVars, hb1, hi1, hl.1, hl.2, hd]
  rw [if_pos this]
  exact ⟨_, rfl⟩

/-- instance of C38: demand and ramp rates are set, but no volume bids -/
example : ∃ m0, Market.init ["NSW"] [{ unit := "A", region := "NSW" }] 5 = .ok m0 ∧
    ∀ o ∈ [Op.demand [{ region := "NSW", demand := 50 }] none], Part.bids ∉ o.parts ∧ Part.inters ∉ o.parts ∧
      Part.set .unitBidCapacity ∉ o.parts ∧ o.vcost = none := by
  refine ⟨_, rfl, ?_⟩
  intro o ho
  rw [List.mem_singleton.1 ho]
  simp [Op.parts, Op.vcost]

end Verif
