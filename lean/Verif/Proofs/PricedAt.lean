import Verif.Spec.Priced
import Verif.Spec.Elastic
import Verif.Proofs.Frame
import Verif.Proofs.ElasticOps

/-! Calls with a violation cost are accepted as without. -/

namespace Verif

/-- a table of constraints has violation variables unless it is empty -/
def Softens (rows : List Row) : Prop := rows ≠ [] → ∃ r ∈ rows, r.ctype ≠ .other

theorem Softens.of {rows : List Row} (h : ∀ r ∈ rows, r.ctype ≠ .other) : Softens rows := by
  intro hn
  obtain ⟨r, hr⟩ := List.exists_mem_of_ne_nil _ hn
  exact ⟨r, hr, h r hr⟩

theorem saveIndex_eq_nil {α β : Type} {l : List α} {n : Nat} {f : Nat → α → β} : saveIndex l n f = [] ↔ l = [] := by
  cases l <;> simp [saveIndex]

theorem makeElastic_accepted {m : Market} {k : CKey} {rows : List Row} (h : m.rowsOf k = some rows) (hs : Softens rows) (c : ℚ) :
    (m.makeElastic k (.num c)).2 = none := by
  unfold Market.makeElastic
  rw [h]
  simp only [costRows]
  split
  · rfl
  · rename_i hne
    have hne' : rows ≠ [] := by simpa using hne
    obtain ⟨r, hr, ht⟩ := hs hne'
    rw [if_neg]
    unfold deficitVariables
    simp only [List.isEmpty_iff, List.append_eq_nil_iff, saveIndex_eq_nil, List.filter_eq_nil_iff, not_and]
    intro h1
    have a := h1.1 (r, c) (List.mem_map_of_mem hr)
    have b := h1.2 (r, c) (List.mem_map_of_mem hr)
    simp only [isIneq, isEqual, decide_eq_true_eq] at a b
    cases hc : r.ctype <;> simp_all

theorem unit_accepted {m : Market} {k : CKey} (hk : m.mktRhs.get? k = none) {t : List Row × List ConUnit} (hs : Softens t.1) (c : ℚ) :
    ((m.addUnitSet k t).andThen (fun m => m.elasticOpt k (some (.num c)))).2 =
      ((m.addUnitSet k t).andThen (fun m => m.elasticOpt k none)).2 := by
  refine Eq.trans ?_ (congrArg Prod.snd (andThen_pair _).symm)
  by_cases he : t.1.isEmpty = true
  · simp only [Market.addUnitSet, Res.andThen, he, if_true]
  · simp only [Market.addUnitSet, Res.andThen, he, if_false, Bool.false_eq_true]
    refine makeElastic_accepted (rows := t.1) ?_ hs c
    unfold Market.rowsOf
    dsimp only
    rw [hk, Dict.get?_set_self]

theorem reg_accepted {m : Market} {k : CKey} {t : List Row × List ConReg} (hs : Softens t.1) (c : ℚ) :
    ((m.addRegSet k t).andThen (fun m => m.elasticOpt k (some (.num c)))).2 =
      ((m.addRegSet k t).andThen (fun m => m.elasticOpt k none)).2 := by
  refine Eq.trans ?_ (congrArg Prod.snd (andThen_pair _).symm)
  by_cases he : t.1.isEmpty = true
  · simp only [Market.addRegSet, Res.andThen, he, if_true]
  · simp only [Market.addRegSet, Res.andThen, he, if_false, Bool.false_eq_true]
    refine makeElastic_accepted (rows := t.1) ?_ hs c
    unfold Market.rowsOf
    dsimp only
    rw [Dict.get?_set_self]

/-! ### Sets that need not be there -/

/-- the constraints of a set have violation variables -/
structure Typed (k : CKey) (m : Market) : Prop where
  mkt : m.mktRhs.get? k = none
  rows : ∀ rows, m.conRhs.get? k = some rows → Softens rows
  has : m.unitCon.has k = true → ∃ rows, m.conRhs.get? k = some rows

theorem Typed.same {k : CKey} {m m' : Market} (h : Typed k m) (hs : SameSet k m m') : Typed k m' := by
  refine ⟨by rw [hs.mktRhs]; exact h.mkt, by rw [hs.conRhs]; exact h.rows, ?_⟩
  unfold Dict.has
  rw [hs.conRhs, hs.unitCon]
  exact h.has

theorem Typed.unitSet {k k' : CKey} {m : Market} (h : Typed k m) {t : List Row × List ConUnit} (ht : k' = k → Softens t.1) :
    Typed k (m.addUnitSet k' t).1 := by
  have e : ∀ m' : Market, m'.mktRhs = m.mktRhs → m'.conRhs = m.conRhs.set k' t.1 → m'.unitCon = m.unitCon.set k' t.2 → Typed k m' := by
    intro m' e1 e2 e3
    refine ⟨by rw [e1]; exact h.mkt, ?_, ?_⟩
    · intro rows hr
      rw [e2] at hr
      by_cases hk : k' = k
      · subst hk
        rw [Dict.get?_set_self] at hr
        injection hr with hr
        rw [← hr]; exact ht rfl
      · rw [Dict.get?_set_ne _ _ hk] at hr
        exact h.rows rows hr
    · intro hh
      rw [e2]
      by_cases hk : k' = k
      · subst hk
        exact ⟨_, Dict.get?_set_self _ _ _⟩
      · rw [Dict.get?_set_ne _ _ hk]
        refine h.has ?_
        unfold Dict.has at hh ⊢
        rw [e3, Dict.get?_set_ne _ _ hk] at hh
        exact hh
  unfold Market.addUnitSet
  dsimp only
  split <;> exact e _ rfl rfl rfl

theorem Typed.elastic {k k' : CKey} {m : Market} (h : Typed k m) (vc : VCost) : Typed k (m.makeElastic k' vc).1 := by
  have e : ∀ m' : Market, m'.mktRhs = m.mktRhs → m'.conRhs = m.conRhs → m'.unitCon = m.unitCon → Typed k m' := by
    intro m' e1 e2 e3
    exact ⟨by rw [e1]; exact h.mkt, by rw [e2]; exact h.rows, by rw [e2, e3]; exact h.has⟩
  unfold Market.makeElastic
  dsimp only
  repeat' split
  all_goals exact e _ rfl rfl rfl

theorem Typed.andThen {k : CKey} {r : Res} {f : Market → Res} (h : Typed k r.1) (hf : ∀ m, Typed k m → Typed k (f m).1) :
    Typed k (r.andThen f).1 := by
  unfold Res.andThen
  split
  · exact hf _ h
  · exact h

theorem Typed.ifPresent {k k' : CKey} {m : Market} (h : Typed k m) (vc : VCost) : Typed k (m.elasticIfPresent k' vc).1 := by
  unfold Market.elasticIfPresent
  split
  · exact h.elastic vc
  · exact h

theorem ifPresent_accepted {m : Market} {k : CKey} (h : Typed k m) (c : ℚ) : (m.elasticIfPresent k (.num c)).2 = none := by
  unfold Market.elasticIfPresent
  split
  · rename_i hh
    obtain ⟨rows, hr⟩ := h.has hh
    exact makeElastic_accepted (rows := rows) (by unfold Market.rowsOf; rw [h.mkt]; exact hr) (h.rows rows hr) c
  · rfl

theorem softens_limits (ls : List Lim) (n : Nat) {d : CType} (hd : d ≠ .other) : Softens (createConstraints ls n d).1 := by
  refine Softens.of (fun r hr => ?_)
  obtain ⟨i, l, _, rfl⟩ := mem_saveIndex.1 hr
  exact hd

theorem softens_biRamp (bi : List BiRamp) (b : Bool) (n : Nat) (di : ℚ) : Softens (biRampConstraints bi b n di).1 := by
  refine Softens.of (fun r hr => ?_)
  obtain ⟨i, l, _, rfl⟩ := mem_saveIndex.1 hr
  cases b <;> simp

theorem softens_jr (rs : List RegRate) (di : ℚ) (n : Nat) {g l : JrSettings} (hg : g.ctype ≠ .other) (hl : l.ctype ≠ .other) :
    Softens (jrConstructor rs di n g l).1 := by
  refine Softens.of (fun r hr => ?_)
  unfold jrConstructor at hr
  dsimp only at hr
  rcases List.mem_append.1 hr with hr | hr
  · obtain ⟨c, _, rfl⟩ := List.mem_map.1 hr
    exact hg
  · obtain ⟨c, _, rfl⟩ := List.mem_map.1 hr
    exact hl

theorem softens_jrBdu (rs : List RegRate) (di : ℚ) (n : Nat) {d : CType} (hd : d ≠ .other) (s : ℚ) : Softens (jrBdu rs di n d s).1 := by
  refine Softens.of (fun r hr => ?_)
  obtain ⟨c, _, rfl⟩ := List.mem_map.1 hr
  exact hd

theorem Typed.elasticOpt {k k' : CKey} {m : Market} (h : Typed k m) (vc : Option VCost) : Typed k (m.elasticOpt k' vc).1 := by
  cases vc with
  | none => exact h
  | some vc => exact h.elastic vc

theorem Typed.elasticRamps {k : CKey} {m : Market} (h : Typed k m) (vc : Option VCost) : Typed k (m.elasticRamps vc).1 := by
  cases vc with
  | none => exact h
  | some vc => exact (h.elastic vc).andThen (fun _ h => (h.elastic vc).andThen (fun _ h => (h.ifPresent vc).andThen (fun _ h => h.ifPresent vc)))

theorem Typed.elasticJr {k : CKey} {m : Market} (h : Typed k m) (vc : Option VCost) : Typed k (m.elasticJr vc).1 := by
  cases vc with
  | none => exact h
  | some vc => exact (h.elastic vc).andThen (fun _ h => (h.elastic vc).andThen (fun _ h => (h.ifPresent vc).andThen (fun _ h => h.ifPresent vc)))

theorem Typed.unitSetIf {k k' : CKey} {m : Market} (h : Typed k m) {b : Bool} {t : List Row × List ConUnit} (ht : k' = k → Softens t.1) :
    Typed k (m.addUnitSetIf k' b t).1 := by
  unfold Market.addUnitSetIf
  split
  · exact h.unitSet ht
  · exact h

theorem Typed.addBiRamps {k : CKey} {m : Market} (h : Typed k m) (bi : List BiRamp) : Typed k (m.addBiRamps bi).1 := by
  unfold Market.addBiRamps
  split
  · exact h
  · exact (h.unitSet (fun _ => softens_biRamp _ _ _ _)).andThen (fun m h => h.unitSet (fun _ => softens_biRamp _ _ _ _))

theorem typed_rampRates {k : CKey} {m : Market} (h : Typed k m) (rs : List RampRow) (sc : Option (List Scada)) (ps : Option (List FsRamp))
    (rt : RunType) (vc : Option VCost) : Typed k (m.setRampRates rs sc ps rt vc).1 := by
  unfold Market.setRampRates
  dsimp only
  repeat' split
  all_goals first | exact h | skip
  exact (h.unitSet (fun _ => softens_limits _ _ (by decide))).andThen (fun m h =>
    (h.unitSet (fun _ => softens_limits _ _ (by decide))).andThen (fun m h => (h.addBiRamps _).andThen (fun m h => h.elasticRamps vc)))

theorem typed_jointRamping {k : CKey} {m : Market} (h : Typed k m) (rs : List RampRow) (ps : Option (List FsRamp))
    (rt : RunType) (vc : Option VCost) : Typed k (m.setJointRamping rs ps rt vc).1 := by
  unfold Market.setJointRamping
  dsimp only
  repeat' split
  all_goals first | exact h | skip
  exact (h.unitSetIf (fun _ => softens_jr _ _ _ (by simp) (by simp))).andThen (fun m h =>
    (h.unitSetIf (fun _ => softens_jrBdu _ _ _ (by simp) _)).andThen (fun m h =>
      (h.unitSetIf (fun _ => softens_jr _ _ _ (by simp) (by simp))).andThen (fun m h =>
        (h.unitSetIf (fun _ => softens_jrBdu _ _ _ (by simp) _)).andThen (fun m h => h.elasticJr vc))))

/-- sets of the calls that define several -/
def CKey.optional : CKey → Prop
  | .rampUp | .rampDown | .biRampUp | .biRampDown | .jrRaise | .jrLower | .jrRaiseBdu | .jrLowerBdu => True
  | _ => False

theorem typed_step {k : CKey} (hk : k.optional) {m : Market} (h : Typed k m) (op : Op) : Typed k (m.step op).1 := by
  have hf : Part.set k ∉ op.parts → Typed k (m.step op).1 := fun hn =>
    h.same (frame_steps (good := False) (step_steps m op (fun h => h.elim)) hn)
  cases op
  case rampRates rs sc ps rt vc =>
    unfold Market.step
    split
    · exact h
    · exact typed_rampRates h rs sc ps rt vc
  case jointRamping rs ps rt vc =>
    unfold Market.step
    split
    · exact h
    · exact typed_jointRamping h rs ps rt vc
  case elastic k' vc =>
    unfold Market.step
    split
    · exact h
    · exact h.elastic vc
  all_goals
    refine hf ?_
    cases k <;> first | exact hk.elim | simp [Op.parts]

theorem typed_run {k : CKey} (hk : k.optional) (ops : List Op) {m : Market} (h : Typed k m) : Typed k (m.run ops) := by
  induction ops generalizing m with
  | nil => exact h
  | cons op ops ih => exact ih (typed_step hk h op)

theorem Reached.typed {m : Market} (h : Reached m) {k : CKey} (hk : k.optional) : Typed k m := by
  obtain ⟨r, u, d, m0, ops, h1, h2, rfl⟩ := h
  refine typed_run hk ops ?_
  rw [(init_fresh h1).1]
  refine ⟨rfl, ?_, ?_⟩
  · intro _ h; cases h
  · intro h; cases h

/-! ### Sets that are there -/

theorem andThen_outcome {r : Res} {f g : Market → Res} (h : r.2 = none → (f r.1).2 = (g r.1).2) : (r.andThen f).2 = (r.andThen g).2 := by
  unfold Res.andThen
  split
  · rename_i e; exact h e
  · rfl

/-- the set is there -/
def There (k : CKey) (m : Market) : Prop := (m.conRhs.get? k).isSome = true

theorem There.unitSet {k k' : CKey} {m : Market} (h : There k m) (t : List Row × List ConUnit) : There k (m.addUnitSet k' t).1 := by
  have e : There k { m with conRhs := m.conRhs.set k' t.1 } := by
    unfold There
    dsimp only
    by_cases hk : k' = k
    · subst hk; rw [Dict.get?_set_self]; rfl
    · rw [Dict.get?_set_ne _ _ hk]; exact h
  unfold Market.addUnitSet
  dsimp only
  split <;> exact e

theorem there_unitSet (k : CKey) (m : Market) (t : List Row × List ConUnit) : There k (m.addUnitSet k t).1 := by
  unfold Market.addUnitSet There
  dsimp only
  split <;> (dsimp only; rw [Dict.get?_set_self]; rfl)

theorem There.elastic {k k' : CKey} {m : Market} (vc : VCost) : There k (m.makeElastic k' vc).1 ↔ There k m := by
  unfold Market.makeElastic There
  dsimp only
  repeat' split
  all_goals rfl

theorem elastic_outcome {k : CKey} {m : Market} (ht : Typed k m) (c : ℚ) : (m.makeElastic k (.num c)).2 = none ↔ There k m := by
  unfold There
  cases h : m.conRhs.get? k with
  | none =>
    have : m.rowsOf k = none := by unfold Market.rowsOf; rw [ht.mkt]; exact h
    simp [Market.makeElastic, this]
  | some rows =>
    simp only [Option.isSome_some, iff_true]
    exact makeElastic_accepted (rows := rows) (by unfold Market.rowsOf; rw [ht.mkt]; exact h) (ht.rows rows h) c

theorem andThen_accepted {r : Res} {f : Market → Res} : (r.andThen f).2 = none ↔ r.2 = none ∧ (f r.1).2 = none := by
  unfold Res.andThen
  split
  · rename_i e; simp [e]
  · rename_i e he; simp [he]

theorem andThen_iff {r : Res} {f g : Market → Res} {P : Market → Prop} (h : (f r.1).2 = none ↔ (g r.1).2 = none ∧ P (g r.1).1) :
    (r.andThen f).2 = none ↔ (r.andThen g).2 = none ∧ P (r.andThen g).1 := by
  unfold Res.andThen
  split
  · exact h
  · simp

end Verif
