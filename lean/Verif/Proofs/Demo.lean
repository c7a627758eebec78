import Verif.Spec.History
import Verif.Spec.Lp

/-! Machinery for concrete instances: decidability of the specifications, and a checker whose success
gives an instance of the hypotheses of the property theorems. -/

namespace Verif

instance (ty : CType) (a b : ℚ) : Decidable (ty.holds a b) := by
  cases ty <;> unfold CType.holds <;> infer_instance

instance (x : Nat → ℚ) (r : LRow) : Decidable (r.holds x) := by unfold LRow.holds; infer_instance

instance (x : Nat → ℚ) (v : LVar) : Decidable (v.holds x) :=
  match h : v.ub with
  | none => decidable_of_iff (v.lb ≤ x v.vid) (by unfold LVar.holds; simp [h])
  | some u => decidable_of_iff (v.lb ≤ x v.vid ∧ x v.vid ≤ u) (by unfold LVar.holds; simp [h])

instance (x : Nat → ℚ) (g : List (Nat × Int)) : Decidable (Sos2 x g) := by unfold Sos2; infer_instance
instance (x : Nat → ℚ) (g : List Nat) : Decidable (Sos1 x g) := by unfold Sos1; infer_instance

instance (lp : Lp) (x : Nat → ℚ) : Decidable (Feasible lp x) :=
  decidable_of_iff ((∀ v ∈ lp.vars, v.holds x) ∧ (∀ r ∈ lp.rows, r.holds x) ∧ (∀ g ∈ lp.sos2, Sos2 x g) ∧
    (∀ g ∈ lp.sos1, Sos1 x g)) ⟨fun ⟨a, b, c, d⟩ => ⟨a, b, c, d⟩, fun ⟨a, b, c, d⟩ => ⟨a, b, c, d⟩⟩

instance (m : Market) (bs : List BreakPt) : Decidable (LinksKnown m bs) := by unfold LinksKnown; infer_instance

instance (m : Market) (op : Op) : Decidable (op.benign m) := by
  cases op <;> unfold Op.benign <;> infer_instance

/-- decision procedure for `Benign` -/
def benignB : Market → List Op → Bool
  | _, [] => true
  | m, op :: ops => decide (op.benign m) && benignB (m.step op).1 ops

theorem benignB_iff {m : Market} {ops : List Op} : benignB m ops = true ↔ Benign m ops := by
  induction ops generalizing m with
  | nil => simp [benignB, Benign]
  | cons op ops ih => simp [benignB, Benign, ih]

instance (m : Market) (u : String) (d : DType) : Decidable (m.lists u d) := by unfold Market.lists; infer_instance
instance (m : Market) (u : String) (s : Service) (d : DType) : Decidable (m.bidsFor u s d) := by
  unfold Market.bidsFor; infer_instance

/-- A concrete scenario: constructor arguments, calls and a candidate solution. -/
structure Scenario where
  regions : List String
  units : List UnitInfo
  di : ℚ := 5
  before : List Op
  op : Op
  after : List Op := []
  sol : List ℚ

/-- the solution as an assignment -/
def Scenario.x (s : Scenario) : Nat → ℚ := fun i => s.sol.getD i 0

/-- run the scenario: the final market, if the call succeeded, the history is benign and later calls
are about other constraint sets -/
def Scenario.final (s : Scenario) : Option Market :=
  match Market.init s.regions s.units s.di with
  | .error _ => none
  | .ok m0 =>
    if benignB m0 (s.before ++ s.op :: s.after) && decide (((m0.run s.before).step s.op).2 = none) &&
        decide (∀ o ∈ s.after, ∀ p ∈ s.op.parts, p ∉ o.parts) then
      some (m0.run (s.before ++ s.op :: s.after))
    else none

/-- the scenario runs, its program is built, the solution is feasible and the market satisfies `P` -/
def Scenario.ok (s : Scenario) (P : Market → Bool) : Bool :=
  match s.final with
  | none => false
  | some m => (match m.assemble with
    | .error _ => false
    | .ok lp => decide (Feasible lp s.x)) && P m

/-- later calls leave the parts `keep` alone -/
def Scenario.keeps (s : Scenario) (keep : List Part) : Bool :=
  decide (∀ o ∈ s.after, ∀ p ∈ keep ++ s.op.parts, p ∉ o.parts)

theorem Scenario.witness {s : Scenario} {P : Market → Bool} (h : s.ok P = true) :
    ∃ m lp, InForce s.op m ∧ m.assemble = .ok lp ∧ Feasible lp s.x ∧ P m = true := by
  unfold Scenario.ok at h
  split at h
  · cases h
  rename_i m hm
  simp only [Bool.and_eq_true] at h
  obtain ⟨h1, h2⟩ := h
  split at h1
  · cases h1
  rename_i lp hlp
  refine ⟨m, lp, ?_, hlp, of_decide_eq_true h1, h2⟩
  unfold Scenario.final at hm
  split at hm
  · cases hm
  rename_i m0 hi
  split at hm
  · rename_i hc
    injection hm with hm
    simp only [Bool.and_eq_true, decide_eq_true_eq] at hc
    exact ⟨s.regions, s.units, s.di, m0, s.before, s.after, hi, benignB_iff.1 hc.1.1, hc.1.2, hc.2, hm.symm⟩
  · cases hm

theorem Scenario.witnessKeeping {s : Scenario} (keep : List Part) {P : Market → Bool} (h : (s.ok P && s.keeps keep) = true) :
    ∃ m lp, InForceKeeping keep s.op m ∧ m.assemble = .ok lp ∧ Feasible lp s.x ∧ P m = true := by
  simp only [Bool.and_eq_true] at h
  obtain ⟨h, hk⟩ := h
  unfold Scenario.ok at h
  split at h
  · cases h
  rename_i m hm
  simp only [Bool.and_eq_true] at h
  obtain ⟨h1, h2⟩ := h
  split at h1
  · cases h1
  rename_i lp hlp
  refine ⟨m, lp, ?_, hlp, of_decide_eq_true h1, h2⟩
  unfold Scenario.final at hm
  split at hm
  · cases hm
  rename_i m0 hi
  split at hm
  · rename_i hc
    injection hm with hm
    simp only [Bool.and_eq_true, decide_eq_true_eq] at hc
    exact ⟨s.regions, s.units, s.di, m0, s.before, s.after, hi, benignB_iff.1 hc.1.1, hc.1.2, of_decide_eq_true hk, hm.symm⟩
  · cases hm

/-- A concrete history with a candidate solution, for statements about several calls. -/
structure Case where
  regions : List String
  units : List UnitInfo
  di : ℚ := 5
  hist : List Op
  sol : List ℚ

/-- the solution as an assignment -/
def Case.x (s : Case) : Nat → ℚ := fun i => s.sol.getD i 0

/-- the final market, if the history is benign -/
def Case.final (s : Case) : Option Market :=
  match Market.init s.regions s.units s.di with
  | .error _ => none
  | .ok m0 => if benignB m0 s.hist then some (m0.run s.hist) else none

/-- call number `i` is in force at the end and the parts `keep` are left alone after it -/
def Case.holds (s : Case) (i : Nat) (keep : List Part) : Bool :=
  match Market.init s.regions s.units s.di, s.hist[i]? with
  | .ok m0, some op => decide (((m0.run (s.hist.take i)).step op).2 = none) &&
      decide (∀ o ∈ s.hist.drop (i + 1), ∀ p ∈ keep ++ op.parts, p ∉ o.parts)
  | _, _ => false

theorem Case.inForce {s : Case} {m : Market} (h : s.final = some m) {i : Nat} {op : Op} {keep : List Part}
    (ho : s.hist[i]? = some op) (hh : s.holds i keep = true) : InForceKeeping keep op m := by
  unfold Case.final at h
  unfold Case.holds at hh
  cases hm : Market.init s.regions s.units s.di with
  | error e => rw [hm] at h; cases h
  | ok m0 =>
    rw [hm] at h hh
    simp only [ho, Bool.and_eq_true, decide_eq_true_eq] at hh
    simp only at h
    split at h
    · rename_i hb
      injection h with h
      have e : s.hist = s.hist.take i ++ op :: s.hist.drop (i + 1) := by
        obtain ⟨hlt, e⟩ := List.getElem?_eq_some_iff.1 ho
        conv_lhs => rw [← List.take_append_drop i s.hist, List.drop_eq_getElem_cons hlt, e]
      exact ⟨s.regions, s.units, s.di, m0, _, _, hm, by rw [← e]; exact benignB_iff.1 hb, hh.1, hh.2, by rw [← e]; exact h.symm⟩
    · cases h

/-- the program of the final market is built, the solution is feasible and the market satisfies `P` -/
def Case.ok (s : Case) (P : Market → Bool) : Bool :=
  match s.final with
  | none => false
  | some m => (match m.assemble with | .error _ => false | .ok lp => decide (Feasible lp s.x)) && P m

theorem Case.witness {s : Case} {P : Market → Bool} (h : s.ok P = true) :
    ∃ m lp, s.final = some m ∧ m.assemble = .ok lp ∧ Feasible lp s.x ∧ P m = true := by
  unfold Case.ok at h
  split at h
  · cases h
  rename_i m hm
  simp only [Bool.and_eq_true] at h
  obtain ⟨h1, h2⟩ := h
  split at h1
  · cases h1
  rename_i lp hlp
  exact ⟨m, lp, hm, hlp, of_decide_eq_true h1, h2⟩

/-- two calls in force -/
theorem Case.witness2 {s : Case} {P : Market → Bool} {i j : Nat} {op op' : Op} {keep keep' : List Part}
    (hi : s.hist[i]? = some op) (hj : s.hist[j]? = some op') (h : (s.ok P && s.holds i keep && s.holds j keep') = true) :
    ∃ m lp, InForceKeeping keep op m ∧ InForceKeeping keep' op' m ∧ m.assemble = .ok lp ∧ Feasible lp s.x ∧ P m = true := by
  simp only [Bool.and_eq_true] at h
  obtain ⟨m, lp, h1, h2⟩ := Case.witness h.1.1
  exact ⟨m, lp, Case.inForce h1 hi h.1.2, Case.inForce h1 hj h.2, h2⟩

theorem Case.reached {s : Case} {m : Market} (h : s.final = some m) : Reached m := by
  unfold Case.final at h
  cases hm : Market.init s.regions s.units s.di with
  | error e => rw [hm] at h; cases h
  | ok m0 =>
    rw [hm] at h
    simp only at h
    split at h
    · rename_i hb
      injection h with h
      exact ⟨s.regions, s.units, s.di, m0, s.hist, hm, benignB_iff.1 hb, h.symm⟩
    · cases h

end Verif
