import Verif.Spec.Lp
import Verif.Proofs.Tables
import Verif.Proofs.Demo

/-! # A checker for optimality of concrete solutions

Weak duality: multipliers for the rows give a lower bound of the cost of every feasible point.  Used only to show that
concrete instances meet the hypothesis `Optimal`. -/

namespace Verif

/-- the row as a linear form (left hand side minus right hand side) -/
def LRow.form (r : LRow) : List (Nat × ℚ) :=
  match r.rhs with
  | .const _ => r.coefs
  | .var v => (v, -1) :: r.coefs

/-- the constant on the right hand side -/
def LRow.konst (r : LRow) : ℚ :=
  match r.rhs with
  | .const q => q
  | .var _ => 0

/-- sign of the multiplier of a row -/
def CType.dualOk : CType → ℚ → Bool
  | .ge, p => decide (0 ≤ p)
  | .le, p => decide (p ≤ 0)
  | .eq, _ => true
  | .other, _ => true

/-- objective minus the weighted rows -/
def Lp.reduced (lp : Lp) (duals : List ℚ) : List (Nat × ℚ) :=
  lp.obj ++ (lp.rows.zip duals).flatMap (fun p => p.1.form.map (fun c => (c.1, -p.2 * c.2)))

/-- reduced cost of a variable -/
def reducedCost (f : List (Nat × ℚ)) (v : Nat) : ℚ := ((f.filter (fun c => decide (c.1 = v))).map Prod.snd).sum

/-- lower bound of `q * x v` from the bounds of the variable -/
def LVar.bound (v : LVar) (q : ℚ) : Option ℚ :=
  if 0 ≤ q then some (q * v.lb) else v.ub.map (fun u => q * u)

/-- the multipliers prove that `x` is optimal -/
def Lp.certified (lp : Lp) (x : Nat → ℚ) (duals : List ℚ) : Bool :=
  decide ((lp.vars.map LVar.vid).Nodup) &&
  (lp.reduced duals).all (fun c => decide (c.1 ∈ lp.vars.map LVar.vid)) &&
  (lp.rows.zip duals).all (fun p => p.1.ctype.dualOk p.2) &&
  lp.vars.all (fun v => (v.bound (reducedCost (lp.reduced duals) v.vid)).isSome) &&
  decide (lp.cost x ≤ (lp.vars.map (fun v => (v.bound (reducedCost (lp.reduced duals) v.vid)).getD 0)).sum +
    ((lp.rows.zip duals).map (fun p => p.2 * p.1.konst)).sum)

theorem linVal_append (x : Nat → ℚ) (a b : List (Nat × ℚ)) : linVal x (a ++ b) = linVal x a + linVal x b := by
  simp [linVal]

theorem linVal_vars {x : Nat → ℚ} {vs : List LVar} (hn : (vs.map LVar.vid).Nodup) {f : List (Nat × ℚ)}
    (h : ∀ c ∈ f, c.1 ∈ vs.map LVar.vid) : linVal x f = (vs.map (fun v => reducedCost f v.vid * x v.vid)).sum := by
  have h1 : ∀ v : LVar, reducedCost f v.vid * x v.vid = (f.map (fun c => if c.1 = v.vid then c.2 * x c.1 else 0)).sum := by
    intro v
    unfold reducedCost
    rw [mul_comm, ← sum_map_mul_left, sum_filter_eq_ite]
    apply sum_map_congr
    intro c _
    by_cases hc : c.1 = v.vid
    · simp [hc, mul_comm]
    · simp [hc]
  rw [sum_map_congr _ _ _ (fun v _ => h1 v), sum_comm]
  unfold linVal
  apply sum_map_congr
  intro c hc
  obtain ⟨v, hv, e⟩ := List.mem_map.1 (h c hc)
  have hu := filter_key_unique hn hv
  have : (vs.map (fun v => if c.1 = v.vid then c.2 * x c.1 else 0)).sum =
      ((vs.filter (fun b => decide (b.vid = v.vid))).map (fun _ => c.2 * x c.1)).sum := by
    rw [sum_filter_eq_ite]
    apply sum_map_congr
    intro w _
    rw [e]
    by_cases hw : w.vid = c.1
    · simp [hw]
    · have : ¬ c.1 = w.vid := fun h => hw h.symm
      simp [hw, this]
  rw [this, hu]
  simp

theorem bound_le {v : LVar} {x : Nat → ℚ} (h : v.holds x) {q b : ℚ} (hb : v.bound q = some b) : b ≤ q * x v.vid := by
  unfold LVar.bound at hb
  split at hb
  · rename_i hq
    cases hb
    exact mul_le_mul_of_nonneg_left h.1 hq
  · rename_i hq
    obtain ⟨u, hu, rfl⟩ := Option.map_eq_some_iff.1 hb
    exact mul_le_mul_of_nonpos_left (h.2 u hu) (le_of_lt (not_le.1 hq))

theorem dual_nonneg {r : LRow} {x : Nat → ℚ} (h : r.holds x) {p : ℚ} (hp : r.ctype.dualOk p = true) :
    0 ≤ p * (linVal x r.form - r.konst) := by
  have e : linVal x r.form - r.konst = linVal x r.coefs - r.rhs.eval x := by
    unfold LRow.form LRow.konst Rhs.eval
    cases r.rhs with
    | const q => rfl
    | var v => simp [linVal]; ring
  rw [e]
  unfold LRow.holds at h
  cases hc : r.ctype with
  | le =>
    rw [hc] at h hp
    simp only [CType.holds, CType.dualOk, decide_eq_true_eq] at h hp
    nlinarith
  | ge =>
    rw [hc] at h hp
    simp only [CType.holds, CType.dualOk, decide_eq_true_eq] at h hp
    nlinarith
  | eq =>
    rw [hc] at h
    simp only [CType.holds] at h
    rw [h]; simp
  | other =>
    rw [hc] at h
    exact absurd h (by simp [CType.holds])

theorem Lp.certified_optimal {lp : Lp} {x : Nat → ℚ} {duals : List ℚ} (hx : Feasible lp x)
    (h : lp.certified x duals = true) : Optimal lp x := by
  refine ⟨hx, fun y hy => ?_⟩
  unfold Lp.certified at h
  simp only [Bool.and_eq_true, decide_eq_true_eq, List.all_eq_true] at h
  obtain ⟨⟨⟨⟨hn, hv⟩, hd⟩, hb⟩, hc⟩ := h
  have h1 := linVal_vars (x := y) hn hv
  have h2 : (lp.vars.map (fun v => (v.bound (reducedCost (lp.reduced duals) v.vid)).getD 0)).sum ≤
      linVal y (lp.reduced duals) := by
    rw [h1]
    apply sum_map_le
    intro v hvm
    obtain ⟨b, hbb⟩ := Option.isSome_iff_exists.1 (hb v hvm)
    rw [hbb]
    exact bound_le (hy.vars v hvm) hbb
  have h3 : linVal y (lp.reduced duals) = lp.cost y - ((lp.rows.zip duals).map (fun p => p.2 * linVal y p.1.form)).sum := by
    unfold Lp.reduced Lp.cost
    rw [linVal_append]
    have : linVal y ((lp.rows.zip duals).flatMap (fun p => p.1.form.map (fun c => (c.1, -p.2 * c.2)))) =
        -((lp.rows.zip duals).map (fun p => p.2 * linVal y p.1.form)).sum := by
      unfold linVal
      rw [sum_map_flatMap]
      rw [← neg_one_mul, ← sum_map_mul_left]
      apply sum_map_congr
      intro p _
      rw [List.map_map, ← sum_map_mul_left, ← sum_map_mul_left]
      apply sum_map_congr
      intro c _
      simp only [Function.comp]
      ring
    rw [this]
    ring
  have h4 : 0 ≤ ((lp.rows.zip duals).map (fun p => p.2 * linVal y p.1.form - p.2 * p.1.konst)).sum := by
    apply sum_map_nonneg
    intro p hp
    have := dual_nonneg (hy.rows p.1 (List.of_mem_zip (show (p.1, p.2) ∈ lp.rows.zip duals from hp)).1) (hd p hp)
    linarith
  rw [sum_map_sub] at h4
  linarith

/-- the program of the final market is built, the solution is feasible and certified optimal -/
def Case.best (s : Case) (duals : List ℚ) (P : Market → Bool) : Bool :=
  match s.final with
  | none => false
  | some m => (match m.assemble with
    | .error _ => false
    | .ok lp => decide (Feasible lp s.x) && lp.certified s.x duals) && P m

theorem Case.optimal {s : Case} {duals : List ℚ} {P : Market → Bool} (h : s.best duals P = true) :
    ∃ m lp, s.final = some m ∧ m.assemble = .ok lp ∧ Optimal lp s.x ∧ P m = true := by
  unfold Case.best at h
  split at h
  · cases h
  rename_i m hm
  simp only [Bool.and_eq_true] at h
  obtain ⟨h1, h2⟩ := h
  split at h1
  · cases h1
  rename_i lp hlp
  simp only [Bool.and_eq_true] at h1
  exact ⟨m, lp, hm, hlp, lp.certified_optimal (of_decide_eq_true h1.1) h1.2, h2⟩

end Verif
