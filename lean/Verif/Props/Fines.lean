import Verif.Props.Dearer

/-!
# C136: raising violation costs never increases violations
-/

namespace Verif

theorem fines_nonneg {m : Market} (hp : DefAll (0 ≤ ·) m) {lp : Lp} (E : m.assemble = .ok lp) {x : Nat → ℚ} (hx : Feasible lp x) : 0 ≤ m.fines x := by
  have hv : ∀ e ∈ m.deficits, e.1.soft = true → ∀ v ∈ e.2.1, 0 ≤ x v.vid := by
    intro e he hs v hv
    refine (hx.vars { vid := v.vid, lb := 0, ub := none } ?_).1
    rw [(assemble_parts E).1]
    exact vars_stiff.2 (Or.inr ⟨e, he, hs, v, hv, rfl⟩)
  unfold Market.fines
  apply List.sum_nonneg
  intro q hq
  obtain ⟨e, he, rfl⟩ := List.mem_map.1 hq
  apply List.sum_nonneg
  intro q hq
  obtain ⟨v, hvm, rfl⟩ := List.mem_map.1 hq
  exact mul_nonneg (hp e (List.mem_of_mem_filter he) v hvm) (hv e (List.mem_of_mem_filter he) (List.mem_filter.1 he).2 v hvm)

section
variable {regions : List String} {units : List UnitInfo} {di : ℚ} {m0 : Market} {ops : List Op} {LP lp lp' : Lp} {k k' : ℚ}
  (hi : Market.init regions units di = .ok m0) (E : (m0.run ops).assemble = .ok LP) (hk : 0 < k) (hkk : k < k')
  (h : (m0.run (dearer k ops)).assemble = .ok lp) (h' : (m0.run (dearer k' ops)).assemble = .ok lp')
include hi E hk hkk h h'

/-- the two programs have the same feasible schedules, and their costs are the rest of the objective and the fines -/
theorem fined : (∀ z, Feasible lp z ↔ Feasible LP z) ∧ (∀ z, Feasible lp' z ↔ Feasible LP z) ∧
    ∃ rest : (Nat → ℚ) → ℚ, ∀ z, LP.cost z = rest z + (m0.run ops).fines z ∧ lp.cost z = rest z + k * (m0.run ops).fines z ∧
      lp'.cost z = rest z + k' * (m0.run ops).fines z := by
  rw [run_dearer hi hk.ne', assemble_dr, E] at h
  rw [run_dearer hi (hk.trans hkk).ne', assemble_dr, E] at h'
  injection h with h
  injection h' with h'
  subst h h'
  refine ⟨fun z => feasible_dr .., fun z => feasible_dr .., fun z => linVal z (m0.run ops).stiff.objective, fun z => ⟨?_, ?_, ?_⟩⟩
  · have := linVal_dr 1 (m0.run ops) z
    rw [dr_one, one_mul, ← (assemble_parts E).2.1] at this
    rw [fines_eq]
    exact this
  · rw [cost_dr, fines_eq]
  · rw [cost_dr, fines_eq]

/-- **C136**  If the violation costs are raised by a factor, the violations of the cheapest dispatch, weighed by their costs before the
raise, do not grow, and the rest of the objective (bids and tie breaks) does not fall. -/
theorem C136_violations {x x' : Nat → ℚ} (hx : Optimal lp x) (hx' : Optimal lp' x') :
    (m0.run ops).fines x' ≤ (m0.run ops).fines x ∧
    lp.cost x - k * (m0.run ops).fines x ≤ lp'.cost x' - k' * (m0.run ops).fines x' := by
  obtain ⟨f, f', rest, hr⟩ := fined hi E hk hkk h h'
  have i1 := hx.2 x' ((f x').2 ((f' x').1 hx'.1))
  have i2 := hx'.2 x ((f' x).2 ((f x).1 hx.1))
  rw [(hr x).2.1, (hr x').2.1] at i1
  rw [(hr x).2.2, (hr x').2.2] at i2
  have hf : (m0.run ops).fines x' ≤ (m0.run ops).fines x := by
    have : (k' - k) * (m0.run ops).fines x' ≤ (k' - k) * (m0.run ops).fines x := by linarith
    exact le_of_mul_le_mul_left this (by linarith)
  refine ⟨hf, ?_⟩
  rw [(hr x).2.1, (hr x').2.2]
  have := mul_le_mul_of_nonneg_left hf hk.le
  linarith

/-- **C136**, cost.  The cost of the dispatch rises at least by the raise of the fines of the dispatch after, and at most by the raise of
the fines of the dispatch before. -/
theorem C136_cost {x x' : Nat → ℚ} (hx : Optimal lp x) (hx' : Optimal lp' x') :
    (k' - k) * (m0.run ops).fines x' ≤ lp'.cost x' - lp.cost x ∧ lp'.cost x' - lp.cost x ≤ (k' - k) * (m0.run ops).fines x := by
  obtain ⟨f, f', rest, hr⟩ := fined hi E hk hkk h h'
  have i1 := hx.2 x' ((f x').2 ((f' x').1 hx'.1))
  have i2 := hx'.2 x ((f' x).2 ((f x).1 hx.1))
  rw [(hr x').2.1] at i1
  rw [(hr x).2.2] at i2
  have e1 := (hr x).2.1
  have e2 := (hr x').2.2
  constructor <;> linarith

/-- **C136**, once met.  A cheapest dispatch without violations remains a cheapest dispatch when the violation costs are raised, and then
all cheapest dispatches are without violations and cost the same. -/
theorem C136_once_met (hc : ∀ o ∈ ops, o.nonnegCost) {x : Nat → ℚ} (hx : Optimal lp x) (h0 : (m0.run ops).fines x = 0) :
    Optimal lp' x ∧ ∀ x', Optimal lp' x' → (m0.run ops).fines x' = 0 ∧ Optimal lp x' ∧ lp'.cost x' = lp.cost x := by
  obtain ⟨f, f', rest, hr⟩ := fined hi E hk hkk h h'
  have hd : DefAll (0 ≤ ·) (m0.run ops) := defAll_run hi (fun o ho vc hv => VCost.nonneg_all (hc o ho vc hv))
  have hn : ∀ z, Feasible LP z → 0 ≤ (m0.run ops).fines z := fun z hz => fines_nonneg hd E hz
  have hopt : Optimal lp' x := by
    refine ⟨(f' x).2 ((f x).1 hx.1), fun y hy => ?_⟩
    have i := hx.2 y ((f y).2 ((f' y).1 hy))
    rw [(hr x).2.1, (hr y).2.1] at i
    rw [(hr x).2.2, (hr y).2.2]
    have := mul_le_mul_of_nonneg_right hkk.le (hn y ((f' y).1 hy))
    rw [h0] at i ⊢
    linarith
  refine ⟨hopt, fun x' hx' => ?_⟩
  have z : (m0.run ops).fines x' = 0 := by
    have := (C136_violations hi E hk hkk h h' hx hx').1
    rw [h0] at this
    exact le_antisymm this (hn x' ((f' x').1 hx'.1))
  have e : lp'.cost x' = lp.cost x := by
    have := C136_cost hi E hk hkk h h' hx hx'
    rw [h0, z, mul_zero] at this
    linarith [this.1, this.2]
  refine ⟨z, ⟨(f x').2 ((f' x').1 hx'.1), fun y hy => ?_⟩, e⟩
  have i := hx.2 y hy
  have e1 := (hr x').2.1
  have e2 := (hr x').2.2
  rw [z, mul_zero] at e1 e2
  linarith

end

/-- instance of `C136_violations` and `C136_cost`: the demand may be left unmet for 10 $/MW, and 80 MW are; for 60 $/MW it is met -/
example : ∃ (LP lp lp' : Lp) (x x' : Nat → ℚ), Market.init ["NSW"] [{ unit := "A", region := "NSW" }] 5 = .ok fineStart ∧
    (fineStart.run fineHist).assemble = .ok LP ∧ (fineStart.run (dearer 1 fineHist)).assemble = .ok lp ∧
    (fineStart.run (dearer 6 fineHist)).assemble = .ok lp' ∧ Optimal lp x ∧ Optimal lp' x' ∧ (fineStart.run fineHist).fines x = 800 ∧
    (fineStart.run fineHist).fines x' = 0 := by
  have h : (fineCase 1 [0, 0, 80]).best [10] (fun m => decide (m.fines (fineCase 1 [0, 0, 80]).x = 800 ∧
    m.fines (fineCase 6 [80, 0, 0]).x = 0)) = true := by decide +kernel
  have h' : (fineCase 6 [80, 0, 0]).best [50] (fun _ => true) = true := by decide +kernel
  obtain ⟨m, lp, h0, h1, h2, h3⟩ := Case.optimal h
  obtain ⟨m', lp', k0, k1, k2, _⟩ := Case.optimal h'
  obtain ⟨rfl, _⟩ := fineCase_final h0
  obtain ⟨rfl, _⟩ := fineCase_final k0
  obtain ⟨j1, j2⟩ := of_decide_eq_true h3
  have h1' := h1
  rw [fineHist_one] at h1' j1 j2
  exact ⟨lp, lp, lp', _, _, rfl, h1', h1, k1, h2, k2, j1, j2⟩

/-- instance of `C136_once_met`: with 60 $/MW the demand is met, and with 80 $/MW it is met too -/
example : ∃ (LP lp lp' : Lp) (x : Nat → ℚ), Market.init ["NSW"] [{ unit := "A", region := "NSW" }] 5 = .ok fineStart ∧
    (fineStart.run fineHist).assemble = .ok LP ∧ (fineStart.run (dearer 6 fineHist)).assemble = .ok lp ∧
    (fineStart.run (dearer 8 fineHist)).assemble = .ok lp' ∧ (∀ o ∈ fineHist, o.nonnegCost) ∧ Optimal lp x ∧
    (fineStart.run fineHist).fines x = 0 := by
  have h : (fineCase 1 [80, 0, 0]).ok (fun m => decide (m.fines (fineCase 6 [80, 0, 0]).x = 0)) = true := by decide +kernel
  have h' : (fineCase 6 [80, 0, 0]).best [50] (fun _ => true) = true := by decide +kernel
  have h'' : (fineCase 8 [80, 0, 0]).best [50] (fun _ => true) = true := by decide +kernel
  obtain ⟨m, lp, h0, h1, _, h3⟩ := Case.witness h
  obtain ⟨m', lp', k0, k1, k2, _⟩ := Case.optimal h'
  obtain ⟨m'', lp'', l0, l1, _, _⟩ := Case.optimal h''
  obtain ⟨rfl, _⟩ := fineCase_final h0
  obtain ⟨rfl, _⟩ := fineCase_final k0
  obtain ⟨rfl, _⟩ := fineCase_final l0
  rw [fineHist_one] at h1 h3
  exact ⟨lp, lp', lp'', _, rfl, h1, k1, l1, fun o ho => (fineHist_pos o ho).nonneg, k2, of_decide_eq_true h3⟩

end Verif
