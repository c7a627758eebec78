import Verif.Spec.Price
import Verif.Proofs.Duality

/-! # Concrete shadow prices

A checker whose success shows that concrete prices are shadow prices, for instances of the price theorems. -/

namespace Verif

theorem form_eval (r : LRow) (x : Nat → ℚ) : linVal x r.form - r.konst = linVal x r.coefs - r.rhs.eval x := by
  unfold LRow.form LRow.konst Rhs.eval
  cases r.rhs with
  | const q => rfl
  | var v => simp [linVal]; ring

theorem zip_map_self {α β : Type} (l : List α) (f : α → β) : l.zip (l.map f) = l.map (fun a => (a, f a)) := by
  induction l with
  | nil => rfl
  | cons a l ih => simp [ih]

theorem Lp.certified_shadow {lp : Lp} {x p : Nat → ℚ} (hx : Feasible lp x)
    (h : lp.certified x (lp.rows.map (fun r => p r.cid)) = true) : ShadowPrices lp x p := by
  unfold Lp.certified at h
  simp only [Bool.and_eq_true, decide_eq_true_eq, List.all_eq_true] at h
  obtain ⟨⟨⟨⟨hn, hv⟩, hd⟩, hb⟩, hc⟩ := h
  rw [zip_map_self] at hd hc
  refine ⟨hx, ?_, ?_, ?_⟩
  · intro r hr e
    have := hd _ (List.mem_map.2 ⟨r, hr, rfl⟩)
    rw [e] at this
    simpa [CType.dualOk] using this
  · intro r hr e
    have := hd _ (List.mem_map.2 ⟨r, hr, rfl⟩)
    rw [e] at this
    simpa [CType.dualOk] using this
  intro y hy
  have h1 := linVal_vars (x := y) hn hv
  have h2 : (lp.vars.map (fun v => (v.bound (reducedCost (lp.reduced (lp.rows.map (fun r => p r.cid))) v.vid)).getD 0)).sum ≤
      linVal y (lp.reduced (lp.rows.map (fun r => p r.cid))) := by
    rw [h1]
    apply sum_map_le
    intro v hvm
    obtain ⟨b, hbb⟩ := Option.isSome_iff_exists.1 (hb v hvm)
    rw [hbb]
    exact bound_le (hy v hvm) hbb
  have h3 : linVal y (lp.reduced (lp.rows.map (fun r => p r.cid))) = lp.cost y - (lp.rows.map (fun r => p r.cid * linVal y r.form)).sum := by
    unfold Lp.reduced Lp.cost
    rw [linVal_append, zip_map_self, sub_eq_add_neg]
    congr 1
    unfold linVal
    rw [sum_map_flatMap, List.map_map]
    rw [← neg_one_mul, ← sum_map_mul_left]
    apply sum_map_congr
    intro r _
    simp only [Function.comp]
    rw [List.map_map, ← sum_map_mul_left, ← sum_map_mul_left]
    apply sum_map_congr
    intro c _
    simp only [Function.comp]
    ring
  have h4 : (lp.rows.map (fun r => p r.cid * (linVal y r.coefs - r.rhs.eval y))).sum =
      (lp.rows.map (fun r => p r.cid * linVal y r.form)).sum - (lp.rows.map (fun r => p r.cid * r.konst)).sum := by
    rw [← sum_map_sub]
    apply sum_map_congr
    intro r _
    rw [← form_eval]; ring
  rw [List.map_map] at hc
  have h5 : (lp.rows.map ((fun q : LRow × ℚ => q.2 * q.1.konst) ∘ fun r => (r, p r.cid))).sum = (lp.rows.map (fun r => p r.cid * r.konst)).sum := rfl
  rw [h5] at hc
  rw [h4]
  linarith

/-- a solver that returns the solution of the scenario and the given prices -/
def Case.solver (s : Case) (prices : List ℚ) : Solver where
  mip := fun _ => some s.x
  dual := fun _ c => prices.getD c 0
  sort := fun l => l.insertionSort (fun a b => a.1 ≤ b.1)

theorem Case.solver_sorts (s : Case) (prices : List ℚ) : (s.solver prices).sorts := by
  intro l
  haveI : Std.Total (fun a b : ℚ × Nat => a.1 ≤ b.1) := ⟨fun a b => le_total _ _⟩
  haveI : IsTrans (ℚ × Nat) (fun a b => a.1 ≤ b.1) := ⟨fun a b c => le_trans⟩
  exact ⟨List.perm_insertionSort _ _, List.pairwise_insertionSort _ _⟩

/-- the scenario runs, is dispatched, and the prices are shadow prices of the linear model at the solution -/
def Case.shadow (s : Case) (prices : List ℚ) (P : Market → Bool) : Bool :=
  match s.final with
  | none => false
  | some m => (match m.assemble with
    | .error _ => false
    | .ok lp => m.priced lp && decide (Feasible (m.linear (s.solver prices) s.x lp) s.x) &&
        (m.linear (s.solver prices) s.x lp).certified s.x ((m.linear (s.solver prices) s.x lp).rows.map (fun r => prices.getD r.cid 0))) && P m

theorem Case.shadow_spec {s : Case} {prices : List ℚ} {P : Market → Bool} (h : s.shadow prices P = true) :
    ∃ m lp o, s.final = some m ∧ m.assemble = .ok lp ∧ m.dispatch (s.solver prices) none = .ok o ∧ o.x = s.x ∧
      (o.price = fun c => prices.getD c 0) ∧ ShadowPrices (m.linear (s.solver prices) o.x lp) s.x o.price ∧ P m = true := by
  unfold Case.shadow at h
  split at h
  · cases h
  rename_i m hm
  simp only [Bool.and_eq_true] at h
  obtain ⟨h1, h2⟩ := h
  split at h1
  · cases h1
  rename_i lp hlp
  simp only [Bool.and_eq_true] at h1
  refine ⟨m, lp, ⟨s.x, fun c => prices.getD c 0, lp.cost s.x⟩, hm, hlp, ?_, rfl, rfl, ?_, h2⟩
  · unfold Market.dispatch
    rw [hlp]
    simp only [Case.solver]
    rw [if_pos h1.1.1]
    rfl
  · exact Lp.certified_shadow (of_decide_eq_true h1.1.2) h1.2

end Verif
