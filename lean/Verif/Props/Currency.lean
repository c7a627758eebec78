import Verif.Proofs.Currency
import Verif.Props.PriceCap

/-!
# C110: the currency does not matter

Multiplying all price bids and violation costs by the same positive number changes nothing but the amounts of money in the
results.
-/

namespace Verif

/-- **C110** Every call raises the same exception, or none, in another currency. -/
theorem C110_same_exceptions {regions : List String} {units : List UnitInfo} {di c : ℚ} {m0 : Market}
    (h0 : Market.init regions units di = .ok m0) (hc : c ≠ 0) (before : List Op) (op : Op) :
    ((m0.run (before.map (Op.inCurrency c))).step (op.inCurrency c)).2 = ((m0.run before).step op).2 := by
  have h := run_sc hc m0 before
  rw [init_sc h0 c] at h
  rw [h, step_sc hc]
  rfl

/-- **C110** In another currency the market dispatches the same: the same units, flows and violations are possible and
optimal, with the value of the objective and all prices converted. -/
theorem C110_other_currency {regions : List String} {units : List UnitInfo} {di c : ℚ} {m0 : Market}
    (h0 : Market.init regions units di = .ok m0) (hc : 0 < c) (ops : List Op) :
    DispatchInCurrency c (m0.run ops) (m0.run (ops.map (Op.inCurrency c))) := by
  have h := run_sc hc.ne' m0 ops
  rw [init_sc h0 c] at h
  rw [h]
  generalize m0.run ops = m
  have hr : ∀ r r' : Report, r.inCurrency c = r'.inCurrency c → r = r' := by
    rintro ⟨a1, a2, a3, a4, a5⟩ ⟨b1, b2, b3, b4, b5⟩ e
    simp only [Report.inCurrency, Report.mk.injEq] at e
    obtain ⟨e1, rfl, rfl, rfl, rfl⟩ := e
    rw [mul_left_cancel₀ hc.ne' e1]
  have hp : ∀ {α : Type} (t t' : Except Err (List (α × ℚ))), pricesIn c t = pricesIn c t' → t = t' := by
    intro α t t' e
    cases t with
    | error a =>
      cases t' with
      | error b => exact e
      | ok b => cases e
    | ok a =>
      cases t' with
      | error b => cases e
      | ok b =>
        simp only [pricesIn, Except.map, Except.ok.injEq] at e
        congr 1
        refine List.map_injective_iff.2 ?_ e
        rintro ⟨x1, x2⟩ ⟨y1, y2⟩ e'
        simp only [Prod.mk.injEq] at e'
        rw [e'.1, mul_left_cancel₀ hc.ne' e'.2]
  have ha : ∀ lp', (m.sc c).assemble = .ok lp' ↔ ∃ lp, m.assemble = .ok lp ∧ lp' = lp.sc c := by
    intro lp'
    rw [assemble_sc]
    cases m.assemble with
    | error e => constructor
                 · intro h; cases h
                 · rintro ⟨_, h, _⟩; cases h
    | ok lp =>
      simp only [Except.map, Except.ok.injEq, exists_eq_left']
      exact eq_comm
  refine ⟨?_, ?_, ?_, ?_⟩
  · constructor
    · rintro ⟨lp, hl⟩; exact ⟨_, (ha _).2 ⟨lp, hl, rfl⟩⟩
    · rintro ⟨lp, hl⟩
      obtain ⟨lp, hl', rfl⟩ := (ha _).1 hl
      exact ⟨lp, hl'⟩
  · intro r
    constructor
    · rintro ⟨lp, x, hl, hx, rfl⟩
      exact ⟨_, x, (ha _).2 ⟨lp, hl, rfl⟩, (feasible_sc c lp x).2 hx, report_sc c m lp x⟩
    · rintro ⟨lp, x, hl, hx, e⟩
      obtain ⟨lp, hl', rfl⟩ := (ha _).1 hl
      exact ⟨lp, x, hl', (feasible_sc c lp x).1 hx, hr _ _ ((report_sc c m lp x).symm.trans e)⟩
  · intro r
    constructor
    · rintro ⟨lp, x, hl, hx, rfl⟩
      exact ⟨_, x, (ha _).2 ⟨lp, hl, rfl⟩, (optimal_sc hc lp x).2 hx, report_sc c m lp x⟩
    · rintro ⟨lp, x, hl, hx, e⟩
      obtain ⟨lp, hl', rfl⟩ := (ha _).1 hl
      exact ⟨lp, x, hl', (optimal_sc hc lp x).1 hx, hr _ _ ((report_sc c m lp x).symm.trans e)⟩
  · intro r energy fcas
    constructor
    · rintro ⟨lp, x, S, z, p, hl, hx, hS, hs, rfl, rfl, rfl⟩
      refine ⟨_, x, S, z, fun i => c * p i, (ha _).2 ⟨lp, hl, rfl⟩, (optimal_sc hc lp x).2 hx, hS, ?_, report_sc c m lp x,
        energyPrices_sc c m p, fcasPrices_sc c m p⟩
      rw [linear_sc]
      exact (shadow_sc hc _ z p).2 hs
    · rintro ⟨lp, x, S, z, p, hl, hx, hS, hs, e1, e2, e3⟩
      obtain ⟨lp, hl', rfl⟩ := (ha _).1 hl
      obtain ⟨q, rfl⟩ : ∃ q : Nat → ℚ, p = fun i => c * q i := ⟨fun i => p i / c, by
        funext i; exact (mul_div_cancel₀ (p i) hc.ne').symm⟩
      rw [linear_sc] at hs
      exact ⟨lp, x, S, z, q, hl', (optimal_sc hc lp x).1 hx, hS, (shadow_sc hc _ z q).1 hs,
        hr _ _ ((report_sc c m lp x).symm.trans e1), hp _ _ ((energyPrices_sc c m q).symm.trans e2),
        hp _ _ ((fcasPrices_sc c m q).symm.trans e3)⟩

/-- **C110** With a solver that itself does not depend on the currency, `dispatch` in another currency (with the limits of
the over constrained dispatch re-run converted too) raises the same exceptions, gives the same values of all
variables, the objective and all prices converted. -/
theorem C110_dispatch {regions : List String} {units : List UnitInfo} {di c : ℚ} {m0 : Market}
    (h0 : Market.init regions units di = .ok m0) (hc : 0 < c) (ops : List Op) {S S' : Solver} (hS : S.inCurrency c S')
    (ocd : Option ReRun) :
    (∀ e, (m0.run (ops.map (Op.inCurrency c))).dispatch S' (ocd.map (ReRun.inCurrency c)) = .error e ↔
      (m0.run ops).dispatch S ocd = .error e) ∧
    ∀ o, (m0.run ops).dispatch S ocd = .ok o →
      ∃ o', (m0.run (ops.map (Op.inCurrency c))).dispatch S' (ocd.map (ReRun.inCurrency c)) = .ok o' ∧ o'.x = o.x ∧
        o'.cost = c * o.cost ∧
        (m0.run (ops.map (Op.inCurrency c))).energyPrices o'.price = pricesIn c ((m0.run ops).energyPrices o.price) ∧
        (m0.run (ops.map (Op.inCurrency c))).fcasPrices o'.price = pricesIn c ((m0.run ops).fcasPrices o.price) := by
  have h := run_sc hc.ne' m0 ops
  rw [init_sc h0 c] at h
  rw [h]
  generalize m0.run ops = m
  have hsol : ∀ lp : Lp, S'.mip (lp.sc c) = S.mip lp ∧ (∀ i, S'.dual (lp.sc c) i = c * S.dual lp i) ∧ S'.sort = S.sort :=
    fun lp => hS lp (lp.sc c) rfl rfl rfl rfl rfl
  have hpr : ∀ x lp, (m.sc c).prices S' (ocd.map (ReRun.inCurrency c)) x (lp.sc c) =
      fun i => c * m.prices S ocd x lp i := by
    intro x lp
    cases ocd with
    | none => exact funext fun i => (hsol lp).2.1 i
    | some r =>
      have e1 : S'.dual (lp.sc c) = fun i => c * S.dual lp i := funext fun i => (hsol lp).2.1 i
      have e2 : (m.sc c).adjusters x = m.adjusters x := by
        unfold Market.adjusters; rw [adjustSet_sc, adjustSet_sc]
      simp only [Market.prices, Option.map_some]
      rw [e1, limitReached_sc hc, setViolated_sc, setViolated_sc, e2]
      split
      · exact funext fun i => (hsol (lp.relax (m.adjusters x))).2.1 i
      · rfl
  have hlin : ∀ x lp, (m.sc c).linear S' x (lp.sc c) = (m.linear S x lp).sc c := by
    intro x lp
    have : (m.sc c).linear S' x (lp.sc c) = (m.sc c).linear S x (lp.sc c) := by
      unfold Market.linear Market.unusedWeights
      rw [(hsol lp).2.2]
    rw [this, linear_sc]
  have hd : (m.sc c).dispatch S' (ocd.map (ReRun.inCurrency c)) = (m.dispatch S ocd).map (fun o =>
      { x := o.x, price := fun i => c * o.price i, cost := c * o.cost }) := by
    unfold Market.dispatch
    rw [assemble_sc]
    cases m.assemble with
    | error e => rfl
    | ok lp =>
      simp only [Except.map]
      rw [(hsol lp).1]
      cases S.mip lp with
      | none => rfl
      | some x =>
        dsimp only
        have e : (m.sc c).priced (lp.sc c) = m.priced lp := rfl
        rw [e, hlin, hpr, cost_sc]
        split <;> rfl
  rw [hd]
  constructor
  · intro e
    cases m.dispatch S ocd with
    | error e' => simp [Except.map]
    | ok o => simp [Except.map]
  · intro o ho
    rw [ho]
    exact ⟨_, rfl, rfl, rfl, energyPrices_sc c m o.price, fcasPrices_sc c m o.price⟩

/-! ### Instances -/

/-- the short market of `capCase` in cents -/
def centsCase : Case := { capCase with hist := capCase.hist.map (Op.inCurrency 100) }

/-- instance of C110: in dollars the prices are 1000 and 500, in cents 100000 and 50000, at the same dispatch -/
example : (∃ m lp o S, m = Market.run { regions := ["NSW"], units := capCase.units, di := 5 } capCase.hist ∧ m.dispatch S none = .ok o ∧
      m.assemble = .ok lp ∧ ShadowPrices (m.linear S o.x lp) capCase.x o.price ∧ m.energyPrices o.price = .ok [("NSW", 1000)] ∧
      m.fcasPrices o.price = .ok [(("NSW", .raise6s), 500)]) ∧
    (∃ m lp o S, m = Market.run { regions := ["NSW"], units := capCase.units, di := 5 } (capCase.hist.map (Op.inCurrency 100)) ∧
      m.dispatch S none = .ok o ∧
      m.assemble = .ok lp ∧ ShadowPrices (m.linear S o.x lp) capCase.x o.price ∧ m.energyPrices o.price = .ok [("NSW", 100000)] ∧
      m.fcasPrices o.price = .ok [(("NSW", .raise6s), 50000)]) := by
  have hf : ∀ s : Case, ∀ m, s.final = some m → s.regions = ["NSW"] → s.units = capCase.units → s.di = 5 →
      m = Market.run { regions := ["NSW"], units := capCase.units, di := 5 } s.hist := by
    intro s m h h1 h2 h3
    have hi : Market.init ["NSW"] capCase.units 5 = .ok { regions := ["NSW"], units := capCase.units, di := 5 } := rfl
    unfold Case.final at h
    rw [h1, h2, h3, hi] at h
    simp only at h
    split at h
    · exact (Option.some.inj h).symm
    · cases h
  constructor
  · have h : capCase.shadow [1000, 500] (fun m => decide (
        m.energyPrices (fun c => [1000, 500].getD c 0) = .ok [("NSW", 1000)] ∧
        m.fcasPrices (fun c => [1000, 500].getD c 0) = .ok [(("NSW", .raise6s), 500)])) = true := by decide +kernel
    obtain ⟨m, lp, o, h0, h1, h2, h3, h4, h5, h6⟩ := Case.shadow_spec h
    obtain ⟨k1, k2⟩ := of_decide_eq_true h6
    exact ⟨m, lp, o, _, hf capCase m h0 rfl rfl rfl, h2, h1, h5, h4 ▸ k1, h4 ▸ k2⟩
  · have h : centsCase.shadow [100000, 50000] (fun m => decide (
        m.energyPrices (fun c => [100000, 50000].getD c 0) = .ok [("NSW", 100000)] ∧
        m.fcasPrices (fun c => [100000, 50000].getD c 0) = .ok [(("NSW", .raise6s), 50000)])) = true := by decide +kernel
    obtain ⟨m, lp, o, h0, h1, h2, h3, h4, h5, h6⟩ := Case.shadow_spec h
    obtain ⟨k1, k2⟩ := of_decide_eq_true h6
    exact ⟨m, lp, o, _, hf centsCase m h0 rfl rfl rfl, h2, h1, h5, h4 ▸ k1, h4 ▸ k2⟩

/-- instance of `C110_dispatch`: for every solver there is one that does the same in the other currency -/
example (S : Solver) {c : ℚ} (hc : 0 < c) : ∃ S', S.inCurrency c S' ∧
    ((∀ lp x, S.mip lp = some x → Optimal lp x) → ∀ lp x, S'.mip lp = some x → Optimal lp x) := by
  have hi : ∀ lp : Lp, (lp.sc c⁻¹).sc c = lp := by
    intro lp
    obtain ⟨_, _, _, _, obj⟩ := lp
    simp only [Lp.sc, List.map_map, Lp.mk.injEq, true_and]
    refine (List.map_congr_left fun o _ => ?_).trans (List.map_id _)
    simp only [Function.comp, id]
    rw [← mul_assoc, mul_inv_cancel₀ hc.ne', one_mul]
  refine ⟨{ mip := fun lp => S.mip (lp.sc c⁻¹), dual := fun lp i => c * S.dual (lp.sc c⁻¹) i, sort := S.sort }, ?_, ?_⟩
  · rintro ⟨_, _, _, _, obj⟩ ⟨_, _, _, _, _⟩ h1 h2 h3 h4 h5
    simp only at h1 h2 h3 h4 h5
    subst h1 h2 h3 h4 h5
    have : obj.map ((fun o => (o.1, c⁻¹ * o.2)) ∘ fun o : Nat × ℚ => (o.1, c * o.2)) = obj := by
      refine (List.map_congr_left fun o _ => ?_).trans (List.map_id _)
      simp only [Function.comp, id]
      rw [← mul_assoc, inv_mul_cancel₀ hc.ne', one_mul]
    simp only [Lp.sc, List.map_map, this]
    exact ⟨trivial, fun _ => by trivial, trivial⟩
  · intro h lp x hx
    have := h _ x hx
    rw [← hi lp]
    exact (optimal_sc hc _ x).2 this

end Verif
