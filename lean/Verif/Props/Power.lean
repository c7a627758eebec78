import Verif.Proofs.PowerOut
import Verif.Props.PriceCap
import Verif.Props.Residue

/-!
# C116: the unit of power does not matter

Multiplying all amounts of power in the inputs by the same positive number multiplies the dispatch, the flows, the losses and
the violations by that number and leaves all prices as they are, as long as no bid band crosses the limit of 0.0001 below
which bands are dropped.
-/

namespace Verif

/-- **C116** Every call raises the same exception, or none, in another unit of power. -/
theorem C116_same_exceptions {regions : List String} {units : List UnitInfo} {di c : ℚ} {m0 : Market}
    (h0 : Market.init regions units di = .ok m0) (hc : 0 < c) (before : List Op) (op : Op)
    (hb : ∀ o ∈ before, o.bandsKept c) (ho : op.bandsKept c) :
    ((m0.run (before.map (Op.inPower c))).step (op.inPower c)).2 = ((m0.run before).step op).2 := by
  have hI : InterWF m0 := interWF_init h0
  have h := run_pw hc hI hb
  rw [init_pw h0 c] at h
  rw [h, step_pw hc _ (interWF_run hI before) op ho]
  rfl

/-- **C116** In another unit of power the market dispatches the same: the same dispatches, flows and violations, converted, are
possible and optimal, with the value of the objective converted and the same prices. -/
theorem C116_other_unit_partial {regions : List String} {units : List UnitInfo} {di c : ℚ} {m0 : Market}
    (h0 : Market.init regions units di = .ok m0) (hc : 0 < c) {ops : List Op} (hg : Benign m0 ops) (hb : ∀ o ∈ ops, o.bandsKept c) :
    DispatchInPower c (m0.run ops) (m0.run (ops.map (Op.inPower c))) := by
  have h := run_pw hc (interWF_init h0) hb
  rw [init_pw h0 c] at h
  rw [h]
  have hm : Reached (m0.run ops) := ⟨regions, units, di, m0, ops, h0, hg, rfl⟩
  clear h
  revert hm
  generalize m0.run ops = m
  intro hm
  obtain ⟨r, hr⟩ := exists_rowFactor hm c
  have hi : ∀ {a b : Report}, a.inPower c = b.inPower c → a = b := fun h => Report.inPower_inj hc.ne' h
  have ha : ∀ lp', (m.pw c).assemble = .ok lp' ↔ ∃ lp, m.assemble = .ok lp ∧ lp' = lp.resc c (m.sv c) r := by
    intro lp'
    rw [assemble_pw hc hm hr]
    cases m.assemble with
    | error e => constructor
                 · intro h; cases h
                 · rintro ⟨_, h, _⟩; cases h
    | ok lp =>
      simp only [Except.map, Except.ok.injEq, exists_eq_left']
      exact eq_comm
  have hx := exists_resc (sv_pos hc m)
  refine ⟨?_, ?_, ?_, ?_⟩
  · constructor
    · rintro ⟨lp, hl⟩; exact ⟨_, (ha _).2 ⟨lp, hl, rfl⟩⟩
    · rintro ⟨lp, hl⟩
      obtain ⟨lp, hl', rfl⟩ := (ha _).1 hl
      exact ⟨lp, hl'⟩
  · intro q
    constructor
    · rintro ⟨lp, x, hl, hx, rfl⟩
      have hf := factors_of hc hm hr hl
      exact ⟨_, _, (ha _).2 ⟨lp, hl, rfl⟩, (feasible_resc hf x).2 hx, report_pw hc hm hf x⟩
    · rintro ⟨lp, y, hl, hy, e⟩
      obtain ⟨lp, hl', rfl⟩ := (ha _).1 hl
      obtain ⟨x, rfl⟩ := hx y
      have hf := factors_of hc hm hr hl'
      exact ⟨lp, x, hl', (feasible_resc hf x).1 hy, hi ((report_pw hc hm hf x).symm.trans e)⟩
  · intro q
    constructor
    · rintro ⟨lp, x, hl, hx, rfl⟩
      have hf := factors_of hc hm hr hl
      exact ⟨_, _, (ha _).2 ⟨lp, hl, rfl⟩, (optimal_resc hf x).2 hx, report_pw hc hm hf x⟩
    · rintro ⟨lp, y, hl, hy, e⟩
      obtain ⟨lp, hl', rfl⟩ := (ha _).1 hl
      obtain ⟨x, rfl⟩ := hx y
      have hf := factors_of hc hm hr hl'
      exact ⟨lp, x, hl', (optimal_resc hf x).1 hy, hi ((report_pw hc hm hf x).symm.trans e)⟩
  · intro q energy fcas
    have hlin : ∀ {lp : Lp} (_ : m.assemble = .ok lp) (S : Solver) (x : Nat → ℚ), Factors c (m.sv c) r (m.linear S x lp) := by
      intro lp hl S x
      have hf := factors_of hc hm hr hl
      exact ⟨hf.hc, hf.hs, hf.hr, by rw [linear_rows']; exact hf.rhs⟩
    constructor
    · rintro ⟨lp, x, S, z, p, hl, hx, hS, hs, rfl, rfl, rfl⟩
      have hf := factors_of hc hm hr hl
      refine ⟨_, _, S.pw c, fun v => m.sv c v * z v, fun i => c * p i / r i, (ha _).2 ⟨lp, hl, rfl⟩, (optimal_resc hf x).2 hx,
        Solver.pw_sorts hc hS, ?_, report_pw hc hm hf x, energyPrices_pw hc hr p, fcasPrices_pw hc hr p⟩
      rw [linear_pw hc hm]
      exact (shadow_resc (hlin hl S x) z p).2 hs
    · rintro ⟨lp, y, T, z, p, hl, hy, hT, hs, e1, e2, e3⟩
      obtain ⟨lp, hl', rfl⟩ := (ha _).1 hl
      obtain ⟨x, rfl⟩ := hx y
      obtain ⟨z, rfl⟩ := hx z
      have hf := factors_of hc hm hr hl'
      obtain ⟨q, rfl⟩ : ∃ q : Nat → ℚ, p = fun i => c * q i / r i := ⟨fun i => r i * p i / c, by
        funext i
        rw [mul_div_cancel₀ _ hc.ne', mul_div_cancel_left₀ _ (rowFactor_pos hc hr i).ne']⟩
      have hT' : (T.pw c⁻¹).sorts := Solver.pw_sorts (inv_pos.2 hc) hT
      rw [linear_sort (Solver.pw_inv hc T).symm, linear_pw hc hm] at hs
      exact ⟨lp, x, T.pw c⁻¹, z, q, hl', (optimal_resc hf x).1 hy, hT', (shadow_resc (hlin hl' _ x) z q).1 hs,
        hi ((report_pw hc hm hf x).symm.trans e1), (energyPrices_pw hc hr q).symm.trans e2, (fcasPrices_pw hc hr q).symm.trans e3⟩

/-! ### Bands below 0.0001 -/

/-- The cheaper bid is for 0.0005. -/
def smallCase : Case where
  regions := ["NSW"]
  units := [{ unit := "A", region := "NSW" }, { unit := "B", region := "NSW" }]
  hist := [.volumeBids [{ unit := "A", bands := [("1", 1 / 2000)] }, { unit := "B", bands := [("1", 100)] }],
    .priceBids [{ unit := "A", bands := [("1", 20)] }, { unit := "B", bands := [("1", 50)] }],
    .demand [{ region := "NSW", demand := 1 / 2000 }] none]
  sol := [1 / 2000, 0]

def smallMarket : Market := { regions := ["NSW"], units := smallCase.units, di := 5 }

/-- **C116** is false of bands that are dropped in one of the units: with amounts in a unit ten times as large (0.0005 becomes
0.00005) the cheaper unit is not dispatched any more. -/
theorem C116_negation : Market.init ["NSW"] smallCase.units 5 = .ok smallMarket ∧ Benign smallMarket smallCase.hist ∧
    (∃ lp x, (smallMarket.run smallCase.hist).assemble = .ok lp ∧ Feasible lp x ∧
      (smallMarket.run smallCase.hist).unitDispatch x = .ok [⟨"A", .generator, .energy, 1 / 2000⟩, ⟨"B", .generator, .energy, 0⟩]) ∧
    (∀ x, ∃ q, (smallMarket.run (smallCase.hist.map (Op.inPower (1 / 10)))).unitDispatch x = .ok [⟨"B", .generator, .energy, q⟩]) ∧
    ¬ DispatchInPower (1 / 10) (smallMarket.run smallCase.hist) (smallMarket.run (smallCase.hist.map (Op.inPower (1 / 10)))) := by
  have hb : (smallMarket.run (smallCase.hist.map (Op.inPower (1 / 10)))).bids =
      some [{ vid := 0, unit := "B", band := "1", service := .energy, dtype := .generator, ub := 10 }] := by decide +kernel
  have h1 : ∃ lp x, (smallMarket.run smallCase.hist).assemble = .ok lp ∧ Feasible lp x ∧
      (smallMarket.run smallCase.hist).unitDispatch x = .ok [⟨"A", .generator, .energy, 1 / 2000⟩, ⟨"B", .generator, .energy, 0⟩] := by
    have h : smallCase.ok (fun m => decide (
        m.unitDispatch smallCase.x = .ok [⟨"A", .generator, .energy, 1 / 2000⟩, ⟨"B", .generator, .energy, 0⟩])) = true := by decide +kernel
    obtain ⟨m, lp, h0, h1, h2, h3⟩ := Case.witness h
    have e : m = smallMarket.run smallCase.hist := by
      have hi : Market.init smallCase.regions smallCase.units smallCase.di = .ok smallMarket := rfl
      unfold Case.final at h0
      rw [hi] at h0
      simp only at h0
      split at h0
      · exact (Option.some.inj h0).symm
      · cases h0
    subst e
    exact ⟨lp, _, h1, h2, of_decide_eq_true h3⟩
  have h2 : ∀ x, ∃ q, (smallMarket.run (smallCase.hist.map (Op.inPower (1 / 10)))).unitDispatch x = .ok [⟨"B", .generator, .energy, q⟩] := by
    intro x
    refine ⟨x 0, ?_⟩
    unfold Market.unitDispatch
    rw [hb]
    simp [groupSum]
  refine ⟨rfl, benignB_iff.1 (by decide +kernel), h1, h2, ?_⟩
  intro h
  obtain ⟨lp, x, k1, k2, k3⟩ := h1
  obtain ⟨lp', x', -, -, e⟩ := (h.feasible _).1 ⟨lp, x, k1, k2, rfl⟩
  have e := congrArg Report.units e
  obtain ⟨q, hq⟩ := h2 x'
  simp only [Market.report, Report.inPower, k3, hq, Except.map, Except.ok.injEq] at e
  simpa using congrArg List.length e

/-! ### Instances -/

/-- the two regions of `residueCase` in kilowatts: weights of break points stay as they are -/
def kiloCase : Case :=
  { residueCase with hist := residueCase.hist.map (Op.inPower 1000), sol := [88125, 75000, 6250, 0, 0, 0, 1 / 2, 1 / 2] }

/-- instance of C116: in kilowatts the dispatch is 1000 times that in megawatts, at the same prices -/
example : Benign { regions := ["NSW", "VIC"], units := residueCase.units, di := 5 } residueCase.hist ∧
    (∀ o ∈ residueCase.hist, o.bandsKept 1000) ∧
    (∃ m lp o S, m = Market.run { regions := ["NSW", "VIC"], units := residueCase.units, di := 5 } residueCase.hist ∧
      m.dispatch S none = .ok o ∧ m.assemble = .ok lp ∧ ShadowPrices (m.linear S o.x lp) residueCase.x o.price ∧
      m.energyPrices o.price = .ok [("NSW", 20), ("VIC", 860 / 37)]) ∧
    (∃ m lp o S, m = Market.run { regions := ["NSW", "VIC"], units := residueCase.units, di := 5 } (residueCase.hist.map (Op.inPower 1000)) ∧
      m.dispatch S none = .ok o ∧ m.assemble = .ok lp ∧ ShadowPrices (m.linear S o.x lp) kiloCase.x o.price ∧
      m.energyPrices o.price = .ok [("NSW", 20), ("VIC", 860 / 37)]) := by
  have hf : ∀ s : Case, ∀ m, s.final = some m → s.regions = ["NSW", "VIC"] → s.units = residueCase.units → s.di = 5 →
      m = Market.run { regions := ["NSW", "VIC"], units := residueCase.units, di := 5 } s.hist := by
    intro s m h h1 h2 h3
    have hi : Market.init ["NSW", "VIC"] residueCase.units 5 = .ok { regions := ["NSW", "VIC"], units := residueCase.units, di := 5 } := rfl
    unfold Case.final at h
    rw [h1, h2, h3, hi] at h
    simp only at h
    split at h
    · exact (Option.some.inj h).symm
    · cases h
  refine ⟨benignB_iff.1 (by decide +kernel), ?_, ?_, ?_⟩
  · intro o ho
    simp only [residueCase, List.mem_cons, List.not_mem_nil, or_false] at ho
    rcases ho with rfl | rfl | rfl | rfl | rfl
    · simp only [Op.bandsKept, List.mem_cons, List.not_mem_nil, or_false]
      rintro _ rfl _ h
      simp only [List.mem_cons, List.not_mem_nil, or_false] at h
      subst h
      norm_num
    all_goals trivial
  · have h : residueCase.shadow residueDuals (fun m => decide (
        m.energyPrices (fun c => residueDuals.getD c 0) = .ok [("NSW", 20), ("VIC", 860 / 37)])) = true := by decide +kernel
    obtain ⟨m, lp, o, h0, h1, h2, h3, h4, h5, h6⟩ := Case.shadow_spec h
    exact ⟨m, lp, o, _, hf residueCase m h0 rfl rfl rfl, h2, h1, h5, h4 ▸ of_decide_eq_true h6⟩
  · have h : kiloCase.shadow [-4000000 / 37, -800 / 37, 120 / 37, 20, 860 / 37] (fun m => decide (
        m.energyPrices (fun c => [-4000000 / 37, -800 / 37, 120 / 37, 20, 860 / 37].getD c 0) = .ok [("NSW", 20), ("VIC", 860 / 37)])) = true := by
      decide +kernel
    obtain ⟨m, lp, o, h0, h1, h2, h3, h4, h5, h6⟩ := Case.shadow_spec h
    exact ⟨m, lp, o, _, hf kiloCase m h0 rfl rfl rfl, h2, h1, h5, h4 ▸ of_decide_eq_true h6⟩

end Verif
