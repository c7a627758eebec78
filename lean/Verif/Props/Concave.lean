import Verif.Props.PriceChange
import Verif.Spec.Concave

/-!
# C135: the cost of the dispatch is concave in the price bids
-/

namespace Verif

theorem price_between {t : ℚ} {m : Market} {ps ps' ps'' : List BidRow} (h : PricesBetween t m ps ps' ps'') {b : BidVar} (hb : b ∈ m.bids.getD []) :
    b.price ps'' m - b.price ps m = t * (b.price ps' m - b.price ps m) := by
  obtain ⟨p, p', h1, h2, h3⟩ := h b hb
  unfold BidVar.price costOf
  rw [h1, h2, h3]
  cases lossFactor m.units b.unit b.dtype with
  | none => simp
  | some f =>
    dsimp only
    split
    · split <;> ring
    · ring

section
variable {ps ps' ps'' : List BidRow} {m m' m'' : Market} (h : OneCall [.bids, .set .tieBreak] (.priceBids ps) (.priceBids ps') m m')
  (h' : OneCall [.bids, .set .tieBreak] (.priceBids ps) (.priceBids ps'') m m'') (hb : BandsUnique ps) (hb' : BandsUnique ps')
  (hb'' : BandsUnique ps'') {t : ℚ} (hp : PricesBetween t m ps ps' ps'') {lp lp' lp'' : Lp} (hl : m.assemble = .ok lp)
  (hl' : m'.assemble = .ok lp') (hl'' : m''.assemble = .ok lp'')
include h h' hb hb' hb'' hp hl hl' hl''

/-- **C135**, any schedule.  The three markets have the same schedules, and a schedule costs in the third the mixture of what it costs in
the first two. -/
theorem C135_schedules (z : Nat → ℚ) : (Feasible lp'' z ↔ Feasible lp z) ∧ (Feasible lp'' z ↔ Feasible lp' z) ∧
    lp''.cost z = (1 - t) * lp.cost z + t * lp'.cost z := by
  obtain ⟨f1, c1⟩ := repriced h hb hb' hl hl'
  obtain ⟨f2, c2⟩ := repriced h' hb hb'' hl hl''
  refine ⟨(f2 z).symm, (f2 z).symm.trans (f1 z), ?_⟩
  have e : ((m.bids.getD []).map (fun b => (b.price ps'' m - b.price ps m) * z b.vid)).sum =
      t * ((m.bids.getD []).map (fun b => (b.price ps' m - b.price ps m) * z b.vid)).sum := by
    have key : ∀ l : List BidVar, (∀ b ∈ l, b ∈ m.bids.getD []) → (l.map (fun b => (b.price ps'' m - b.price ps m) * z b.vid)).sum =
        t * (l.map (fun b => (b.price ps' m - b.price ps m) * z b.vid)).sum := by
      intro l
      induction l with
      | nil => intro _; simp
      | cons b l ih =>
        intro hm
        simp only [List.map_cons, List.sum_cons]
        rw [ih (fun c hc => hm c (List.mem_cons_of_mem _ hc)), price_between hp (hm b List.mem_cons_self)]
        ring
    exact key _ (fun b hb => hb)
  have d1 := c1 z
  have d2 := c2 z
  rw [e, ← d1] at d2
  linarith

/-- **C135**, cost.  The least cost with the prices in between is at least the mixture of the least costs. -/
theorem C135_cost (t0 : 0 ≤ t) (t1 : t ≤ 1) {x x' x'' : Nat → ℚ} (hx : Optimal lp x) (hx' : Optimal lp' x') (hx'' : Optimal lp'' x'') :
    (1 - t) * lp.cost x + t * lp'.cost x' ≤ lp''.cost x'' := by
  obtain ⟨f1, f2, c⟩ := C135_schedules h h' hb hb' hb'' hp hl hl' hl'' x''
  rw [c]
  exact add_le_add (mul_le_mul_of_nonneg_left (hx.2 _ (f1.1 hx''.1)) (by linarith)) (mul_le_mul_of_nonneg_left (hx'.2 _ (f2.1 hx''.1)) t0)

/-- **C135**, dispatch.  A dispatch that is the cheapest with both tables of prices is the cheapest with the prices in between. -/
theorem C135_dispatch (t0 : 0 ≤ t) (t1 : t ≤ 1) {x : Nat → ℚ} (hx : Optimal lp x) (hx' : Optimal lp' x) : Optimal lp'' x := by
  obtain ⟨f1, _, c⟩ := C135_schedules h h' hb hb' hb'' hp hl hl' hl'' x
  refine ⟨f1.2 hx.1, fun y hy => ?_⟩
  obtain ⟨g1, g2, d⟩ := C135_schedules h h' hb hb' hb'' hp hl hl' hl'' y
  rw [c, d]
  exact add_le_add (mul_le_mul_of_nonneg_left (hx.2 _ (g1.1 hy)) (by linarith)) (mul_le_mul_of_nonneg_left (hx'.2 _ (g2.1 hy)) t0)

/-- **C135**, converse.  If the share lies strictly between 0 and 1 and some dispatch is the cheapest with both tables of prices, then
every dispatch that is the cheapest with the prices in between is the cheapest with both tables. -/
theorem C135_converse (t0 : 0 < t) (t1 : t < 1) {x y : Nat → ℚ} (hx : Optimal lp x) (hx' : Optimal lp' x) (hy : Optimal lp'' y) :
    Optimal lp y ∧ Optimal lp' y := by
  obtain ⟨f1, f2, c⟩ := C135_schedules h h' hb hb' hb'' hp hl hl' hl'' x
  obtain ⟨g1, g2, d⟩ := C135_schedules h h' hb hb' hb'' hp hl hl' hl'' y
  have i1 := hx.2 y (g1.1 hy.1)
  have i2 := hx'.2 y (g2.1 hy.1)
  have i3 := hy.2 x (f1.2 hx.1)
  rw [c, d] at i3
  have j1 := mul_le_mul_of_nonneg_left i1 (show 0 ≤ 1 - t by linarith)
  have j2 := mul_le_mul_of_nonneg_left i2 t0.le
  have e1 : lp.cost y = lp.cost x := by
    have : (1 - t) * lp.cost y ≤ (1 - t) * lp.cost x := by linarith
    exact le_antisymm (le_of_mul_le_mul_left this (by linarith)) i1
  have e2 : lp'.cost y = lp'.cost x := by
    have : t * lp'.cost y ≤ t * lp'.cost x := by linarith
    exact le_antisymm (le_of_mul_le_mul_left this t0) i2
  exact ⟨⟨g1.1 hy.1, fun z hz => by rw [e1]; exact hx.2 z hz⟩, ⟨g2.1 hy.1, fun z hz => by rw [e2]; exact hx'.2 z hz⟩⟩

end

/-- instance of C135: unit A asks 20, 70 or, halfway, 45; the cost of the dispatch is 2200, 4000 or 3700, more than 3100 -/
example : ∃ m m' m'' lp lp' lp'', OneCall [.bids, .set .tieBreak] (.priceBids (compPrices 20)) (.priceBids (compPrices 70)) m m' ∧
    OneCall [.bids, .set .tieBreak] (.priceBids (compPrices 20)) (.priceBids (compPrices 45)) m m'' ∧
    BandsUnique (compPrices 20) ∧ BandsUnique (compPrices 70) ∧ BandsUnique (compPrices 45) ∧
    PricesBetween (1 / 2) m (compPrices 20) (compPrices 70) (compPrices 45) ∧ m.assemble = .ok lp ∧ m'.assemble = .ok lp' ∧
    m''.assemble = .ok lp'' ∧ Optimal lp (compCase 60 20 80 [60, 20]).x ∧ Optimal lp' (compCase 60 70 80 [0, 80]).x ∧
    Optimal lp'' (compCase 60 45 80 [60, 20]).x ∧ lp.cost (compCase 60 20 80 [60, 20]).x = 2200 ∧
    lp'.cost (compCase 60 70 80 [0, 80]).x = 4000 ∧ lp''.cost (compCase 60 45 80 [60, 20]).x = 3700 := by
  have h : (compCase 60 20 80 [60, 20]).best [50, -30] (fun m => decide ((m.bids.getD []).map (fun b => (b.unit, b.service, b.dtype, b.band)) =
      [("A", .energy, .generator, "1"), ("B", .energy, .generator, "1")]) && (match m.assemble with
      | .ok lp => decide (lp.cost (compCase 60 20 80 [60, 20]).x = 2200)
      | .error _ => false)) = true := by decide +kernel
  have h' : (compCase 60 70 80 [0, 80]).best [50, 0] (fun m => match m.assemble with
      | .ok lp => decide (lp.cost (compCase 60 70 80 [0, 80]).x = 4000)
      | .error _ => false) = true := by decide +kernel
  have h'' : (compCase 60 45 80 [60, 20]).best [50, -5] (fun m => match m.assemble with
      | .ok lp => decide (lp.cost (compCase 60 45 80 [60, 20]).x = 3700)
      | .error _ => false) = true := by decide +kernel
  obtain ⟨m, lp, h0, h1, h2, h3⟩ := Case.optimal h
  obtain ⟨m', lp', k0, k1, k2, k3⟩ := Case.optimal h'
  obtain ⟨m'', lp'', l0, l1, l2, l3⟩ := Case.optimal h''
  rw [h1, Bool.and_eq_true] at h3
  rw [k1] at k3
  rw [l1] at l3
  have hone := Case.oneCall h0 k0 2 (.priceBids (compPrices 20)) (.priceBids (compPrices 70)) [.bids, .set .tieBreak] ⟨rfl, rfl, rfl⟩ rfl rfl rfl rfl
    (by decide +kernel)
  have htwo := Case.oneCall h0 l0 2 (.priceBids (compPrices 20)) (.priceBids (compPrices 45)) [.bids, .set .tieBreak] ⟨rfl, rfl, rfl⟩ rfl rfl rfl rfl
    (by decide +kernel)
  refine ⟨m, m', m'', lp, lp', lp'', hone, htwo, by unfold BandsUnique; decide +kernel, by unfold BandsUnique; decide +kernel,
    by unfold BandsUnique; decide +kernel, ?_, h1, k1, l1, h2, k2, l2, of_decide_eq_true h3.2, of_decide_eq_true k3, of_decide_eq_true l3⟩
  intro b hb
  have hm : (b.unit, b.service, b.dtype, b.band) ∈ (m.bids.getD []).map (fun b => (b.unit, b.service, b.dtype, b.band)) := List.mem_map_of_mem hb
  rw [of_decide_eq_true h3.1] at hm
  simp only [List.mem_cons, List.not_mem_nil, or_false, Prod.mk.injEq] at hm
  rcases hm with ⟨e1, e2, e3, e4⟩ | ⟨e1, e2, e3, e4⟩ <;> rw [e1, e2, e3, e4]
  · exact ⟨20, 70, by decide +kernel, by decide +kernel, by decide +kernel⟩
  · exact ⟨50, 50, by decide +kernel, by decide +kernel, by decide +kernel⟩

/-- instance of the claims about the dispatch: with a price of 20 and with a price of 30, 60 MW of unit A and 20 MW of unit B are the
cheapest, and so they are with a price of 25 -/
example : ∃ m m' m'' lp lp' lp'', OneCall [.bids, .set .tieBreak] (.priceBids (compPrices 20)) (.priceBids (compPrices 30)) m m' ∧
    OneCall [.bids, .set .tieBreak] (.priceBids (compPrices 20)) (.priceBids (compPrices 25)) m m'' ∧
    PricesBetween (1 / 2) m (compPrices 20) (compPrices 30) (compPrices 25) ∧ m.assemble = .ok lp ∧ m'.assemble = .ok lp' ∧
    m''.assemble = .ok lp'' ∧ Optimal lp (compCase 60 20 80 [60, 20]).x ∧ Optimal lp' (compCase 60 20 80 [60, 20]).x ∧
    Optimal lp'' (compCase 60 20 80 [60, 20]).x := by
  have h : (compCase 60 20 80 [60, 20]).best [50, -30] (fun m => decide ((m.bids.getD []).map (fun b => (b.unit, b.service, b.dtype, b.band)) =
      [("A", .energy, .generator, "1"), ("B", .energy, .generator, "1")])) = true := by decide +kernel
  have h' : (compCase 60 30 80 [60, 20]).best [50, -20] (fun _ => true) = true := by decide +kernel
  have h'' : (compCase 60 25 80 [60, 20]).best [50, -25] (fun _ => true) = true := by decide +kernel
  obtain ⟨m, lp, h0, h1, h2, h3⟩ := Case.optimal h
  obtain ⟨m', lp', k0, k1, k2, _⟩ := Case.optimal h'
  obtain ⟨m'', lp'', l0, l1, l2, _⟩ := Case.optimal h''
  have hone := Case.oneCall h0 k0 2 (.priceBids (compPrices 20)) (.priceBids (compPrices 30)) [.bids, .set .tieBreak] ⟨rfl, rfl, rfl⟩ rfl rfl rfl rfl
    (by decide +kernel)
  have htwo := Case.oneCall h0 l0 2 (.priceBids (compPrices 20)) (.priceBids (compPrices 25)) [.bids, .set .tieBreak] ⟨rfl, rfl, rfl⟩ rfl rfl rfl rfl
    (by decide +kernel)
  refine ⟨m, m', m'', lp, lp', lp'', hone, htwo, ?_, h1, k1, l1, h2, k2, l2⟩
  intro b hb
  have hm : (b.unit, b.service, b.dtype, b.band) ∈ (m.bids.getD []).map (fun b => (b.unit, b.service, b.dtype, b.band)) := List.mem_map_of_mem hb
  rw [of_decide_eq_true h3] at hm
  simp only [List.mem_cons, List.not_mem_nil, or_false, Prod.mk.injEq] at hm
  rcases hm with ⟨e1, e2, e3, e4⟩ | ⟨e1, e2, e3, e4⟩ <;> rw [e1, e2, e3, e4]
  · exact ⟨20, 30, by decide +kernel, by decide +kernel, by decide +kernel⟩
  · exact ⟨50, 50, by decide +kernel, by decide +kernel, by decide +kernel⟩

end Verif
