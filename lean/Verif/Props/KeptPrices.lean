import Verif.Props.PriceChange
import Verif.Spec.KeptPrices

/-!
# C138: price changes that leave the dispatch as it is

Raising the price of a band that is not used, or lowering the price of a band that is used completely, leaves a cheapest dispatch the cheapest.
-/

namespace Verif

theorem noCheaper_price {m : Market} (hf : ∀ i ∈ m.units, 0 < i.lf) {ps ps' : List BidRow} {b : BidVar} {p p' : ℚ}
    (h1 : priceOf ps b.unit b.service b.dtype b.band = some p) (h2 : priceOf ps' b.unit b.service b.dtype b.band = some p')
    (h : b.noCheaper p p') : b.price ps m ≤ b.price ps' m := by
  unfold BidVar.price costOf
  rw [h1, h2]
  unfold BidVar.noCheaper at h
  cases hl : lossFactor m.units b.unit b.dtype with
  | none => exact le_refl _
  | some f =>
    have f0 : 0 < f := by
      unfold lossFactor at hl
      obtain ⟨i, hi, rfl⟩ := Option.map_eq_some_iff.1 hl
      exact hf i (List.mem_of_find?_eq_some hi)
    dsimp only
    by_cases hs : b.service = .energy
    · by_cases hd : b.dtype = .load
      · rw [if_pos ⟨hs, hd⟩] at h
        rw [if_pos hs, if_pos hs, if_pos hd, if_pos hd]
        exact neg_le_neg (div_le_div_of_nonneg_right h f0.le)
      · rw [if_neg (fun c => hd c.2)] at h
        rw [if_pos hs, if_pos hs, if_neg hd, if_neg hd]
        exact div_le_div_of_nonneg_right h f0.le
    · rw [if_neg (fun c => hs c.1)] at h
      rwa [if_neg hs, if_neg hs]

theorem sum_zero_terms {β : Type} {f : β → ℚ} {l : List β} (h : ∀ b ∈ l, 0 ≤ f b) (hs : (l.map f).sum ≤ 0) : ∀ b ∈ l, f b = 0 := by
  induction l with
  | nil => intro b hb; cases hb
  | cons a l ih =>
    simp only [List.map_cons, List.sum_cons] at hs
    have h1 := h a List.mem_cons_self
    have h2 : 0 ≤ (l.map f).sum := List.sum_nonneg (fun q hq => by
      obtain ⟨b, hb, rfl⟩ := List.mem_map.1 hq
      exact h b (List.mem_cons_of_mem _ hb))
    intro b hb
    rcases List.mem_cons.1 hb with rfl | hb
    · linarith
    · exact ih (fun c hc => h c (List.mem_cons_of_mem _ hc)) (by linarith) b hb

section
variable {ps ps' : List BidRow} {m m' : Market} (h : OneCall [.bids, .set .tieBreak] (.priceBids ps) (.priceBids ps') m m')
  (hb : BandsUnique ps) (hb' : BandsUnique ps') {lp lp' : Lp} (hl : m.assemble = .ok lp) (hl' : m'.assemble = .ok lp')
  (hf : ∀ i ∈ m.units, 0 < i.lf) {x : Nat → ℚ} (hx : Optimal lp x) (hp : PricesKeep m ps ps' x)

include hl hf hp in
/-- using another schedule instead never gains from the change of prices -/
theorem kept_terms {y : Nat → ℚ} (hy : Feasible lp y) :
    ∀ b ∈ m.bids.getD [], 0 ≤ (b.price ps' m - b.price ps m) * (y b.vid - x b.vid) := by
  intro b hm
  obtain ⟨p, p', h1, h2, h3⟩ := hp b hm
  obtain ⟨y0, y1⟩ := bid_bounds hl hy hm
  rcases h3 with rfl | ⟨e, h3⟩ | ⟨e, h3⟩
  · have : b.price ps' m = b.price ps m := by unfold BidVar.price costOf; rw [h1, h2]
    rw [this, sub_self, zero_mul]
  · have := noCheaper_price hf h1 h2 h3
    exact mul_nonneg (by linarith) (by linarith)
  · have := noCheaper_price hf h2 h1 h3
    exact mul_nonneg_of_nonpos_of_nonpos (by linarith) (by linarith)

include h hb hb' hl hl' in
theorem kept_cost (y : Nat → ℚ) : (lp'.cost y - lp'.cost x) - (lp.cost y - lp.cost x) =
    ((m.bids.getD []).map (fun b => (b.price ps' m - b.price ps m) * (y b.vid - x b.vid))).sum := by
  obtain ⟨_, c⟩ := repriced h hb hb' hl hl'
  have e : ((m.bids.getD []).map (fun b => (b.price ps' m - b.price ps m) * (y b.vid - x b.vid))).sum =
      ((m.bids.getD []).map (fun b => (b.price ps' m - b.price ps m) * y b.vid)).sum -
      ((m.bids.getD []).map (fun b => (b.price ps' m - b.price ps m) * x b.vid)).sum := by
    rw [← sum_map_sub]
    apply sum_map_congr
    intro b _
    ring
  rw [e, ← c y, ← c x]
  ring

include h hb hb' hl hl' hf hx hp

/-- **C138**.  If unused bands do not become cheaper, completely used bands do not become dearer, and no other price changes, then a
cheapest dispatch remains a cheapest dispatch. -/
theorem C138_kept : Optimal lp' x := by
  obtain ⟨f, _⟩ := repriced h hb hb' hl hl'
  refine ⟨(f x).1 hx.1, fun y hy => ?_⟩
  have i := hx.2 y ((f y).2 hy)
  have s : 0 ≤ ((m.bids.getD []).map (fun b => (b.price ps' m - b.price ps m) * (y b.vid - x b.vid))).sum := List.sum_nonneg (fun q hq => by
    obtain ⟨b, hm, rfl⟩ := List.mem_map.1 hq
    exact kept_terms hl hf hp ((f y).2 hy) b hm)
  rw [← kept_cost h hb hb' hl hl'] at s
  linarith

/-- **C138**, no other dispatch.  Every cheapest dispatch with the new prices is a cheapest dispatch with the old prices, and it uses each band
whose price is another at the market's node just as much as the first one. -/
theorem C138_no_other {y : Nat → ℚ} (hy : Optimal lp' y) :
    Optimal lp y ∧ ∀ b ∈ m.bids.getD [], b.price ps' m ≠ b.price ps m → y b.vid = x b.vid := by
  obtain ⟨f, _⟩ := repriced h hb hb' hl hl'
  have hfy := (f y).2 hy.1
  have i := hx.2 y hfy
  have j := hy.2 x ((f x).1 hx.1)
  have t := kept_terms hl hf hp hfy
  have s : 0 ≤ ((m.bids.getD []).map (fun b => (b.price ps' m - b.price ps m) * (y b.vid - x b.vid))).sum := List.sum_nonneg (fun q hq => by
    obtain ⟨b, hm, rfl⟩ := List.mem_map.1 hq
    exact t b hm)
  have e := kept_cost h hb hb' hl hl' (x := x) y
  refine ⟨⟨hfy, fun z hz => le_trans (by linarith) (hx.2 z hz)⟩, fun b hm hne => ?_⟩
  have z := sum_zero_terms t (by linarith) b hm
  rcases mul_eq_zero.1 z with z | z
  · exact absurd (sub_eq_zero.1 z) hne
  · linarith

/-- **C138**, cost.  If only prices of unused bands change, the objective value stays the same. -/
theorem C138_cost (hu : OnlyUnused m ps ps' x) : Optimal lp' x ∧ lp'.cost x = lp.cost x := by
  refine ⟨C138_kept h hb hb' hl hl' hf hx hp, ?_⟩
  obtain ⟨_, c⟩ := repriced h hb hb' hl hl'
  have z : ((m.bids.getD []).map (fun b => (b.price ps' m - b.price ps m) * x b.vid)).sum = 0 := by
    apply List.sum_eq_zero
    intro q hq
    obtain ⟨b, hm, rfl⟩ := List.mem_map.1 hq
    by_cases hz : x b.vid = 0
    · rw [hz, mul_zero]
    · have : b.price ps' m = b.price ps m := by unfold BidVar.price costOf; rw [hu b hm hz]
      rw [this, sub_self, zero_mul]
  have := c x
  rw [z] at this
  linarith

end

/-! ## Example -/

def keptPrices (p q : ℚ) : List BidRow := [{ unit := "A", bands := [("1", p)] }, { unit := "B", bands := [("1", 50)] }, { unit := "C", bands := [("1", q)] }]

/-- three units with the prices `p`, 50 and `q`, and a demand of 130 -/
def keptCase (p q : ℚ) : Case where
  regions := ["NSW"]
  units := [{ unit := "A", region := "NSW" }, { unit := "B", region := "NSW" }, { unit := "C", region := "NSW" }]
  hist := [.volumeBids [{ unit := "A", bands := [("1", 100)] }, { unit := "B", bands := [("1", 100)] }, { unit := "C", bands := [("1", 40)] }],
    .priceBids (keptPrices p q), .demand [{ region := "NSW", demand := 130 }] none]
  sol := [100, 30, 0]

theorem keptPrices_keep {m : Market} {p q p' q' : ℚ} (hm : (m.bids.getD []).map (fun b => (b.unit, b.service, b.dtype, b.band, (keptCase p q).x b.vid, b.ub)) =
    [("A", .energy, .generator, "1", 100, 100), ("B", .energy, .generator, "1", 30, 100), ("C", .energy, .generator, "1", 0, 40)])
    (hp : p' ≤ p) (hq : q ≤ q') : PricesKeep m (keptPrices p q) (keptPrices p' q') (keptCase p q).x := by
  intro b hb
  have hm' : (b.unit, b.service, b.dtype, b.band, (keptCase p q).x b.vid, b.ub) ∈
    (m.bids.getD []).map (fun b => (b.unit, b.service, b.dtype, b.band, (keptCase p q).x b.vid, b.ub)) := List.mem_map_of_mem hb
  rw [hm] at hm'
  simp only [List.mem_cons, List.not_mem_nil, or_false, Prod.mk.injEq] at hm'
  rcases hm' with ⟨e1, e2, e3, e4, e5, e6⟩ | ⟨e1, e2, e3, e4, e5, e6⟩ | ⟨e1, e2, e3, e4, e5, e6⟩ <;> rw [e1, e2, e3, e4, e5, e6]
  · refine ⟨p, p', rfl, rfl, Or.inr (Or.inr ⟨rfl, ?_⟩)⟩
    unfold BidVar.noCheaper
    rw [if_neg (by rw [e3]; simp)]
    exact hp
  · exact ⟨50, 50, rfl, rfl, Or.inl rfl⟩
  · refine ⟨q, q', rfl, rfl, Or.inr (Or.inl ⟨rfl, ?_⟩)⟩
    unfold BidVar.noCheaper
    rw [if_neg (by rw [e3]; simp)]
    exact hq

/-- instance of C138: A, which is used completely, lowers its price from 20 to 10, and C, which is not used, raises it from 70 to 90 -/
example : ∃ m m' lp lp', OneCall [.bids, .set .tieBreak] (.priceBids (keptPrices 20 70)) (.priceBids (keptPrices 10 90)) m m' ∧
    BandsUnique (keptPrices 20 70) ∧ BandsUnique (keptPrices 10 90) ∧ m.assemble = .ok lp ∧ m'.assemble = .ok lp' ∧ (∀ i ∈ m.units, 0 < i.lf) ∧
    Optimal lp (keptCase 20 70).x ∧ PricesKeep m (keptPrices 20 70) (keptPrices 10 90) (keptCase 20 70).x := by
  have h : (keptCase 20 70).best [50] (fun m => decide ((m.bids.getD []).map (fun b => (b.unit, b.service, b.dtype, b.band, (keptCase 20 70).x b.vid, b.ub)) =
    [("A", .energy, .generator, "1", 100, 100), ("B", .energy, .generator, "1", 30, 100), ("C", .energy, .generator, "1", 0, 40)]) &&
    decide (∀ i ∈ m.units, 0 < i.lf)) = true := by decide +kernel
  have h' : (keptCase 10 90).best [50] (fun _ => true) = true := by decide +kernel
  obtain ⟨m, lp, h0, h1, h2, h3⟩ := Case.optimal h
  obtain ⟨m', lp', k0, k1, _, _⟩ := Case.optimal h'
  simp only [Bool.and_eq_true, decide_eq_true_eq] at h3
  have hone := Case.oneCall h0 k0 1 (.priceBids (keptPrices 20 70)) (.priceBids (keptPrices 10 90)) [.bids, .set .tieBreak] ⟨rfl, rfl, rfl⟩ rfl rfl rfl rfl
    (by decide +kernel)
  exact ⟨m, m', lp, lp', hone, by unfold BandsUnique; decide +kernel, by unfold BandsUnique; decide +kernel, h1, k1, h3.2, h2,
    keptPrices_keep h3.1 (by norm_num) (by norm_num)⟩

/-- instance of `C138_cost`: only C, which is not used, raises its price -/
example : ∃ m m' lp lp', OneCall [.bids, .set .tieBreak] (.priceBids (keptPrices 20 70)) (.priceBids (keptPrices 20 90)) m m' ∧
    m.assemble = .ok lp ∧ m'.assemble = .ok lp' ∧ (∀ i ∈ m.units, 0 < i.lf) ∧ Optimal lp (keptCase 20 70).x ∧
    PricesKeep m (keptPrices 20 70) (keptPrices 20 90) (keptCase 20 70).x ∧ OnlyUnused m (keptPrices 20 70) (keptPrices 20 90) (keptCase 20 70).x := by
  have h : (keptCase 20 70).best [50] (fun m => decide ((m.bids.getD []).map (fun b => (b.unit, b.service, b.dtype, b.band, (keptCase 20 70).x b.vid, b.ub)) =
    [("A", .energy, .generator, "1", 100, 100), ("B", .energy, .generator, "1", 30, 100), ("C", .energy, .generator, "1", 0, 40)]) &&
    decide (∀ i ∈ m.units, 0 < i.lf) &&
    decide (∀ b ∈ m.bids.getD [], (keptCase 20 70).x b.vid ≠ 0 → priceOf (keptPrices 20 90) b.unit b.service b.dtype b.band =
      priceOf (keptPrices 20 70) b.unit b.service b.dtype b.band)) = true := by decide +kernel
  have h' : (keptCase 20 90).best [50] (fun _ => true) = true := by decide +kernel
  obtain ⟨m, lp, h0, h1, h2, h3⟩ := Case.optimal h
  obtain ⟨m', lp', k0, k1, _, _⟩ := Case.optimal h'
  simp only [Bool.and_eq_true, decide_eq_true_eq] at h3
  have hone := Case.oneCall h0 k0 1 (.priceBids (keptPrices 20 70)) (.priceBids (keptPrices 20 90)) [.bids, .set .tieBreak] ⟨rfl, rfl, rfl⟩ rfl rfl rfl rfl
    (by decide +kernel)
  exact ⟨m, m', lp, lp', hone, h1, k1, h3.1.2, h2, keptPrices_keep h3.1.1 (by norm_num) (by norm_num), h3.2⟩

end Verif
