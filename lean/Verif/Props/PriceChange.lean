import Verif.Props.Comparative
import Mathlib.Algebra.Order.Ring.Abs

/-!
# C130: small changes of price bids have small effects
-/

namespace Verif

section
variable {ps ps' : List BidRow} {m m' : Market} (h : OneCall [.bids, .set .tieBreak] (.priceBids ps) (.priceBids ps') m m')
  (hb : BandsUnique ps) (hb' : BandsUnique ps') {lp lp' : Lp} (hl : m.assemble = .ok lp) (hl' : m'.assemble = .ok lp')
include h hb hb' hl hl'

/-- the two programs have the same feasible schedules, and their costs differ by the changes of prices -/
theorem repriced : (∀ z, Feasible lp z ↔ Feasible lp' z) ∧
    ∀ z, lp'.cost z - lp.cost z = ((m.bids.getD []).map (fun b => (b.price ps' m - b.price ps m) * z b.vid)).sum := by
  have ha := priceBids_alike h
  have hw := h.first.inForce.reached.wf.con
  have hw' := h.second.inForce.reached.wf.con
  refine ⟨fun z => ⟨alike_feasible ha hw hw' hl hl', alike_feasible (fun k => (ha k).symm) hw' hw hl' hl⟩, fun z => ?_⟩
  have keep : ∀ {op : Op} {m : Market}, InForceKeeping [.bids, .set .tieBreak] op m → InForceKeeping [.bids] op m := by
    rintro op m ⟨r, u, di, m0, before, after, h0, hb, ho, ha, e⟩
    exact ⟨r, u, di, m0, before, after, h0, hb, ho, fun o ho p hp => ha o ho p (by simp only [List.mem_append, List.mem_cons] at hp ⊢; tauto), e⟩
  have c1 := C05_objective_is_cost_of_bids (keep h.first) hb hl
  have c2 := C05_objective_is_cost_of_bids (keep h.second) hb' hl'
  rw [(ha .demand).bids, (ha .demand).units, (ha .demand).deficits] at c2
  rw [c1, c2, add_sub_add_right_eq_sub, ← sum_map_sub]
  apply sum_map_congr
  intro b _
  unfold BidVar.price
  ring

/-- **C130** What a change of prices does to the cost of the dispatch: the cost rises at least by the changes of the prices times the
dispatch after, and at most by the changes times the dispatch before. -/
theorem C130_cost_change {x x' : Nat → ℚ} (hx : Optimal lp x) (hx' : Optimal lp' x') :
    ((m.bids.getD []).map (fun b => (b.price ps' m - b.price ps m) * x' b.vid)).sum ≤ lp'.cost x' - lp.cost x ∧
    lp'.cost x' - lp.cost x ≤ ((m.bids.getD []).map (fun b => (b.price ps' m - b.price ps m) * x b.vid)).sum := by
  obtain ⟨hf, hc⟩ := repriced h hb hb' hl hl'
  have i1 := hx.2 x' ((hf x').2 hx'.1)
  have i2 := hx'.2 x ((hf x).1 hx.1)
  have e1 := hc x
  have e2 := hc x'
  constructor <;> linarith

/-- **C130** If no price at the reference node falls, the cost of the dispatch does not fall. -/
theorem C130_monotone (hp : ∀ b ∈ m.bids.getD [], b.price ps m ≤ b.price ps' m) {x x' : Nat → ℚ} (hx : Optimal lp x)
    (hx' : Optimal lp' x') : lp.cost x ≤ lp'.cost x' := by
  have h1 := (C130_cost_change h hb hb' hl hl' hx hx').1
  have h2 : 0 ≤ ((m.bids.getD []).map (fun b => (b.price ps' m - b.price ps m) * x' b.vid)).sum := by
    apply sum_map_nonneg
    intro b hbm
    exact mul_nonneg (by linarith [hp b hbm]) (bid_bounds hl (((repriced h hb hb' hl hl').1 x').2 hx'.1) hbm).1
  linarith

variable {ε : ℚ} (hε : ∀ b ∈ m.bids.getD [], |b.price ps' m - b.price ps m| ≤ ε)
include hε

theorem change_le {z : Nat → ℚ} (hz : Feasible lp z) :
    |((m.bids.getD []).map (fun b => (b.price ps' m - b.price ps m) * z b.vid)).sum| ≤ ε * ((m.bids.getD []).map BidVar.ub).sum := by
  have key : ∀ l : List BidVar, (∀ b ∈ l, b ∈ m.bids.getD []) →
      |(l.map (fun b => (b.price ps' m - b.price ps m) * z b.vid)).sum| ≤ ε * (l.map BidVar.ub).sum := by
    intro l
    induction l with
    | nil => intro _; simp
    | cons b l ih =>
      intro hm
      have hbm := hm b List.mem_cons_self
      obtain ⟨b1, b2⟩ := bid_bounds hl hz hbm
      have i := ih (fun c hc => hm c (List.mem_cons_of_mem _ hc))
      simp only [List.map_cons, List.sum_cons]
      have t : |(b.price ps' m - b.price ps m) * z b.vid| ≤ ε * b.ub := by
        rw [abs_mul, abs_of_nonneg b1]
        exact mul_le_mul (hε b hbm) b2 b1 (le_trans (abs_nonneg _) (hε b hbm))
      calc _ ≤ |(b.price ps' m - b.price ps m) * z b.vid| + _ := abs_add_le _ _
        _ ≤ ε * b.ub + ε * (l.map BidVar.ub).sum := add_le_add t i
        _ = _ := by ring
  exact key _ (fun b hb => hb)

/-- **C130** If every price at the reference node changes by at most `ε`, the cost of the dispatch changes by at most `ε` times the
volume of all bids. -/
theorem C130_small_change {x x' : Nat → ℚ} (hx : Optimal lp x) (hx' : Optimal lp' x') :
    |lp'.cost x' - lp.cost x| ≤ ε * ((m.bids.getD []).map BidVar.ub).sum := by
  obtain ⟨h1, h2⟩ := C130_cost_change h hb hb' hl hl' hx hx'
  have hf := (repriced h hb hb' hl hl').1
  have a := abs_le.1 (change_le h hb hb' hl hl' hε hx.1)
  have b := abs_le.1 (change_le h hb hb' hl hl' hε ((hf x').2 hx'.1))
  exact abs_le.2 ⟨by linarith, by linarith⟩

/-- **C130** And the dispatch before is still a possible dispatch, and costs at most that much more than the cheapest one. -/
theorem C130_still_good {x x' : Nat → ℚ} (hx : Optimal lp x) (hx' : Optimal lp' x') :
    Feasible lp' x ∧ lp'.cost x ≤ lp'.cost x' + ε * ((m.bids.getD []).map BidVar.ub).sum := by
  obtain ⟨hf, hc⟩ := repriced h hb hb' hl hl'
  refine ⟨(hf x).1 hx.1, ?_⟩
  have i1 := hx.2 x' ((hf x').2 hx'.1)
  have e1 := hc x
  have e2 := hc x'
  have key : ∀ l : List BidVar, (∀ b ∈ l, b ∈ m.bids.getD []) →
      (l.map (fun b => (b.price ps' m - b.price ps m) * x b.vid)).sum - (l.map (fun b => (b.price ps' m - b.price ps m) * x' b.vid)).sum ≤
        ε * (l.map BidVar.ub).sum := by
    intro l
    induction l with
    | nil => intro _; simp
    | cons b l ih =>
      intro hm
      have hbm := hm b List.mem_cons_self
      obtain ⟨b1, b2⟩ := bid_bounds hl hx.1 hbm
      obtain ⟨b3, b4⟩ := bid_bounds hl ((hf x').2 hx'.1) hbm
      have i := ih (fun c hc => hm c (List.mem_cons_of_mem _ hc))
      simp only [List.map_cons, List.sum_cons]
      have t : (b.price ps' m - b.price ps m) * (x b.vid - x' b.vid) ≤ ε * b.ub := by
        refine le_trans (le_abs_self _) ?_
        rw [abs_mul]
        exact mul_le_mul (hε b hbm) (abs_le.2 ⟨by linarith, by linarith⟩) (abs_nonneg _) (le_trans (abs_nonneg _) (hε b hbm))
      linarith
  have := key _ (fun b hb => hb)
  linarith

end

/-- instance of C130: unit A raises its price from 20 to 70, every price changes by at most 50, and the cost of the dispatch rises
from 2200 to 4000 -/
example : ∃ m m' lp lp', OneCall [.bids, .set .tieBreak] (.priceBids (compPrices 20)) (.priceBids (compPrices 70)) m m' ∧
    BandsUnique (compPrices 20) ∧ BandsUnique (compPrices 70) ∧ m.assemble = .ok lp ∧ m'.assemble = .ok lp' ∧
    Optimal lp (compCase 60 20 80 [60, 20]).x ∧ Optimal lp' (compCase 60 70 80 [0, 80]).x ∧
    (∀ b ∈ m.bids.getD [], |b.price (compPrices 70) m - b.price (compPrices 20) m| ≤ 50) ∧
    ∀ b ∈ m.bids.getD [], b.price (compPrices 20) m ≤ b.price (compPrices 70) m := by
  have h : (compCase 60 20 80 [60, 20]).best [50, -30] (fun m => decide ((∀ b ∈ m.bids.getD [],
      |b.price (compPrices 70) m - b.price (compPrices 20) m| ≤ 50) ∧
      ∀ b ∈ m.bids.getD [], b.price (compPrices 20) m ≤ b.price (compPrices 70) m)) = true := by decide +kernel
  have h' : (compCase 60 70 80 [0, 80]).best [50, 0] (fun _ => true) = true := by decide +kernel
  obtain ⟨m, lp, h0, h1, h2, h3⟩ := Case.optimal h
  obtain ⟨m', lp', k0, k1, k2, _⟩ := Case.optimal h'
  have hone := Case.oneCall h0 k0 2 (.priceBids (compPrices 20)) (.priceBids (compPrices 70)) [.bids, .set .tieBreak] ⟨rfl, rfl, rfl⟩ rfl rfl rfl rfl
    (by decide +kernel)
  obtain ⟨j1, j2⟩ := of_decide_eq_true h3
  exact ⟨m, m', lp, lp', hone, by unfold BandsUnique; decide +kernel, by unfold BandsUnique; decide +kernel, h1, k1, h2, k2, j1, j2⟩

end Verif
