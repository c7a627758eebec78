import Verif.Props.PriceChange
import Verif.Props.System
import Verif.Spec.Level

/-!
# C140: only differences of prices matter

Raising all energy bids by the same amount makes every schedule dearer by that amount for the demand and the losses.
-/

namespace Verif

/-- net output of all units as a sum over bids -/
theorem totalSupply_bids {m : Market} (hw : WF m) (x : Nat → ℚ) : m.totalSupply x = ((m.bids.getD []).map (fun b =>
    (if b.service = .energy ∧ (lossFactor m.units b.unit b.dtype).isSome then (if b.dtype = .load then -1 else 1) else 0) * x b.vid)).sum := by
  unfold Market.totalSupply Market.dispatched
  simp only [sum_filter_eq_ite]
  have e : ∀ u : UnitInfo, (if u.dtype = .load then (-1 : ℚ) else 1) * ((m.bids.getD []).map (fun b =>
      if decide (b.unit = u.unit ∧ b.service = .energy ∧ b.dtype = u.dtype) = true then x b.vid else 0)).sum =
      ((m.bids.getD []).map (fun b => if decide ((u.unit, u.dtype) = (b.unit, b.dtype)) = true then
        (if b.service = .energy then (if b.dtype = .load then -1 else 1) else 0) * x b.vid else 0)).sum := by
    intro u
    rw [← sum_map_mul_left]
    apply sum_map_congr
    intro b _
    simp only [decide_eq_true_eq, Prod.mk.injEq]
    by_cases hk : u.unit = b.unit ∧ u.dtype = b.dtype
    · rw [if_pos hk]
      by_cases h3 : b.service = .energy
      · have hc : b.unit = u.unit ∧ b.service = .energy ∧ b.dtype = u.dtype := ⟨hk.1.symm, h3, hk.2.symm⟩
        rw [if_pos hc, if_pos h3, hk.2]
      · have hc : ¬(b.unit = u.unit ∧ b.service = .energy ∧ b.dtype = u.dtype) := fun h => h3 h.2.1
        rw [if_neg hc, if_neg h3]; ring
    · have hc : ¬(b.unit = u.unit ∧ b.service = .energy ∧ b.dtype = u.dtype) := fun h => hk ⟨h.1.symm, h.2.2.symm⟩
      rw [if_neg hk, if_neg hc, mul_zero]
  simp only [e]
  rw [sum_comm]
  apply sum_map_congr
  intro b _
  rw [← sum_filter_eq_ite m.units (fun u => decide ((u.unit, u.dtype) = (b.unit, b.dtype)))
    (fun _ => (if b.service = .energy then (if b.dtype = .load then (-1 : ℚ) else 1) else 0) * x b.vid)]
  cases hl : lossFactor m.units b.unit b.dtype with
  | none =>
    have : m.units.filter (fun u => decide ((u.unit, u.dtype) = (b.unit, b.dtype))) = [] := by
      unfold lossFactor at hl
      rw [Option.map_eq_none_iff, List.find?_eq_none] at hl
      rw [List.filter_eq_nil_iff]
      intro u hu hc
      simp only [decide_eq_true_eq, Prod.mk.injEq] at hc
      exact hl u hu (decide_eq_true hc)
    rw [this]
    simp
  | some f =>
    unfold lossFactor at hl
    obtain ⟨i, hi, _⟩ := Option.map_eq_some_iff.1 hl
    have hk := List.find?_some hi
    simp only [decide_eq_true_eq] at hk
    have := filter_key_unique (key := fun u : UnitInfo => (u.unit, u.dtype)) (l := m.units) (a := i) hw.units (List.mem_of_find?_eq_some hi)
    rw [hk.1, hk.2] at this
    rw [this]
    simp

section
variable {ps ps' : List BidRow} {m m' : Market} (h : OneCall [.bids, .set .tieBreak] (.priceBids ps) (.priceBids ps') m m')
  (hb : BandsUnique ps) (hb' : BandsUnique ps') {lp lp' : Lp} (hl : m.assemble = .ok lp) (hl' : m'.assemble = .ok lp')
  (hf : ∀ i ∈ m.units, 0 < i.lf) {c : ℚ} (hp : PricesShifted c m ps ps')
include h hb hb' hl hl' hf hp

/-- **C140**, supply.  The two markets have the same schedules, and with the second prices each costs `c` more for each MW of net output. -/
theorem C140_supply (z : Nat → ℚ) : (Feasible lp' z ↔ Feasible lp z) ∧ lp'.cost z = lp.cost z + c * m.totalSupply z := by
  obtain ⟨f, k⟩ := repriced h hb hb' hl hl'
  refine ⟨(f z).symm, ?_⟩
  have e := k z
  rw [totalSupply_bids h.first.inForce.reached.wf, ← sum_map_mul_left]
  rw [sub_eq_iff_eq_add'] at e
  rw [e]
  congr 1
  apply sum_map_congr
  intro b hm
  obtain ⟨p, p', h1, h2, h3⟩ := hp b hm
  unfold BidVar.price costOf
  rw [h1, h2]
  cases hq : lossFactor m.units b.unit b.dtype with
  | none => simp
  | some q =>
    have q0 : q ≠ 0 := by
      unfold lossFactor at hq
      obtain ⟨i, hi, rfl⟩ := Option.map_eq_some_iff.1 hq
      exact (hf i (List.mem_of_find?_eq_some hi)).ne'
    dsimp only
    by_cases hs : b.service = .energy
    · rw [if_pos hs] at h3
      have h3 := h3 q hq
      have hd : p' / q = p / q + c := by rw [h3, add_div, mul_div_assoc, div_self q0, mul_one]
      have he : b.service = .energy ∧ (some q).isSome = true := ⟨hs, rfl⟩
      rw [if_pos hs, if_pos hs, if_pos he]
      split <;> rw [hd] <;> ring
    · rw [if_neg hs] at h3
      have he : ¬(b.service = .energy ∧ (some q).isSome = true) := fun e => hs e.1
      rw [if_neg hs, if_neg hs, if_neg he, h3]
      ring

variable {ds : List Demand} (hd : InForce (.demand ds none) m) {fs : List LossFn} (hfs : LossFunctions fs m) (hpl : m.properLinks fs)
  (hall : (ds.map Demand.region).Perm m.regions.dedup) (hs : ∀ d ∈ ds, m.hasSupply d.region .energy ∨ m.hasLink d.region)
include hd hfs hpl hall hs

/-- **C140**, demand and losses.  With all energy bids higher by `c` each schedule costs `c` more for each MW of the demand of all regions and of
losses. -/
theorem C140_cost {z : Nat → ℚ} (hz : Feasible lp z) : lp'.cost z = lp.cost z + c * ((ds.map Demand.demand).sum + m.totalLoss z fs) := by
  rw [(C140_supply h hb hb' hl hl' hf hp z).2, C131_system_balance hd hfs hpl hl hz hall hs]

/-- **C140**, losses.  With higher energy bids the losses of the cheapest dispatch are not higher. -/
theorem C140_losses (hc : 0 < c) {x x' : Nat → ℚ} (hx : Optimal lp x) (hx' : Optimal lp' x') : m.totalLoss x' fs ≤ m.totalLoss x fs := by
  have f := fun z => (C140_supply h hb hb' hl hl' hf hp z).1
  have g1 := (f x').1 hx'.1
  have i1 := hx.2 x' g1
  have i2 := hx'.2 x ((f x).2 hx.1)
  rw [C140_cost h hb hb' hl hl' hf hp hd hfs hpl hall hs hx.1, C140_cost h hb hb' hl hl' hf hp hd hfs hpl hall hs g1] at i2
  have : c * m.totalLoss x' fs ≤ c * m.totalLoss x fs := by rw [mul_add, mul_add] at i2; linarith
  exact le_of_mul_le_mul_left this hc

/-- **C140**.  If nothing is lost on links, the cheapest dispatches are the same with all energy bids higher by `c`, and the objective value is
higher by `c` times the demand of all regions. -/
theorem C140_level (h0 : ∀ z, Feasible lp z → m.totalLoss z fs = 0) (x : Nat → ℚ) : (Optimal lp' x ↔ Optimal lp x) ∧
    (Optimal lp x → lp'.cost x = lp.cost x + c * (ds.map Demand.demand).sum) := by
  have f := fun z => (C140_supply h hb hb' hl hl' hf hp z).1
  have k : ∀ z, Feasible lp z → lp'.cost z = lp.cost z + c * (ds.map Demand.demand).sum := by
    intro z hz
    rw [C140_cost h hb hb' hl hl' hf hp hd hfs hpl hall hs hz, h0 z hz, add_zero]
  refine ⟨⟨fun hx => ⟨(f x).1 hx.1, fun y hy => ?_⟩, fun hx => ⟨(f x).2 hx.1, fun y hy => ?_⟩⟩, fun hx => k x hx.1⟩
  · have := hx.2 y ((f y).2 hy)
    rw [k x ((f x).1 hx.1), k y hy] at this
    linarith
  · have := hx.2 y ((f y).1 hy)
    rw [k x hx.1, k y ((f y).1 hy)]
    linarith

end

/-- without loss functions, and if the loss factors of each link are the same at both ends, nothing is lost on links -/
theorem C140_no_losses {m : Market} (hl : ∀ d ∈ m.dirs.getD [], d.fromLf = d.toLf) (z : Nat → ℚ) : m.totalLoss z [] = 0 := by
  unfold Market.totalLoss
  apply List.sum_eq_zero
  intro q hq
  obtain ⟨d, hd, rfl⟩ := List.mem_map.1 hq
  rw [hl d hd]
  simp

/-! ## Examples -/

def levelPrices (c : ℚ) : List BidRow := [{ unit := "A", bands := [("1", 30 + c)] }, { unit := "V", bands := [("1", 50 + c)] }]

/-- two regions and a lossy link, energy bids of 30 and 50 raised by `c` -/
def levelCase (c : ℚ) (sol : List ℚ) : Case where
  regions := ["NSW", "VIC"]
  units := regUnits
  hist := [.volumeBids [{ unit := "A", bands := [("1", 200)] }, { unit := "V", bands := [("1", 100)] }], .priceBids (levelPrices c),
    .interconnectors [{ inter := "I", link := "I", fromR := "NSW", toR := "VIC", min := -100, max := 100 }],
    .losses regLoss regPoints, .demand regDemand none]
  sol := sol

theorem levelPrices_shifted {m : Market} {c : ℚ} (hm : (m.bids.getD []).map (fun b => (b.unit, b.service, b.dtype, b.band)) =
    [("A", .energy, .generator, "1"), ("V", .energy, .generator, "1")]) (hu : m.units = regUnits) :
    PricesShifted c m (levelPrices 0) (levelPrices c) := by
  intro b hb
  have hm' : (b.unit, b.service, b.dtype, b.band) ∈ (m.bids.getD []).map (fun b => (b.unit, b.service, b.dtype, b.band)) := List.mem_map_of_mem hb
  rw [hm] at hm'
  simp only [List.mem_cons, List.not_mem_nil, or_false, Prod.mk.injEq] at hm'
  rw [hu]
  rcases hm' with ⟨e1, e2, e3, e4⟩ | ⟨e1, e2, e3, e4⟩ <;> rw [e1, e2, e3, e4]
  · refine ⟨30 + 0, 30 + c, rfl, rfl, ?_⟩
    rw [if_pos rfl]
    intro f hf
    have : f = 1 := by injection hf with hf; exact hf.symm
    rw [this]; ring
  · refine ⟨50 + 0, 50 + c, rfl, rfl, ?_⟩
    rw [if_pos rfl]
    intro f hf
    have : f = 1 := by injection hf with hf; exact hf.symm
    rw [this]; ring

/-- instance of `C140_losses`: with bids of 30 and 50 the link carries energy and loses 100/19 MW; with 230 and 250 it is not used -/
example : ∃ m m' lp lp', OneCall [.bids, .set .tieBreak] (.priceBids (levelPrices 0)) (.priceBids (levelPrices 200)) m m' ∧
    BandsUnique (levelPrices 0) ∧ BandsUnique (levelPrices 200) ∧ m.assemble = .ok lp ∧ m'.assemble = .ok lp' ∧ (∀ i ∈ m.units, 0 < i.lf) ∧
    PricesShifted 200 m (levelPrices 0) (levelPrices 200) ∧ InForce (.demand regDemand none) m ∧ LossFunctions regLoss m ∧ m.properLinks regLoss ∧
    (regDemand.map Demand.region).Perm m.regions.dedup ∧ (∀ d ∈ regDemand, m.hasSupply d.region .energy ∨ m.hasLink d.region) ∧
    Optimal lp (levelCase 0 [2950/19, 0, 1000/19, 100/19, 0, 9/19, 10/19]).x ∧ Optimal lp' (levelCase 200 [100, 50, 0, 0, 0, 1, 0]).x ∧
    m.totalLoss (levelCase 0 [2950/19, 0, 1000/19, 100/19, 0, 9/19, 10/19]).x regLoss = 100 / 19 ∧
    m.totalLoss (levelCase 200 [100, 50, 0, 0, 0, 1, 0]).x regLoss = 0 := by
  have h : (levelCase 0 [2950/19, 0, 1000/19, 100/19, 0, 9/19, 10/19]).best [0, 60/19, -600/19, 30, 630/19] (fun m =>
    decide ((m.bids.getD []).map (fun b => (b.unit, b.service, b.dtype, b.band)) = [("A", .energy, .generator, "1"), ("V", .energy, .generator, "1")]) &&
    decide (m.units = regUnits) && decide (m.properLinks regLoss ∧ (∀ d ∈ regDemand, m.hasSupply d.region .energy ∨ m.hasLink d.region) ∧
      (regDemand.map Demand.region).Perm m.regions.dedup) &&
    decide (m.totalLoss (levelCase 0 [2950/19, 0, 1000/19, 100/19, 0, 9/19, 10/19]).x regLoss = 100 / 19 ∧
      m.totalLoss (levelCase 200 [100, 50, 0, 0, 0, 1, 0]).x regLoss = 0)) = true := by decide +kernel
  have h' : (levelCase 200 [100, 50, 0, 0, 0, 1, 0]).best [0, 20, -240, 230, 250] (fun _ => true) = true := by decide +kernel
  obtain ⟨m, lp, h0, h1, h2, h3⟩ := Case.optimal h
  obtain ⟨m', lp', k0, k1, k2, _⟩ := Case.optimal h'
  simp only [Bool.and_eq_true, decide_eq_true_eq] at h3
  have hone := Case.oneCall h0 k0 1 (.priceBids (levelPrices 0)) (.priceBids (levelPrices 200)) [.bids, .set .tieBreak] ⟨rfl, rfl, rfl⟩ rfl rfl rfl rfl
    (by decide +kernel)
  have hd : InForceKeeping [] (.demand regDemand none) m := Case.inForce (i := 4) h0 rfl (by decide +kernel)
  have hl : InForceKeeping [.inters] (.losses regLoss regPoints) m := Case.inForce (i := 3) h0 rfl (by decide +kernel)
  refine ⟨m, m', lp, lp', hone, by unfold BandsUnique; decide +kernel, by unfold BandsUnique; decide +kernel, h1, k1, ?_,
    levelPrices_shifted h3.1.1.1 h3.1.1.2, hd.inForce, Or.inr ⟨_, hl⟩, h3.1.2.1, h3.1.2.2.2, h3.1.2.2.1, h2, k2, h3.2⟩
  rw [h3.1.1.2]
  decide +kernel

/-- the same without losses on the link -/
def plainLevelCase (c : ℚ) (sol : List ℚ) : Case where
  regions := ["NSW", "VIC"]
  units := regUnits
  hist := [.volumeBids [{ unit := "A", bands := [("1", 200)] }, { unit := "V", bands := [("1", 100)] }], .priceBids (levelPrices c),
    .interconnectors [{ inter := "I", link := "I", fromR := "NSW", toR := "VIC", min := -100, max := 100 }], .demand regDemand none]
  sol := sol

/-- instance of `C140_level`: unit A meets the demand of both regions -/
example : ∃ m m' lp lp', OneCall [.bids, .set .tieBreak] (.priceBids (levelPrices 0)) (.priceBids (levelPrices 200)) m m' ∧
    m.assemble = .ok lp ∧ m'.assemble = .ok lp' ∧ (∀ i ∈ m.units, 0 < i.lf) ∧
    PricesShifted 200 m (levelPrices 0) (levelPrices 200) ∧ InForce (.demand regDemand none) m ∧ LossFunctions [] m ∧ m.properLinks [] ∧
    (regDemand.map Demand.region).Perm m.regions.dedup ∧ (∀ d ∈ regDemand, m.hasSupply d.region .energy ∨ m.hasLink d.region) ∧
    (∀ d ∈ m.dirs.getD [], d.fromLf = d.toLf) ∧ Optimal lp (plainLevelCase 0 [150, 0, 50]).x := by
  have h : (plainLevelCase 0 [150, 0, 50]).best [30, 30] (fun m =>
    decide ((m.bids.getD []).map (fun b => (b.unit, b.service, b.dtype, b.band)) = [("A", .energy, .generator, "1"), ("V", .energy, .generator, "1")]) &&
    decide (m.units = regUnits) && decide (m.properLinks [] ∧ (∀ d ∈ regDemand, m.hasSupply d.region .energy ∨ m.hasLink d.region) ∧
      (regDemand.map Demand.region).Perm m.regions.dedup) && decide (∀ d ∈ m.dirs.getD [], d.fromLf = d.toLf)) = true := by decide +kernel
  have h' : (plainLevelCase 200 [150, 0, 50]).best [230, 230] (fun _ => true) = true := by decide +kernel
  obtain ⟨m, lp, h0, h1, h2, h3⟩ := Case.optimal h
  obtain ⟨m', lp', k0, k1, _, _⟩ := Case.optimal h'
  simp only [Bool.and_eq_true, decide_eq_true_eq] at h3
  have hone := Case.oneCall h0 k0 1 (.priceBids (levelPrices 0)) (.priceBids (levelPrices 200)) [.bids, .set .tieBreak] ⟨rfl, rfl, rfl⟩ rfl rfl rfl rfl
    (by decide +kernel)
  have hd : InForceKeeping [] (.demand regDemand none) m := Case.inForce (i := 3) h0 rfl (by decide +kernel)
  refine ⟨m, m', lp, lp', hone, h1, k1, ?_, levelPrices_shifted h3.1.1.1 h3.1.1.2, hd.inForce, Or.inl ⟨rfl, Case.noLosses h0 (by decide +kernel)⟩,
    h3.1.2.1, h3.1.2.2.2, h3.1.2.2.1, h3.2, h2⟩
  rw [h3.1.1.2]
  decide +kernel

end Verif
