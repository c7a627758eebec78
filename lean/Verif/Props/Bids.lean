import Verif.Proofs.Bids
import Verif.Proofs.Demo
import Verif.Props.Ids

/-!
# C03, C04, C05, C39: bids, their volumes and their cost

`offered`, `bandsOf`, `priceOf`, `lossFactor` and `costOf` are in `Verif/Spec/Cost.lean`.
-/

namespace Verif

/-- **C03** The dispatch of a unit for a service and dispatch type is between zero and the volume bid. -/
theorem C03_dispatch_within_offer {bs : List BidRow} {m : Market} (h : InForce (.volumeBids bs) m) {lp : Lp}
    (hl : m.assemble = .ok lp) {x : Nat → ℚ} (hx : Feasible lp x) (u : String) (s : Service) (d : DType) :
    0 ≤ m.dispatched x u s d ∧ m.dispatched x u s d ≤ offered bs u s d := by
  obtain ⟨n, hb, hok, _⟩ := volumeBids_vars h
  refine ⟨dispatched_nonneg hl hx u s d, ?_⟩
  have hpos : ∀ r ∈ bs, ∀ b ∈ r.bands, 0 ≤ b.2 := by
    simp only [Market.volumeBidsOk, Bool.and_eq_true, List.all_eq_true, decide_eq_true_eq] at hok
    intro r hr b hb
    exact (hok.1 r hr).2 b hb
  refine le_trans ?_ (offered_le (n := n) hpos u s d)
  unfold Market.dispatched
  rw [hb, Option.getD_some]
  apply sum_map_le
  intro b hb'
  exact (bid_bounds hl hx (by rw [hb]; exact (List.mem_filter.1 hb').1)).2

/-- **C04** The bid variables are, up to order, the bands of at least 0.0001 MW, one variable for each,
bounded by zero and the volume of the band; and no two of them share an id. -/
theorem C04_one_variable_per_band {bs : List BidRow} {m : Market} (h : InForce (.volumeBids bs) m) {lp : Lp}
    (hl : m.assemble = .ok lp) :
    ((m.bids.getD []).map (fun v => (v.unit, v.service, v.dtype, v.band, v.ub))).Perm
      ((bandsOf bs).filter (fun b => decide (1 / 10000 ≤ b.2.2.2.2))) ∧
    (∀ v ∈ m.bids.getD [], LVar.mk v.vid 0 (some v.ub) ∈ lp.vars) ∧
    ((m.bids.getD []).map BidVar.vid).Nodup := by
  obtain ⟨n, hb, hok, _⟩ := volumeBids_vars h
  rw [hb, Option.getD_some]
  refine ⟨?_, ?_, ?_⟩
  · refine (bidVariables_perm bs n).trans (List.Perm.of_eq ?_)
    unfold meltVolumes bandsOf
    rw [List.filter_flatMap, List.filter_flatMap, List.map_flatMap]
    congr 1
    funext r
    rw [List.filter_map, List.filter_map, List.map_map]
    rfl
  · intro v hv
    rw [(assemble_parts hl).1]
    unfold Market.allVars
    rw [hb]
    simp only [Option.getD_some, List.mem_append, List.mem_map]
    exact Or.inl (Or.inl (Or.inl (Or.inl ⟨v, hv, rfl⟩)))
  · rw [bidVariables_vids]; exact List.nodup_range'

/-- **C05** The objective value of any assignment is the cost of the dispatched bids plus violation cost
times violation of the elastic constraints. -/
theorem C05_objective_is_cost_of_bids {ps : List BidRow} {m : Market} (h : InForceKeeping [.bids] (.priceBids ps) m)
    (hb : BandsUnique ps) {lp : Lp} (hl : m.assemble = .ok lp) (x : Nat → ℚ) :
    lp.cost x =
      ((m.bids.getD []).map (fun b => costOf ps m.units b.unit b.service b.dtype b.band * x b.vid)).sum +
      ((m.deficits.flatMap (fun d => d.2.1)).map (fun v => v.cost * x v.vid)).sum := by
  obtain ⟨hc, hp, hw⟩ := priceBids_cost h
  unfold Lp.cost
  rw [(assemble_parts hl).2.1]
  unfold Market.objective linVal
  rw [List.map_append, List.sum_append, hc, Option.getD_some, List.map_map]
  congr 1
  · exact sum_bidCosts hp hw.units hb
  · rw [sum_map_flatMap, sum_map_flatMap]
    apply sum_map_congr
    intro d _
    rw [List.map_map]; rfl

/-- **C39**, the part that is true: a bid whose unit and dispatch type are listed and whose band has a price
enters the objective with the cost of that price.  (That it takes part in the balance of its region is part of
C13 and C14.)  What is missing: bids without these two properties are accepted, see below. -/
theorem C39_priced_bid_has_its_cost_partial {ps : List BidRow} {m : Market} (h : InForceKeeping [.bids] (.priceBids ps) m)
    {lp : Lp} (hl : m.assemble = .ok lp) {b : BidVar} (hb : b ∈ m.bids.getD [])
    {p f : ℚ} (hp : priceOf ps b.unit b.service b.dtype b.band = some p)
    (hf : lossFactor m.units b.unit b.dtype = some f) :
    (b.vid, if b.service = .energy then (if b.dtype = .load then -(p / f) else p / f) else p) ∈ lp.obj := by
  obtain ⟨hc, _, _⟩ := priceBids_cost h
  rw [(assemble_parts hl).2.1]
  unfold Market.objective
  rw [hc, Option.getD_some, List.mem_append]
  left
  unfold priceOf at hp
  obtain ⟨r, hr, hp⟩ := Option.bind_eq_some_iff.1 hp
  obtain ⟨c, hc', rfl⟩ := Option.map_eq_some_iff.1 hp
  unfold lossFactor at hf
  obtain ⟨i, hi, rfl⟩ := Option.map_eq_some_iff.1 hf
  have r1 := List.mem_of_find?_eq_some hr
  have r2 := List.find?_some hr
  have c1 := List.mem_of_find?_eq_some hc'
  have c2 := List.find?_some hc'
  have i1 := List.mem_of_find?_eq_some hi
  have i2 := List.find?_some hi
  refine List.mem_map.2 ⟨⟨b.vid, b.unit, b.service, b.dtype, b.band,
    if b.service = .energy then (if b.dtype = .load then -(c.2 / i.lf) else c.2 / i.lf) else c.2⟩, ?_, rfl⟩
  simp only [scaleByLossFactors, bidCosts, List.mem_flatMap, List.mem_map, List.mem_filter]
  refine ⟨⟨b.vid, b.unit, b.service, b.dtype, b.band, if b.dtype = .load ∧ b.service = .energy then -1 * c.2 else c.2⟩,
    ⟨b, hb, r, ⟨r1, r2⟩, c, ⟨c1, c2⟩, rfl⟩, i, ⟨i1, i2⟩, ?_⟩
  congr 1
  by_cases h1 : b.service = .energy <;> by_cases h2 : b.dtype = .load <;> simp [h1, h2, neg_div]

/-- **C39** fails in general: a volume bid for which no price bid is given is accepted, and serves demand at
no cost although price bids have been set. -/
theorem C39_unpriced_bid_is_free : ∃ (m : Market) (lp : Lp) (x : Nat → ℚ), Reached m ∧ m.bidCost ≠ none ∧
    m.assemble = .ok lp ∧ Feasible lp x ∧ m.dispatched x "B" .energy .generator = 50 ∧
    m.dispatched x "A" .energy .generator = 0 ∧ lp.cost x = 0 := by
  let s : Scenario := {
    regions := ["NSW"], units := [{ unit := "A", region := "NSW" }, { unit := "B", region := "NSW" }],
    before := [.volumeBids [{ unit := "A", bands := [("1", 100)] }, { unit := "B", bands := [("1", 60)] }],
      .priceBids [{ unit := "A", bands := [("1", 20)] }]],
    op := .demand [{ region := "NSW", demand := 50 }] none, sol := [0, 50] }
  have hw : s.ok (fun m => decide (m.bidCost ≠ none) && decide (m.dispatched s.x "B" .energy .generator = 50) &&
      decide (m.dispatched s.x "A" .energy .generator = 0) && (match m.assemble with
        | .ok lp => decide (lp.cost s.x = 0) | _ => false)) = true := by decide +kernel
  obtain ⟨m, lp, h1, h2, h3, h4⟩ := Scenario.witness hw
  simp only [Bool.and_eq_true, decide_eq_true_eq, h2] at h4
  exact ⟨m, lp, s.x, h1.reached, h4.1.1.1, h2, h3, h4.1.1.2, h4.1.2, h4.2⟩

/-- **C39** fails in general: a bid for a dispatch type the unit does not have is accepted; its variable is
in no constraint and has no cost, so any dispatch between zero and its volume can be reported. -/
theorem C39_bid_for_unlisted_side_is_unconstrained : ∃ (m : Market) (lp : Lp), Reached m ∧ m.assemble = .ok lp ∧
    Feasible lp (fun i => [50, 0].getD i 0) ∧ Feasible lp (fun i => [50, 60].getD i 0) ∧
    m.dispatched (fun i => [50, 60].getD i 0) "B" .energy .load = 60 := by
  let s : Scenario := {
    regions := ["NSW"], units := [{ unit := "A", region := "NSW" }, { unit := "B", region := "NSW" }],
    before := [.volumeBids [{ unit := "A", bands := [("1", 100)] }, { unit := "B", dtype := .load, bands := [("1", 60)] }],
      .priceBids [{ unit := "A", bands := [("1", 20)] }, { unit := "B", dtype := .load, bands := [("1", 60)] }]],
    op := .demand [{ region := "NSW", demand := 50 }] none, sol := [50, 0] }
  have hw : s.ok (fun m => decide (m.dispatched (fun i => [50, 60].getD i 0) "B" .energy .load = 60) && (match m.assemble with
        | .ok lp => decide (Feasible lp (fun i => [50, 60].getD i 0)) | _ => false)) = true := by decide +kernel
  obtain ⟨m, lp, h1, h2, h3, h4⟩ := Scenario.witness hw
  simp only [Bool.and_eq_true, decide_eq_true_eq, h2] at h4
  exact ⟨m, lp, h1.reached, h2, h3, h4.2, h4.1⟩

/-! ### Instances -/

/-- a generator with loss factor, a load and two bands -/
def costUnits : List UnitInfo :=
  [{ unit := "A", region := "NSW", lf := 9 / 10 }, { unit := "L", region := "NSW", lf := 2, dtype := .load }]

def costVolumes : List BidRow :=
  [{ unit := "A", bands := [("1", 20), ("2", 50), ("3", 1 / 20000)] },
   { unit := "A", service := .raise6s, bands := [("1", 5), ("2", 0), ("3", 0)] },
   { unit := "L", dtype := .load, bands := [("1", 30), ("2", 0), ("3", 0)] }]

def costPrices : List BidRow :=
  [{ unit := "A", bands := [("1", 9), ("2", 18), ("3", 90)] },
   { unit := "A", service := .raise6s, bands := [("1", 3), ("2", 4), ("3", 5)] },
   { unit := "L", dtype := .load, bands := [("1", 100), ("2", 0), ("3", 0)] }]

/-- variables: A-1, A-1 (raise), A-2, L-1, deficit of the demand constraint (up), (down) -/
def costScenario (op : Op) : Scenario where
  regions := ["NSW"]
  units := costUnits
  before := [.volumeBids costVolumes]
  op := op
  after := [.demand [{ region := "NSW", demand := 40 }] (some (.num 1000))]
  sol := [20, 2, 30, 12, 0, 2]

example : (∃ m lp, InForceKeeping [.bids] (.priceBids costPrices) m ∧ m.assemble = .ok lp ∧
    Feasible lp (costScenario (.priceBids costPrices)).x ∧
    (match m.assemble with
      | .ok lp => decide (lp.cost (costScenario (.priceBids costPrices)).x = 20 * 10 + 2 * 3 + 30 * 20 - 12 * 50 + 2 * 1000)
      | _ => false) = true) ∧ BandsUnique costPrices :=
  ⟨Scenario.witnessKeeping [.bids] (s := costScenario (.priceBids costPrices)) (by decide +kernel),
   by unfold BandsUnique; decide +kernel⟩

example : (∃ m lp, InForce (.volumeBids costVolumes) m ∧ m.assemble = .ok lp ∧
    Feasible lp { costScenario (.volumeBids costVolumes) with before := [] }.x ∧
    decide ((m.bids.getD []).length = 4) = true) ∧ offered costVolumes "A" .energy .generator = 70 + 1 / 20000 :=
  ⟨Scenario.witness (s := { costScenario (.volumeBids costVolumes) with before := [] }) (by decide +kernel), by decide +kernel⟩

end Verif
