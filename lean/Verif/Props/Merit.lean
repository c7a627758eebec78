import Verif.Spec.Merit
import Verif.Proofs.Merit
import Verif.Props.Bids

/-!
# C28: merit order
-/

namespace Verif

theorem Dict.get?_ne_none {κ α : Type} [DecidableEq κ] {d : Dict κ α} {e : κ × α} (h : e ∈ d) : d.get? e.1 ≠ none := by
  induction d with
  | nil => cases h
  | cons a d ih =>
    obtain ⟨k, v⟩ := a
    unfold Dict.get?
    by_cases hk : k = e.1
    · simp [hk]
    · rw [if_neg hk]
      rcases List.mem_cons.1 h with h | h
      · exact absurd (by rw [h]) hk
      · exact ih h

theorem cost_unitVec {ps : List BidRow} {m : Market} (h : InForceKeeping [.bids] (.priceBids ps) m) (hr : Reached m)
    (hb : BandsUnique ps) {lp : Lp} (hl : m.assemble = .ok lp) {a : BidVar} (ha : a ∈ m.bids.getD []) :
    lp.cost (unitVec a.vid) = a.price ps m := by
  rw [C05_objective_is_cost_of_bids h hb hl, sum_unitVec (bids_nodup hr.wf.var) ha]
  have : ((m.deficits.flatMap (fun d => d.2.1)).map (fun v => v.cost * unitVec a.vid v.vid)).sum = 0 := by
    apply sum_map_zero
    intro v hv
    have hne : v.vid ≠ a.vid := by
      intro e
      obtain ⟨d, hd, hv⟩ := List.mem_flatMap.1 hv
      have := (hr.refs.bids (List.mem_map_of_mem (f := BidVar.vid) ha)).2
      apply this
      rw [← e]
      exact List.mem_flatMap.2 ⟨d, hd, List.mem_map_of_mem hv⟩
    simp [unitVec, hne]
  rw [this, add_zero]
  rfl

theorem CallsOnly.reached {p : Op → Prop} {m : Market} (h : CallsOnly p m) : Reached m := by
  obtain ⟨r, u, di, m0, ops, h1, h2, -, rfl⟩ := h
  exact ⟨r, u, di, m0, ops, h1, h2, rfl⟩

theorem CallsOnly.part {p : Op → Prop} {m : Market} (h : CallsOnly p m) : ∃ m0 : Market,
    m0.unitCon = [] ∧ m0.tieLhs = none ∧ m0.gUnit = none ∧ ∀ q : Part, (∀ o, p o → q ∉ o.parts) → SamePart m0 m q := by
  obtain ⟨r, u, di, m0, ops, h1, h2, h3, rfl⟩ := h
  refine ⟨m0, ?_, ?_, ?_, fun q hq => part_run (fun o ho => hq o (h3 o ho))⟩
  all_goals rw [(init_fresh h1).1]

/-- the assignments differ only in the two bids -/
theorem move_agree {m : Market} (hm : Reached m) {a b : BidVar} (ha : a ∈ m.bids.getD []) (hb : b ∈ m.bids.getD [])
    (x : Nat → ℚ) (δ : ℚ) {v : Nat} (hv : v ∈ m.netRefs ∨ v ∈ m.defVids) : move x a.vid b.vid δ v = x v := by
  have hav := List.mem_map_of_mem (f := BidVar.vid) ha
  have hbv := List.mem_map_of_mem (f := BidVar.vid) hb
  apply move_other
  · rintro rfl
    exact hv.elim (hm.net _ hav) (hm.refs.bids hav).2
  · rintro rfl
    exact hv.elim (hm.net _ hbv) (hm.refs.bids hbv).2

/-- **C28** Within a unit: in every optimal solution of any market without tie break constraints a bid of a unit is only
used if all cheaper bids of that unit for the same service and dispatch type are fully used, whatever
other constraints are set. -/
theorem C28_bands_in_order {m : Market} (hm : CallsOnly (fun o => Part.set .tieBreak ∉ o.parts) m)
    {ps : List BidRow} (h : InForceKeeping [.bids] (.priceBids ps) m) (hb : BandsUnique ps)
    {lp : Lp} (hl : m.assemble = .ok lp) {x : Nat → ℚ} (hx : Optimal lp x)
    {a b : BidVar} (ha : a ∈ m.bids.getD []) (hb' : b ∈ m.bids.getD [])
    (hs : a.unit = b.unit ∧ a.service = b.service ∧ a.dtype = b.dtype)
    (hc : a.price ps m < b.price ps m) : x a.vid = a.ub ∨ x b.vid = 0 := by
  have hr := hm.reached
  obtain ⟨m0, -, ht, -, hp⟩ := hm.part
  have ht' : m.tieLhs = none := by
    have : SameSet .tieBreak m0 m := hp (.set .tieBreak) (fun o ho => ho)
    rw [this.tie rfl, ht]
  refine exchange hr ha hb' hl hx ?_ (by rwa [cost_unitVec h hr hb hl ha, cost_unitVec h hr hb hl hb'])
  intro δ c
  have hd : ∀ u s d, m.dispatched (move x a.vid b.vid δ) u s d = m.dispatched x u s d := by
    intro u s d
    rw [dispatched_move, dispatched_unitVec hr.wf.var ha, dispatched_unitVec hr.wf.var hb', hs.1, hs.2.1, hs.2.2]
    ring
  refine rowVal_totals hr ht' (fun v hv => move_agree hr ha hb' x δ (Or.inl hv))
    (fun v hv => move_agree hr ha hb' x δ (Or.inr hv)) ?_ ?_ (Or.inr hd) c
  · intro r s
    unfold Market.supply
    apply sum_map_congr
    intro u _
    rw [hd]
  · intro r s
    unfold Market.regionTotal
    apply sum_map_congr
    intro u _
    rw [hd]

/-- dispatch of one bid summed over the units of a region -/
theorem region_unitVec {m : Market} (hw : WF m) {a : BidVar} (ha : a ∈ m.bids.getD []) {i : UnitInfo} (hi : i ∈ m.units)
    (hu : i.unit = a.unit) (hd : i.dtype = a.dtype) (f : UnitInfo → ℚ) (r : String) (s : Service) :
    ((m.units.filter (fun u => decide (u.region = r))).map (fun u => f u * m.dispatched (unitVec a.vid) u.unit s u.dtype)).sum =
      if i.region = r ∧ a.service = s then f i else 0 := by
  have h1 : ∀ u ∈ m.units, (if decide (u.region = r) = true then f u * m.dispatched (unitVec a.vid) u.unit s u.dtype else 0) =
      (if decide ((u.unit, u.dtype) = (i.unit, i.dtype)) = true then (if i.region = r ∧ a.service = s then f i else 0) else 0) := by
    intro u hum
    rw [dispatched_unitVec hw.var ha]
    by_cases e : (u.unit, u.dtype) = (i.unit, i.dtype)
    · have e' := e
      simp only [Prod.mk.injEq] at e'
      have : u = i := List.inj_on_of_nodup_map hw.units hum hi e
      subst this
      by_cases h2 : u.region = r <;> by_cases h3 : a.service = s <;> simp [h2, h3, hu, hd]
    · have : ¬ (a.unit = u.unit ∧ a.service = s ∧ a.dtype = u.dtype) := by
        rintro ⟨q1, _, q2⟩
        apply e
        rw [hu, hd, q1, q2]
      simp [this, e]
  rw [sum_filter_eq_ite, sum_map_congr _ _ _ h1, ← sum_filter_eq_ite,
    filter_key_unique (key := fun u : UnitInfo => (u.unit, u.dtype)) hw.units hi]
  simp

theorem regional_parts {o : Op} (h : o.regional = true) {p : Part} (hp : p ∈ o.parts) :
    p ≠ .gUnit ∧ ∀ k, p = .set k → k = .demand ∨ k = .fcas ∨ k = .generic ∨ k = .interpWeights := by
  cases o
  case elastic k vc =>
    simp only [Op.regional, decide_eq_true_eq] at h
    simp only [Op.parts, List.mem_singleton] at hp
    subst hp
    refine ⟨by simp, fun k' e => ?_⟩
    injection e with e
    rwa [← e]
  all_goals first
    | (exfalso; simp [Op.regional] at h; done)
    | (simp only [Op.parts, List.mem_singleton] at hp; subst hp; simp)

/-- **C28** Across units: in every optimal solution of a market without constraints on single units, a bid is only used
if all cheaper bids (after loss factor scaling) of the units of the region for the same service (for energy: and the
same dispatch type) are fully used. -/
theorem C28_merit_order {m : Market} (hm : CallsOnly (fun o => o.regional = true) m)
    {ps : List BidRow} (h : InForceKeeping [.bids] (.priceBids ps) m) (hb : BandsUnique ps)
    {lp : Lp} (hl : m.assemble = .ok lp) {x : Nat → ℚ} (hx : Optimal lp x)
    {a b : BidVar} (ha : a ∈ m.bids.getD []) (hb' : b ∈ m.bids.getD []) (hs : SameMarket m a b)
    (hc : a.price ps m < b.price ps m) : x a.vid = a.ub ∨ x b.vid = 0 := by
  have hr := hm.reached
  have hw := hr.wf
  obtain ⟨m0, hu, ht, hg, hp⟩ := hm.part
  have ht' : m.tieLhs = none := by
    have : SameSet .tieBreak m0 m := hp (.set .tieBreak) (fun o ho hq => by
      have := (regional_parts ho hq).2 _ rfl; simp at this)
    rw [this.tie rfl, ht]
  have hg' : m.gUnit = none := by
    have : m.gUnit = m0.gUnit := hp .gUnit (fun o ho hq => (regional_parts ho hq).1 rfl)
    rw [this, hg]
  have hu' : m.unitCon = [] := by
    by_contra hne
    obtain ⟨e, he⟩ := List.exists_mem_of_ne_nil _ hne
    have hk := hw.key.1 e he
    have : SameSet e.1 m0 m := hp (.set e.1) (fun o ho hq => by
      rcases (regional_parts ho hq).2 _ rfl with h | h | h | h <;> rw [h] at hk <;> cases hk)
    have h2 : m.unitCon.get? e.1 = none := by rw [this.unitCon, hu]; rfl
    exact Dict.get?_ne_none he h2
  refine exchange hr ha hb' hl hx ?_ (by rwa [cost_unitVec h hr hb hl ha, cost_unitVec h hr hb hl hb'])
  intro δ c
  obtain ⟨q1, q2, i, hi, j, hj, e1, e2, e3, e4, e5⟩ := hs
  refine rowVal_totals hr ht' (fun v hv => move_agree hr ha hb' x δ (Or.inl hv))
    (fun v hv => move_agree hr ha hb' x δ (Or.inr hv)) ?_ ?_ (Or.inl ⟨hu', hg'⟩) c
  · intro r s
    unfold Market.supply
    have k1 := region_unitVec hw ha hi e1 e2 (fun u => if u.dtype = .load ∧ s = .energy then -1 else 1) r s
    have k2 := region_unitVec hw hb' hj e3 e4 (fun u => if u.dtype = .load ∧ s = .energy then -1 else 1) r s
    have k3 : (if i.region = r ∧ a.service = s then (if i.dtype = .load ∧ s = .energy then (-1 : ℚ) else 1) else 0) =
        (if j.region = r ∧ b.service = s then (if j.dtype = .load ∧ s = .energy then (-1 : ℚ) else 1) else 0) := by
      rw [e5, q1]
      by_cases h1 : j.region = r ∧ b.service = s
      · simp only [h1, and_self, if_true]
        by_cases h2 : s = .energy
        · rw [e2, e4, q2 (by rw [q1, h1.2, h2])]
        · simp [h2]
      · simp [h1]
    simp only [dispatched_move, mul_add, sum_map_add]
    rw [← k1, ← k2] at k3
    have k4 : ((m.units.filter (fun u => decide (u.region = r))).map (fun u => (if u.dtype = .load ∧ s = .energy then (-1 : ℚ) else 1) *
        (δ * (m.dispatched (unitVec a.vid) u.unit s u.dtype - m.dispatched (unitVec b.vid) u.unit s u.dtype)))).sum = 0 := by
      have : ∀ u : UnitInfo, (if u.dtype = .load ∧ s = .energy then (-1 : ℚ) else 1) *
        (δ * (m.dispatched (unitVec a.vid) u.unit s u.dtype - m.dispatched (unitVec b.vid) u.unit s u.dtype)) =
        δ * ((if u.dtype = .load ∧ s = .energy then (-1 : ℚ) else 1) * m.dispatched (unitVec a.vid) u.unit s u.dtype -
          (if u.dtype = .load ∧ s = .energy then (-1 : ℚ) else 1) * m.dispatched (unitVec b.vid) u.unit s u.dtype) := by
        intro u; ring
      simp only [this]
      rw [sum_map_mul_left, sum_map_sub, k3]
      ring
    rw [k4, add_zero]
  · intro r s
    unfold Market.regionTotal
    have k1 := region_unitVec hw ha hi e1 e2 (fun _ => 1) r s
    have k2 := region_unitVec hw hb' hj e3 e4 (fun _ => 1) r s
    simp only [one_mul] at k1 k2
    simp only [dispatched_move, sum_map_add, sum_map_mul_left, sum_map_sub]
    rw [k1, k2, e5, q1]
    ring

theorem Case.callsOnly {s : Case} {m : Market} (h : s.final = some m) {p : Op → Prop} (hp : ∀ o ∈ s.hist, p o) :
    CallsOnly p m := by
  unfold Case.final at h
  cases hm : Market.init s.regions s.units s.di with
  | error e => rw [hm] at h; cases h
  | ok m0 =>
    rw [hm] at h
    simp only at h
    split at h
    · rename_i hb
      injection h with h
      exact ⟨s.regions, s.units, s.di, m0, s.hist, hm, benignB_iff.1 hb, hp, h.symm⟩
    · cases h

/-- two units of one region, A behind a loss factor -/
def meritCase : Case where
  regions := ["NSW"]
  units := [{ unit := "A", region := "NSW", lf := 1/2 }, { unit := "B", region := "NSW" }]
  hist := [.volumeBids [{ unit := "A", bands := [("1", 50), ("2", 40)] }, { unit := "B", bands := [("1", 60), ("2", 10)] }],
    .priceBids [{ unit := "A", bands := [("1", 20), ("2", 40)] }, { unit := "B", bands := [("1", 30), ("2", 50)] }],
    .demand [{ region := "NSW", demand := 85 }] none]
  sol := [25, 0, 60, 0]

def meritPrices : List BidRow :=
  [{ unit := "A", bands := [("1", 20), ("2", 40)] }, { unit := "B", bands := [("1", 30), ("2", 50)] }]

/-- instance of C28: B's first band costs 30 and is full, A's costs 40 (20 behind a loss factor of 1/2) and is marginal -/
example : ∃ m lp, InForceKeeping [.bids] (.priceBids meritPrices) m ∧ m.assemble = .ok lp ∧ Optimal lp meritCase.x ∧
    CallsOnly (fun o => o.regional = true) m ∧ BandsUnique meritPrices ∧
    ∃ a ∈ m.bids.getD [], ∃ b ∈ m.bids.getD [], SameMarket m a b ∧ a.unit = "B" ∧ b.unit = "A" ∧
      a.price meritPrices m < b.price meritPrices m ∧ 0 < meritCase.x b.vid ∧ meritCase.x b.vid < b.ub := by
  have hb : meritCase.best [40] (fun m => decide (⟨"B", "1", .energy, .generator, 2, 60⟩ ∈ m.bids.getD [] ∧
      ⟨"A", "1", .energy, .generator, 0, 50⟩ ∈ m.bids.getD [] ∧ m.units = meritCase.units ∧
      (⟨"B", "1", .energy, .generator, 2, 60⟩ : BidVar).price meritPrices m <
        (⟨"A", "1", .energy, .generator, 0, 50⟩ : BidVar).price meritPrices m)) = true := by
    decide +kernel
  obtain ⟨m, lp, h0, h1, h2, h3⟩ := Case.optimal hb
  obtain ⟨k1, k2, k3, k4⟩ := of_decide_eq_true h3
  refine ⟨m, lp, Case.inForce (i := 1) (keep := [.bids]) h0 rfl (by decide +kernel), h1, h2,
    Case.callsOnly h0 (by decide +kernel), by unfold BandsUnique; decide, _, k1, _, k2, ⟨rfl, fun _ => rfl, ?_⟩, rfl, rfl, k4, by decide +kernel, by decide +kernel⟩
  rw [k3]
  decide +kernel

/-- one unit with a binding ramp rate -/
def bandCase : Case where
  regions := ["NSW"]
  units := [{ unit := "A", region := "NSW" }, { unit := "B", region := "NSW" }]
  hist := [.volumeBids [{ unit := "A", bands := [("1", 50), ("2", 40)] }, { unit := "B", bands := [("1", 60), ("2", 10)] }],
    .priceBids [{ unit := "A", bands := [("1", 20), ("2", 25)] }, { unit := "B", bands := [("1", 30), ("2", 50)] }],
    .demand [{ region := "NSW", demand := 85 }] none,
    .capacity [{ unit := "A", val := 70 }] none]
  sol := [50, 20, 15, 0]

def bandPrices : List BidRow :=
  [{ unit := "A", bands := [("1", 20), ("2", 25)] }, { unit := "B", bands := [("1", 30), ("2", 50)] }]

/-- instance of C28 within a unit: A is limited to 70 MW -/
example : ∃ m lp, InForceKeeping [.bids] (.priceBids bandPrices) m ∧ m.assemble = .ok lp ∧ Optimal lp bandCase.x ∧
    CallsOnly (fun o => Part.set .tieBreak ∉ o.parts) m ∧ BandsUnique bandPrices ∧
    ∃ a ∈ m.bids.getD [], ∃ b ∈ m.bids.getD [], a.unit = b.unit ∧ a.service = b.service ∧ a.dtype = b.dtype ∧
      a.price bandPrices m < b.price bandPrices m ∧ 0 < bandCase.x b.vid := by
  have hb : bandCase.best [30, -5] (fun m => decide (⟨"A", "1", .energy, .generator, 0, 50⟩ ∈ m.bids.getD [] ∧
      ⟨"A", "2", .energy, .generator, 1, 40⟩ ∈ m.bids.getD [] ∧
      (⟨"A", "1", .energy, .generator, 0, 50⟩ : BidVar).price bandPrices m <
        (⟨"A", "2", .energy, .generator, 1, 40⟩ : BidVar).price bandPrices m)) = true := by
    decide +kernel
  obtain ⟨m, lp, h0, h1, h2, h3⟩ := Case.optimal hb
  obtain ⟨k1, k2, k4⟩ := of_decide_eq_true h3
  exact ⟨m, lp, Case.inForce (i := 1) (keep := [.bids]) h0 rfl (by decide +kernel), h1, h2,
    Case.callsOnly h0 (by decide +kernel), by unfold BandsUnique; decide, _, k1, _, k2, rfl, rfl, rfl, k4, by decide +kernel⟩

end Verif
