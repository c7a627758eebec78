import Verif.Proofs.Offers
import Verif.Props.Soft

/-!
# C126: only the volume offered at each price matters

How a unit divides its offer into bands, how the bands are called and whether there are empty bands has no influence on what the market
can do, what it costs and what dispatch can result.
-/

namespace Verif

variable {ops ops' : List Op} {m m' : Market} {vs ps vs' ps' : List BidRow}

theorem SameOffers.symm (h : SameOffers ops ops' m m' vs ps vs' ps') : SameOffers ops' ops m' m vs' ps' vs ps :=
  ⟨h.made', h.made, h.units.symm, h.di.symm, h.others.symm, h.volumes', h.volumes, h.prices', h.prices, fun c hc => h.noTies c ((h.mem rfl).1 hc),
    fun u s d p => (h.same u s d p).symm⟩

theorem Twin.penalty (h : OtherOffers ops ops' m m' vs ps vs' ps') {x x' : Nat → ℚ} (ha : Twin m m' x x') : m'.penalty ops' x' = m.penalty ops x := by
  unfold Market.penalty
  have e : ∀ (a : Market) (os : List Op) (y : Nat → ℚ) (op : Op), op.isBid = true → op.misses a os y = [] := by
    intro a fs y op hb; cases op <;> first | rfl | cases hb
  rw [← filter_flatMap_bid _ (e m' _ _) ops', ← filter_flatMap_bid _ (e m _ _) ops, h.others]
  congr 2
  refine List.flatMap_congr (fun op ho => ha.misses h.losses (fun c hc => ?_))
  subst hc
  exact h.noTies c (List.mem_of_mem_filter ho)

theorem OtherOffers.schedules (h : OtherOffers ops ops' m m' vs ps vs' ps') {x : Nat → ℚ} (hx : Permitted m ops x)
    (ht : ∀ u s d p, m.takenAt ps x u s d p ≤ volumeAt vs' ps' u s d p) :
    ∃ x', Permitted m' ops' x' ∧ SameResults m m' x x' ∧ m'.costAt ps' x' = m.costAt ps x ∧ m'.penalty ops' x' = m.penalty ops x := by
  obtain ⟨x', ha, hb, hc⟩ := h.carry (fun b hb => (hx _ h.volumes trivial b hb).1) ht
  refine ⟨x', ?_, ha.toSameResults, hc, ha.penalty h⟩
  intro op ho hf
  cases hbid : op.isBid with
  | true =>
    cases op with
    | volumeBids _ => exact hb
    | priceBids _ => trivial
    | _ => cases hbid
  | false =>
    rw [h.losses, ha.meets hbid]
    exact hx op ((h.mem hbid).1 ho) hf

theorem MoreOffers.schedules (h : MoreOffers ops ops' m m' vs ps vs' ps') {x : Nat → ℚ} (hx : Permitted m ops x) :
    ∃ x', Permitted m' ops' x' ∧ SameResults m m' x x' ∧ m'.costAt ps' x' = m.costAt ps x ∧ m'.penalty ops' x' = m.penalty ops x :=
  h.toOther.schedules hx (fun u s d p => le_trans (h.toOther.taken_le (hx _ h.volumes trivial) u s d p) (h.more u s d p))

/-- **C126**.  If two markets differ in their bids only, and the bids offer the same volume at every price, then for every schedule the
first market permits the second permits one with the same dispatch of every unit, the same flows and losses, the same cost of bids and the
same payment for what is missed. -/
theorem C126_schedules (h : SameOffers ops ops' m m' vs ps vs' ps') {x : Nat → ℚ} (hx : Permitted m ops x) :
    ∃ x', Permitted m' ops' x' ∧ SameResults m m' x x' ∧ m'.costAt ps' x' = m.costAt ps x ∧ m'.penalty ops' x' = m.penalty ops x :=
  h.toMore.schedules hx

/-- **C126**.  For every optimal schedule of the first market there is an optimal one of the second with the same dispatch of every unit, the
same flows and losses and the same total. -/
theorem C126_optimal (h : SameOffers ops ops' m m' vs ps vs' ps') {x : Nat → ℚ} (hx : LeastTotal m ops ps x) :
    ∃ x', LeastTotal m' ops' ps' x' ∧ SameResults m m' x x' ∧ m'.costAt ps' x' = m.costAt ps x ∧ m'.penalty ops' x' = m.penalty ops x := by
  obtain ⟨x', h1, h2, h3, h4⟩ := C126_schedules h hx.1
  refine ⟨x', ⟨h1, fun y hy => ?_⟩, h2, h3, h4⟩
  obtain ⟨z, z1, _, z3, z4⟩ := C126_schedules h.symm hy
  rw [h3, h4, ← z3, ← z4]
  exact hx.2 z z1

/-- **C126**.  With correct solvers `dispatch` finds no solution of the one market exactly if it finds none of the other; otherwise the
objective values are the same and the dispatch found for the one is an optimal dispatch of the other. -/
theorem C126_dispatch (h : SameOffers ops ops' m m' vs ps vs' ps') (hb : BandsUnique ps) (hb' : BandsUnique ps') {lp lp' : Lp}
    (hl : m.assemble = .ok lp) (hl' : m'.assemble = .ok lp') (hpr : ∀ r ∈ m.mktRhs.concat, r.cid ∈ lp.rows.map LRow.cid)
    (hpr' : ∀ r ∈ m'.mktRhs.concat, r.cid ∈ lp'.rows.map LRow.cid) {S S' : Solver} (hS : S.Correct) (hS' : S'.Correct) (ocd ocd' : Option ReRun) :
    (m'.dispatch S' ocd' = .error .valueError ↔ m.dispatch S ocd = .error .valueError) ∧
    ((∃ x, Permitted m ops x) → ∃ o o', m.dispatch S ocd = .ok o ∧ m'.dispatch S' ocd' = .ok o' ∧ o'.cost = o.cost ∧
      ∃ x', Optimal lp' x' ∧ SameResults m m' o.x x') := by
  obtain ⟨a1, a2⟩ := C124_dispatch h.made h.prices hb hl hpr hS ocd
  obtain ⟨b1, b2⟩ := C124_dispatch h.made' h.prices' hb' hl' hpr' hS' ocd'
  constructor
  · rw [a1, b1, not_iff_not]
    constructor
    · rintro ⟨x, hx⟩
      obtain ⟨z, hz, _⟩ := C126_schedules h.symm hx
      exact ⟨z, hz⟩
    · rintro ⟨x, hx⟩
      obtain ⟨z, hz, _⟩ := C126_schedules h hx
      exact ⟨z, hz⟩
  · intro hx
    obtain ⟨o, o1, o2, o3⟩ := a2 hx
    obtain ⟨x, hx⟩ := hx
    obtain ⟨z, hz, _⟩ := C126_schedules h hx
    obtain ⟨o', p1, p2, p3⟩ := b2 ⟨z, hz⟩
    obtain ⟨x', y1, y2, y3, y4⟩ := C126_optimal h o2
    obtain ⟨w, w1, w2⟩ := (C124_optimal h.made' h.prices' hb' hl' x').2 y1
    refine ⟨o, o', o1, p1, ?_, w, w2, ⟨w1.dispatched.trans y2.dispatched, w1.flow.trans y2.flow, w1.linkLoss.trans y2.linkLoss⟩⟩
    rw [o3, p3]
    refine le_antisymm ?_ ?_
    · rw [← y3, ← y4]; exact p2.2 x' y1.1
    · obtain ⟨q, q1, _, q3, q4⟩ := C126_schedules h.symm p2.1
      rw [← q3, ← q4]; exact o2.2 q q1

/-! ## Example -/

/-- volumes of `penaltyCase` -/
def bandVolumes : List BidRow := [{ unit := "A", bands := [("1", 200)] }, { unit := "A", service := .raiseReg, bands := [("1", 20)] },
  { unit := "A", service := .lowerReg, bands := [("1", 10)] }, { unit := "V", bands := [("1", 100)] }, { unit := "B", bands := [("1", 20)] },
  { unit := "B", dtype := .load, bands := [("1", 20)] }]

/-- the same, with the energy of A in two bands and an empty one, and V in a band called 7 -/
def bandVolumes' : List BidRow := [{ unit := "V", bands := [("1", 0), ("7", 100)] }, { unit := "A", bands := [("2", 120), ("3", 80), ("4", 0)] },
  { unit := "A", service := .raiseReg, bands := [("1", 20)] }, { unit := "A", service := .lowerReg, bands := [("1", 10)] },
  { unit := "B", dtype := .load, bands := [("5", 20)] }, { unit := "B", bands := [("1", 20)] }]

/-- prices of the bands of `bandVolumes'` -/
def bandPrices' : List BidRow := [{ unit := "A", service := .lowerReg, bands := [("1", 1)] }, { unit := "A", bands := [("2", 30), ("3", 30), ("4", 99)] },
  { unit := "A", service := .raiseReg, bands := [("1", 2)] }, { unit := "V", bands := [("1", 0), ("7", 50)] },
  { unit := "B", bands := [("1", 60)] }, { unit := "B", dtype := .load, bands := [("5", 20)] }]

def otherBandsCase : Case := { penaltyCase with
  hist := .volumeBids bandVolumes' :: .priceBids bandPrices' :: penaltyCase.hist.drop 2 }

theorem volumeAt_zero {vs ps : List BidRow} {u : String} {s : Service} {d : DType} {p : Option ℚ}
    (h : ∀ e ∈ bandsOf vs, (e.1, e.2.1, e.2.2.1, priceOf ps e.1 e.2.1 e.2.2.1 e.2.2.2.1) ≠ (u, s, d, p)) : volumeAt vs ps u s d p = 0 := by
  unfold volumeAt
  have : (bandsOf vs).filter (fun e => decide (e.1 = u ∧ e.2.1 = s ∧ e.2.2.1 = d ∧ 1 / 10000 ≤ e.2.2.2.2 ∧ priceOf ps u s d e.2.2.2.1 = p)) = [] := by
    rw [List.filter_eq_nil_iff]
    rintro ⟨a, b, c, e, v⟩ he hc
    simp only [decide_eq_true_eq] at hc
    obtain ⟨rfl, rfl, rfl, _, rfl⟩ := hc
    exact h _ he rfl
  rw [this]; rfl

theorem volumes_same {vs ps vs' ps' : List BidRow}
    (h : ∀ k ∈ (bandsOf vs).map (fun e => (e.1, e.2.1, e.2.2.1, priceOf ps e.1 e.2.1 e.2.2.1 e.2.2.2.1)) ++
      (bandsOf vs').map (fun e => (e.1, e.2.1, e.2.2.1, priceOf ps' e.1 e.2.1 e.2.2.1 e.2.2.2.1)),
      volumeAt vs' ps' k.1 k.2.1 k.2.2.1 k.2.2.2 = volumeAt vs ps k.1 k.2.1 k.2.2.1 k.2.2.2) :
    ∀ u s d p, volumeAt vs' ps' u s d p = volumeAt vs ps u s d p := by
  intro u s d p
  by_cases h1 : ∃ e ∈ bandsOf vs, (e.1, e.2.1, e.2.2.1, priceOf ps e.1 e.2.1 e.2.2.1 e.2.2.2.1) = (u, s, d, p)
  · exact h (u, s, d, p) (List.mem_append_left _ (by obtain ⟨e, he, e'⟩ := h1; exact List.mem_map.2 ⟨e, he, e'⟩))
  · by_cases h2 : ∃ e ∈ bandsOf vs', (e.1, e.2.1, e.2.2.1, priceOf ps' e.1 e.2.1 e.2.2.1 e.2.2.2.1) = (u, s, d, p)
    · exact h (u, s, d, p) (List.mem_append_right _ (by obtain ⟨e, he, e'⟩ := h2; exact List.mem_map.2 ⟨e, he, e'⟩))
    · rw [volumeAt_zero (fun e he hc => h1 ⟨e, he, hc⟩), volumeAt_zero (fun e he hc => h2 ⟨e, he, hc⟩)]

theorem Case.holdsAt {s : Case} {P : Market → Bool} (h : (match s.final with | some m => P m | none => false) = true) :
    ∃ m, s.final = some m ∧ P m = true := by
  split at h
  · rename_i m e; exact ⟨m, e, h⟩
  · cases h

/-- instance of C126: the market of C124, and the same with the offers in other bands -/
example : ∃ m m' lp lp', SameOffers penaltyCase.hist otherBandsCase.hist m m' bandVolumes penaltyPrices bandVolumes' bandPrices' ∧
    BandsUnique penaltyPrices ∧ BandsUnique bandPrices' ∧ m.assemble = .ok lp ∧ m'.assemble = .ok lp' ∧
    (∀ r ∈ m.mktRhs.concat, r.cid ∈ lp.rows.map LRow.cid) ∧ (∀ r ∈ m'.mktRhs.concat, r.cid ∈ lp'.rows.map LRow.cid) ∧
    Permitted m penaltyCase.hist penaltyCase.x ∧ (m.bids.getD []).length = 6 ∧ (m'.bids.getD []).length = 7 := by
  obtain ⟨m, lp, h1, h2, h3, h4⟩ := Case.witness (s := penaltyCase) (P := fun m => decide (∀ op ∈ penaltyCase.hist, op.suits m) && decide (m.properLinks (lossesOf penaltyCase.hist)) &&
    decide ((m.bids.getD []).length = 6 ∧ m.units = batteryUnits ∧ m.di = 5) &&
    (match m.assemble with | .ok lp => decide (∀ r ∈ m.mktRhs.concat, r.cid ∈ lp.rows.map LRow.cid) | .error _ => false)) (by decide +kernel)
  obtain ⟨m', g1, g4⟩ := Case.holdsAt (s := otherBandsCase) (P := fun m => decide (∀ op ∈ otherBandsCase.hist, op.suits m) && decide (m.properLinks (lossesOf otherBandsCase.hist)) &&
    decide ((m.bids.getD []).length = 7 ∧ m.units = batteryUnits ∧ m.di = 5) &&
    (match m.assemble with | .ok lp => decide (∀ r ∈ m.mktRhs.concat, r.cid ∈ lp.rows.map LRow.cid) | .error _ => false)) (by decide +kernel)
  simp only [Bool.and_eq_true, decide_eq_true_eq, h2] at h4
  simp only [Bool.and_eq_true, decide_eq_true_eq] at g4
  cases g2 : m'.assemble with
  | error e => rw [g2] at g4; exact absurd g4.2 (by simp)
  | ok lp' =>
  rw [g2] at g4
  simp only [decide_eq_true_eq] at g4
  have hm : MadeBy penaltyCase.hist m := Case.madeBy h1 (by decide +kernel) (by decide +kernel) penaltyCase_kinds h4.1.1.1 h4.1.1.2
    (fun c hc => by simp [penaltyCase] at hc)
  have hm' : MadeBy otherBandsCase.hist m' := by
    refine Case.madeBy g1 (by decide +kernel) (by decide +kernel) ?_ g4.1.1.1 g4.1.1.2 (fun c hc => by simp [otherBandsCase, penaltyCase] at hc)
    intro op ho
    simp only [otherBandsCase, List.mem_cons] at ho
    rcases ho with rfl | rfl | ho
    · exact Or.inl trivial
    · exact Or.inl trivial
    · exact penaltyCase_kinds op (List.mem_of_mem_drop ho)
  refine ⟨m, m', lp, lp', ⟨hm, hm', ?_, ?_, rfl, ?_, ?_, ?_, ?_, fun c hc => by simp [penaltyCase] at hc,
    volumes_same (by decide +kernel)⟩, ?_, ?_, h2, g2, h4.2, g4.2,
    (C124_schedules hm h2 _).1 ⟨_, .refl m _, h3⟩, h4.1.2.1, g4.1.2.1⟩
  · rw [h4.1.2.2.1, g4.1.2.2.1]
  · rw [h4.1.2.2.2, g4.1.2.2.2]
  · simp [penaltyCase, bandVolumes]
  · simp [otherBandsCase]
  · simp [penaltyCase]
  · simp [otherBandsCase]
  · unfold BandsUnique; decide +kernel
  · unfold BandsUnique; decide +kernel

/-! ## Tie break constraints -/

/-- A offers 20 MW at 30 in the bands `va`, B offers 60 MW at 30 and can produce 20 MW, demand is 40 MW -/
def tieSplitCase (va pa : List (String × ℚ)) (sol : List ℚ) : Case where
  regions := ["NSW"]
  units := [{ unit := "A", region := "NSW" }, { unit := "B", region := "NSW" }]
  hist := [.volumeBids [{ unit := "A", bands := va }, { unit := "B", bands := [("1", 60)] }],
    .priceBids [{ unit := "A", bands := pa }, { unit := "B", bands := [("1", 30)] }],
    .capacity [{ unit := "B", val := 20 }] none, .tieBreak 6, .demand [{ region := "NSW", demand := 40 }] none]
  sol := sol

/-- 20 MW in one band -/
def tieOneCase : Case := tieSplitCase [("1", 20)] [("1", 30)] [20, 20, 2/3, 0]
/-- 20 MW in two bands at the same price -/
def tieTwoCase : Case := tieSplitCase [("1", 10), ("2", 10)] [("1", 30), ("2", 30)] [10, 10, 20, 2/3, 2/3, 0, 0]

/-- **C126** is false with tie break constraints: A offers 20 MW at 30 in one band or in two, which is the same volume at every price, and the
one possible dispatch, 20 MW by A and by B, costs 1204 with one band and 1208 with two, as every band of A is tied to the band of B. -/
theorem C126_ties_fails : (∀ u s d p,
    volumeAt [{ unit := "A", bands := [("1", 10), ("2", 10)] }, { unit := "B", bands := [("1", 60)] }]
      [{ unit := "A", bands := [("1", 30), ("2", 30)] }, { unit := "B", bands := [("1", 30)] }] u s d p =
    volumeAt [{ unit := "A", bands := [("1", 20)] }, { unit := "B", bands := [("1", 60)] }]
      [{ unit := "A", bands := [("1", 30)] }, { unit := "B", bands := [("1", 30)] }] u s d p) ∧
    ∃ m lp m' lp', tieOneCase.final = some m ∧ m.assemble = .ok lp ∧ Optimal lp tieOneCase.x ∧ lp.cost tieOneCase.x = 1204 ∧
      tieTwoCase.final = some m' ∧ m'.assemble = .ok lp' ∧ Optimal lp' tieTwoCase.x ∧ lp'.cost tieTwoCase.x = 1208 := by
  have h : tieOneCase.best [-6, 303/10, -2/5] (fun m => match m.assemble with
    | .ok lp => decide (lp.cost tieOneCase.x = 1204) | .error _ => false) = true := by decide +kernel
  have h' : tieTwoCase.best [-6, -6, 306/10, -4/5] (fun m => match m.assemble with
    | .ok lp => decide (lp.cost tieTwoCase.x = 1208) | .error _ => false) = true := by decide +kernel
  obtain ⟨m, lp, h0, h1, h2, h3⟩ := Case.optimal h
  obtain ⟨m', lp', k0, k1, k2, k3⟩ := Case.optimal h'
  rw [h1] at h3
  rw [k1] at k3
  refine ⟨fun u s d p => ?_, m, lp, m', lp', h0, h1, h2, of_decide_eq_true h3, k0, k1, k2, of_decide_eq_true k3⟩
  exact volumes_same (by decide +kernel) u s d p

end Verif
