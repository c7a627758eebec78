import Verif.Props.MoreOffers

/-!
# C137: offers that are not taken do not matter

If a cheapest dispatch takes of a unit, at each price, no more than some smaller offer, then the smaller offer gives the same dispatch at
the same cost.
-/

namespace Verif

variable {ops ops' : List Op} {m m' : Market} {vs ps vs' ps' : List BidRow}

theorem OtherOffers.symm (h : OtherOffers ops ops' m m' vs ps vs' ps') : OtherOffers ops' ops m' m vs' ps' vs ps :=
  ⟨h.made', h.made, h.units.symm, h.di.symm, h.others.symm, h.volumes', h.volumes, h.prices', h.prices, fun c hc => h.noTies c ((h.mem rfl).1 hc),
    fun u s d => (h.sides u s d).symm⟩

/-- **C137**.  If two markets differ in their bids only, and the same units offer the same services in both, then for every schedule of the
first that takes at each price no more than the second is offered, the second permits one with the same dispatch of every unit, the same
flows and losses, the same cost of bids and the same payment for what is missed. -/
theorem C137_schedules (h : OtherOffers ops ops' m m' vs ps vs' ps') {x : Nat → ℚ} (hx : Permitted m ops x)
    (ht : ∀ u s d p, m.takenAt ps x u s d p ≤ volumeAt vs' ps' u s d p) :
    ∃ x', Permitted m' ops' x' ∧ SameResults m m' x x' ∧ m'.costAt ps' x' = m.costAt ps x ∧ m'.penalty ops' x' = m.penalty ops x :=
  h.schedules hx ht

/-- **C137**.  If the second market is offered more than the first, and an optimal schedule of the second takes at each price no more than the
first is offered, then the first has an optimal schedule with the same dispatch of every unit, the same flows and losses, the same cost of bids
and the same payment for what is missed. -/
theorem C137_withdrawn (h : MoreOffers ops ops' m m' vs ps vs' ps') {x' : Nat → ℚ} (hx : LeastTotal m' ops' ps' x')
    (ht : ∀ u s d p, m'.takenAt ps' x' u s d p ≤ volumeAt vs ps u s d p) :
    ∃ x, LeastTotal m ops ps x ∧ SameResults m m' x x' ∧ m.costAt ps x = m'.costAt ps' x' ∧ m.penalty ops x = m'.penalty ops' x' := by
  obtain ⟨x, h1, h2, h3, h4⟩ := C137_schedules h.toOther.symm hx.1 ht
  refine ⟨x, ⟨h1, fun y hy => ?_⟩, ⟨h2.dispatched.symm, h2.flow.symm, h2.linkLoss.symm⟩, h3, h4⟩
  obtain ⟨z, z1, _, z3, z4⟩ := C132_schedules h hy
  rw [h3, h4, ← z3, ← z4]
  exact hx.2 z z1

/-- **C137**.  With correct solvers: if `dispatch` of the market that is offered more takes at each price no more than the other is offered, then
`dispatch` of the other succeeds with the same objective value, and the dispatch found for the first is an optimal dispatch of the other. -/
theorem C137_dispatch (h : MoreOffers ops ops' m m' vs ps vs' ps') (hb : BandsUnique ps) (hb' : BandsUnique ps') {lp lp' : Lp}
    (hl : m.assemble = .ok lp) (hl' : m'.assemble = .ok lp') (hpr : ∀ r ∈ m.mktRhs.concat, r.cid ∈ lp.rows.map LRow.cid)
    (hpr' : ∀ r ∈ m'.mktRhs.concat, r.cid ∈ lp'.rows.map LRow.cid) {S S' : Solver} (hS : S.Correct) (hS' : S'.Correct) (ocd ocd' : Option ReRun)
    {o' : Outcome} (ho : m'.dispatch S' ocd' = .ok o') (ht : ∀ u s d p, m'.takenAt ps' o'.x u s d p ≤ volumeAt vs ps u s d p) :
    ∃ o, m.dispatch S ocd = .ok o ∧ o.cost = o'.cost ∧ ∃ x, Optimal lp x ∧ SameResults m m' x o'.x := by
  obtain ⟨_, a2⟩ := C124_dispatch h.made h.prices hb hl hpr hS ocd
  obtain ⟨b1, b2⟩ := C124_dispatch h.made' h.prices' hb' hl' hpr' hS' ocd'
  have hex : ∃ x, Permitted m' ops' x := by
    by_contra hc
    rw [b1.2 hc] at ho
    cases ho
  obtain ⟨o, p1, p2, p3⟩ := b2 hex
  rw [ho] at p1
  injection p1 with p1
  subst p1
  obtain ⟨x, x1, x2, x3, x4⟩ := C137_withdrawn h p2 ht
  obtain ⟨o, o1, o2, o3⟩ := a2 ⟨x, x1.1⟩
  obtain ⟨w, w1, w2⟩ := (C124_optimal h.made h.prices hb hl x).2 x1
  refine ⟨o, o1, ?_, w, w2, ⟨?_, ?_, ?_⟩⟩
  · rw [o3, p3, ← x3, ← x4]
    exact le_antisymm (o2.2 x x1.1) (x1.2 _ o2.1)
  · rw [x2.dispatched, ← w1.dispatched]
  · rw [x2.flow, ← w1.flow]
  · rw [x2.linkLoss, ← w1.linkLoss]

/-! ## Example -/

/-- some offers of A and B, and a demand of 110 -/
def takenCase (vs ps : List BidRow) (sol : List ℚ) : Case where
  regions := ["NSW"]
  units := [{ unit := "A", region := "NSW" }, { unit := "B", region := "NSW" }]
  hist := [.volumeBids vs, .priceBids ps, .demand [{ region := "NSW", demand := 110 }] none]
  sol := sol

def fewVolumes : List BidRow := [{ unit := "A", bands := [("1", 100)] }, { unit := "B", bands := [("1", 50)] }]
def fewPrices : List BidRow := [{ unit := "A", bands := [("1", 30)] }, { unit := "B", bands := [("1", 40)] }]
def manyVolumes : List BidRow := [{ unit := "A", bands := [("1", 100), ("2", 20)] }, { unit := "B", bands := [("1", 60), ("2", 20)] }]
def manyPrices : List BidRow := [{ unit := "A", bands := [("1", 30), ("2", 90)] }, { unit := "B", bands := [("1", 40), ("2", 40)] }]

theorem taken_off {ops ops' : List Op} {m m' : Market} {vs ps vs' ps' : List BidRow} (h : OtherOffers ops ops' m m' vs ps vs' ps') {x : Nat → ℚ}
    (hx : Permitted m ops x) (ht : ∀ k ∈ offerKeys vs ps, m.takenAt ps x k.1 k.2.1 k.2.2.1 k.2.2.2 ≤ volumeAt vs' ps' k.1 k.2.1 k.2.2.1 k.2.2.2) :
    ∀ u s d p, m.takenAt ps x u s d p ≤ volumeAt vs' ps' u s d p := by
  intro u s d p
  by_cases h1 : (u, s, d, p) ∈ offerKeys vs ps
  · exact ht (u, s, d, p) h1
  · have := h.taken_le (hx _ h.volumes trivial) u s d p
    rw [volumeAt_off h1] at this
    exact le_trans this (volumeAt_nonneg _ _ _ _ _ _)

/-- instance of `C137_withdrawn`: A withdraws 20 MW at 90 $/MWh and B 30 of 80 MW at 40 $/MWh; 100 MW of A and 10 MW of B are taken -/
example : ∃ m m' lp lp' x', MoreOffers (takenCase fewVolumes fewPrices []).hist (takenCase manyVolumes manyPrices []).hist m m'
    fewVolumes fewPrices manyVolumes manyPrices ∧ BandsUnique fewPrices ∧ BandsUnique manyPrices ∧ m.assemble = .ok lp ∧ m'.assemble = .ok lp' ∧
    LeastTotal m' (takenCase manyVolumes manyPrices []).hist manyPrices x' ∧
    (∀ u s d p, m'.takenAt manyPrices x' u s d p ≤ volumeAt fewVolumes fewPrices u s d p) ∧
    m'.takenAt manyPrices x' "B" .energy .generator (some 40) = 10 := by
  have h : (takenCase fewVolumes fewPrices [100, 10]).ok (fun m => decide (∀ op ∈ (takenCase fewVolumes fewPrices []).hist, op.suits m) &&
    decide (m.properLinks (lossesOf (takenCase fewVolumes fewPrices []).hist)) &&
    decide (m.units = (takenCase [] [] []).units ∧ m.di = 5)) = true := by decide +kernel
  have g : (takenCase manyVolumes manyPrices [100, 0, 10, 0]).best [40] (fun m => decide (∀ op ∈ (takenCase manyVolumes manyPrices []).hist, op.suits m) &&
    decide (m.properLinks (lossesOf (takenCase manyVolumes manyPrices []).hist)) &&
    decide (m.units = (takenCase [] [] []).units ∧ m.di = 5) &&
    decide (∀ k ∈ offerKeys manyVolumes manyPrices, m.takenAt manyPrices (takenCase manyVolumes manyPrices [100, 0, 10, 0]).x k.1 k.2.1 k.2.2.1 k.2.2.2 ≤
      volumeAt fewVolumes fewPrices k.1 k.2.1 k.2.2.1 k.2.2.2) &&
    decide (m.takenAt manyPrices (takenCase manyVolumes manyPrices [100, 0, 10, 0]).x "B" .energy .generator (some 40) = 10)) = true := by decide +kernel
  obtain ⟨m, lp, h1, h2, h3, h4⟩ := Case.witness h
  obtain ⟨m', lp', g1, g2, g3, g4⟩ := Case.optimal g
  simp only [Bool.and_eq_true, decide_eq_true_eq] at h4 g4
  have hk : ∀ vs ps, ∀ op ∈ (takenCase vs ps []).hist, op.firm ∨ op.lax := by
    intro vs ps op ho
    simp only [takenCase, List.mem_cons, List.not_mem_nil, or_false] at ho
    rcases ho with rfl | rfl | rfl
    · exact Or.inl trivial
    · exact Or.inl trivial
    · exact Or.inl rfl
  have hm : MadeBy (takenCase fewVolumes fewPrices []).hist m := Case.madeBy (s := takenCase fewVolumes fewPrices [100, 10]) h1 (by decide +kernel) (by decide +kernel) (hk _ _)
    h4.1.1 h4.1.2 (fun c hc => by simp [takenCase] at hc)
  have hm' : MadeBy (takenCase manyVolumes manyPrices []).hist m' := Case.madeBy (s := takenCase manyVolumes manyPrices [100, 0, 10, 0]) g1 (by decide +kernel) (by decide +kernel) (hk _ _)
    g4.1.1.1.1 g4.1.1.1.2 (fun c hc => by simp [takenCase] at hc)
  have hM : MoreOffers (takenCase fewVolumes fewPrices []).hist (takenCase manyVolumes manyPrices []).hist m m' fewVolumes fewPrices manyVolumes manyPrices := by
    refine ⟨hm, hm', ?_, ?_, rfl, by simp [takenCase], by simp [takenCase], by simp [takenCase], by simp [takenCase], fun c hc => by simp [takenCase] at hc,
      volumes_more (by decide +kernel), sides_kept (by decide +kernel)⟩
    · rw [h4.2.1, g4.1.1.2.1]
    · rw [h4.2.2, g4.1.1.2.2]
  have hu : BandsUnique manyPrices := by unfold BandsUnique; decide +kernel
  have hL := (C124_optimal hm' hM.prices' hu g2 _).1 ⟨_, .refl m' _, g3⟩
  exact ⟨m, m', lp, lp', _, hM, by unfold BandsUnique; decide +kernel, hu, h2, g2, hL, taken_off hM.toOther.symm hL.1 g4.1.2, g4.2⟩

end Verif
