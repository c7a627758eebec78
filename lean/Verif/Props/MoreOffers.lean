import Verif.Props.Bands

/-!
# C132: offering more never makes dispatch dearer

A unit that offers more of what it offers already leaves every schedule of the market possible, at the same cost.  A unit that offers
something for the first time can make dispatch dearer, as constraints of the unit come into force with its bids.
-/

namespace Verif

variable {ops ops' : List Op} {m m' : Market} {vs ps vs' ps' : List BidRow}

/-- **C132**.  If two markets differ in their bids only, and the second is offered at least as much at every price, by the same units for the
same services, then for every schedule the first market permits the second permits one with the same dispatch of every unit, the same flows
and losses, the same cost of bids and the same payment for what is missed. -/
theorem C132_schedules (h : MoreOffers ops ops' m m' vs ps vs' ps') {x : Nat → ℚ} (hx : Permitted m ops x) :
    ∃ x', Permitted m' ops' x' ∧ SameResults m m' x x' ∧ m'.costAt ps' x' = m.costAt ps x ∧ m'.penalty ops' x' = m.penalty ops x :=
  h.schedules hx

/-- **C132**.  The least total of the market that is offered more is at most the least total of the other. -/
theorem C132_total (h : MoreOffers ops ops' m m' vs ps vs' ps') {x x' : Nat → ℚ} (hx : LeastTotal m ops ps x) (hx' : LeastTotal m' ops' ps' x') :
    m'.costAt ps' x' + m'.penalty ops' x' ≤ m.costAt ps x + m.penalty ops x := by
  obtain ⟨y, y1, _, y3, y4⟩ := C132_schedules h hx.1
  rw [← y3, ← y4]
  exact hx'.2 y y1

/-- **C132**.  With correct solvers, if the first market has a schedule then `dispatch` succeeds for both, and the objective value of the
market that is offered more is at most that of the other. -/
theorem C132_dispatch (h : MoreOffers ops ops' m m' vs ps vs' ps') (hb : BandsUnique ps) (hb' : BandsUnique ps') {lp lp' : Lp}
    (hl : m.assemble = .ok lp) (hl' : m'.assemble = .ok lp') (hpr : ∀ r ∈ m.mktRhs.concat, r.cid ∈ lp.rows.map LRow.cid)
    (hpr' : ∀ r ∈ m'.mktRhs.concat, r.cid ∈ lp'.rows.map LRow.cid) {S S' : Solver} (hS : S.Correct) (hS' : S'.Correct) (ocd ocd' : Option ReRun) :
    (m'.dispatch S' ocd' = .error .valueError → m.dispatch S ocd = .error .valueError) ∧
    ((∃ x, Permitted m ops x) → ∃ o o', m.dispatch S ocd = .ok o ∧ m'.dispatch S' ocd' = .ok o' ∧ o'.cost ≤ o.cost) := by
  obtain ⟨a1, a2⟩ := C124_dispatch h.made h.prices hb hl hpr hS ocd
  obtain ⟨b1, b2⟩ := C124_dispatch h.made' h.prices' hb' hl' hpr' hS' ocd'
  constructor
  · rw [a1, b1]
    rintro hn ⟨x, hx⟩
    obtain ⟨z, hz, _⟩ := C132_schedules h hx
    exact hn ⟨z, hz⟩
  · intro hx
    obtain ⟨o, o1, o2, o3⟩ := a2 hx
    obtain ⟨x, hx⟩ := hx
    obtain ⟨z, hz, _⟩ := C132_schedules h hx
    obtain ⟨o', p1, p2, p3⟩ := b2 ⟨z, hz⟩
    refine ⟨o, o', o1, p1, ?_⟩
    rw [o3, p3]
    exact C132_total h o2 p2

/-! ## Example -/

/-- offers of more than `bandVolumes`: more of A at 30, some of it at 45 as well, more of V, more of the load of B -/
def moreVolumes : List BidRow := [{ unit := "V", bands := [("1", 130)] }, { unit := "A", bands := [("2", 120), ("3", 90), ("4", 25)] },
  { unit := "A", service := .raiseReg, bands := [("1", 20)] }, { unit := "A", service := .lowerReg, bands := [("1", 15)] },
  { unit := "B", dtype := .load, bands := [("5", 22)] }, { unit := "B", bands := [("1", 20)] }]

/-- prices of the bands of `moreVolumes` -/
def morePrices : List BidRow := [{ unit := "A", service := .lowerReg, bands := [("1", 1)] }, { unit := "A", bands := [("2", 30), ("3", 30), ("4", 45)] },
  { unit := "A", service := .raiseReg, bands := [("1", 2)] }, { unit := "V", bands := [("1", 50)] },
  { unit := "B", bands := [("1", 60)] }, { unit := "B", dtype := .load, bands := [("5", 20)] }]

def moreOffersCase : Case := { penaltyCase with
  hist := .volumeBids moreVolumes :: .priceBids morePrices :: penaltyCase.hist.drop 2 }

/-- unit, service, dispatch type and price of the bands of some offers -/
def offerKeys (vs ps : List BidRow) : List (String × Service × DType × Option ℚ) :=
  (bandsOf vs).map (fun e => (e.1, e.2.1, e.2.2.1, priceOf ps e.1 e.2.1 e.2.2.1 e.2.2.2.1))

theorem volumeAt_off {vs ps : List BidRow} {u : String} {s : Service} {d : DType} {p : Option ℚ} (h : (u, s, d, p) ∉ offerKeys vs ps) :
    volumeAt vs ps u s d p = 0 :=
  volumeAt_zero (fun e he hc => h (List.mem_map.2 ⟨e, he, hc⟩))

theorem volumeAt_nonneg (vs ps : List BidRow) (u : String) (s : Service) (d : DType) (p : Option ℚ) : 0 ≤ volumeAt vs ps u s d p := by
  unfold volumeAt
  apply List.sum_nonneg
  intro q hq
  obtain ⟨e, he, rfl⟩ := List.mem_map.1 hq
  have := (List.mem_filter.1 he).2
  simp only [decide_eq_true_eq] at this
  linarith [this.2.2.2.1, show (0 : ℚ) < 1 / 10000 by norm_num]

theorem volumes_more {vs ps vs' ps' : List BidRow}
    (h : ∀ k ∈ offerKeys vs ps, volumeAt vs ps k.1 k.2.1 k.2.2.1 k.2.2.2 ≤ volumeAt vs' ps' k.1 k.2.1 k.2.2.1 k.2.2.2) :
    ∀ u s d p, volumeAt vs ps u s d p ≤ volumeAt vs' ps' u s d p := by
  intro u s d p
  by_cases h1 : (u, s, d, p) ∈ offerKeys vs ps
  · exact h (u, s, d, p) h1
  · rw [volumeAt_off h1]; exact volumeAt_nonneg _ _ _ _ _ _

theorem sides_kept {vs ps vs' ps' : List BidRow}
    (h : ∀ k ∈ offerKeys vs' ps', ∃ l ∈ offerKeys vs ps, l.1 = k.1 ∧ l.2.1 = k.2.1 ∧ l.2.2.1 = k.2.2.1 ∧ 0 < volumeAt vs ps l.1 l.2.1 l.2.2.1 l.2.2.2) :
    ∀ u s d, (∃ p, 0 < volumeAt vs' ps' u s d p) → ∃ p, 0 < volumeAt vs ps u s d p := by
  rintro u s d ⟨p, hp⟩
  have h1 : (u, s, d, p) ∈ offerKeys vs' ps' := by
    by_contra hc
    rw [volumeAt_off hc] at hp
    exact lt_irrefl _ hp
  obtain ⟨⟨a, b, c, e⟩, _, rfl, rfl, rfl, hl⟩ := h _ h1
  exact ⟨e, hl⟩

/-- instance of C132: the market of C124, and the same with more offered -/
example : ∃ m m' lp lp', MoreOffers penaltyCase.hist moreOffersCase.hist m m' bandVolumes penaltyPrices moreVolumes morePrices ∧
    BandsUnique penaltyPrices ∧ BandsUnique morePrices ∧ m.assemble = .ok lp ∧ m'.assemble = .ok lp' ∧
    (∀ r ∈ m.mktRhs.concat, r.cid ∈ lp.rows.map LRow.cid) ∧ (∀ r ∈ m'.mktRhs.concat, r.cid ∈ lp'.rows.map LRow.cid) ∧
    Permitted m penaltyCase.hist penaltyCase.x ∧ (m.bids.getD []).length = 6 ∧ (m'.bids.getD []).length = 8 := by
  obtain ⟨m, lp, h1, h2, h3, h4⟩ := Case.witness (s := penaltyCase) (P := fun m => decide (∀ op ∈ penaltyCase.hist, op.suits m) && decide (m.properLinks (lossesOf penaltyCase.hist)) &&
    decide ((m.bids.getD []).length = 6 ∧ m.units = batteryUnits ∧ m.di = 5) &&
    (match m.assemble with | .ok lp => decide (∀ r ∈ m.mktRhs.concat, r.cid ∈ lp.rows.map LRow.cid) | .error _ => false)) (by decide +kernel)
  obtain ⟨m', g1, g4⟩ := Case.holdsAt (s := moreOffersCase) (P := fun m => decide (∀ op ∈ moreOffersCase.hist, op.suits m) && decide (m.properLinks (lossesOf moreOffersCase.hist)) &&
    decide ((m.bids.getD []).length = 8 ∧ m.units = batteryUnits ∧ m.di = 5) &&
    (match m.assemble with | .ok lp => decide (∀ r ∈ m.mktRhs.concat, r.cid ∈ lp.rows.map LRow.cid) | .error _ => false)) (by decide +kernel)
  simp only [Bool.and_eq_true, decide_eq_true_eq, h2] at h4
  simp only [Bool.and_eq_true, decide_eq_true_eq] at g4
  cases g2 : m'.assemble with
  | error e => rw [g2] at g4; exact absurd g4.2 (by simp)
  | ok lp' =>
  rw [g2] at g4
  simp only [decide_eq_true_eq] at g4
  have hm : MadeBy penaltyCase.hist m := Case.madeBy h1 (by decide +kernel) (by decide +kernel) penaltyCase_kinds h4.1.1.1 h4.1.1.2
    (fun c hc => by simp [penaltyCase] at hc)
  have hm' : MadeBy moreOffersCase.hist m' := by
    refine Case.madeBy g1 (by decide +kernel) (by decide +kernel) ?_ g4.1.1.1 g4.1.1.2 (fun c hc => by simp [moreOffersCase, penaltyCase] at hc)
    intro op ho
    simp only [moreOffersCase, List.mem_cons] at ho
    rcases ho with rfl | rfl | ho
    · exact Or.inl trivial
    · exact Or.inl trivial
    · exact penaltyCase_kinds op (List.mem_of_mem_drop ho)
  refine ⟨m, m', lp, lp', ⟨hm, hm', ?_, ?_, rfl, ?_, ?_, ?_, ?_, fun c hc => by simp [penaltyCase] at hc,
    volumes_more (by decide +kernel), sides_kept (by decide +kernel)⟩, ?_, ?_, h2, g2, h4.2, g4.2,
    (C124_schedules hm h2 _).1 ⟨_, .refl m _, h3⟩, h4.1.2.1, g4.1.2.1⟩
  · rw [h4.1.2.2.1, g4.1.2.2.1]
  · rw [h4.1.2.2.2, g4.1.2.2.2]
  · simp [penaltyCase, bandVolumes]
  · simp [moreOffersCase]
  · simp [penaltyCase]
  · simp [moreOffersCase]
  · unfold BandsUnique; decide +kernel
  · unfold BandsUnique; decide +kernel

/-! ## First offers -/

/-- A offers 100 at 30, B was at 60 and ramps by 5; `vs` and `ps` are further offers -/
def firstOfferCase (vs ps : List BidRow) (sol : List ℚ) : Case where
  regions := ["NSW"]
  units := [{ unit := "A", region := "NSW" }, { unit := "B", region := "NSW" }]
  hist := [.volumeBids ({ unit := "A", bands := [("1", 100)] } :: vs), .priceBids ({ unit := "A", bands := [("1", 30)] } :: ps),
    .rampRates [{ unit := "B", init := 60, up := 60, down := 60 }] none none .noFastStart none,
    .demand [{ region := "NSW", demand := 80 }] none]
  sol := sol

/-- **C132** is false of a unit that offers something for the first time: without offers of B the market costs 2400; if B, which was at 60 MW
and has ramp rates, offers 100 MW at 300 the market costs 17250, as the ramp rate comes into force with the first bid of B. -/
theorem C132_first_offer_fails : ∃ m lp m' lp',
    (firstOfferCase [] [] [80]).final = some m ∧ m.assemble = .ok lp ∧ Optimal lp (firstOfferCase [] [] [80]).x ∧
      lp.cost (firstOfferCase [] [] [80]).x = 2400 ∧
    (firstOfferCase [{ unit := "B", bands := [("1", 100)] }] [{ unit := "B", bands := [("1", 300)] }] [25, 55]).final = some m' ∧ m'.assemble = .ok lp' ∧
      Optimal lp' (firstOfferCase [{ unit := "B", bands := [("1", 100)] }] [{ unit := "B", bands := [("1", 300)] }] [25, 55]).x ∧
      lp'.cost (firstOfferCase [{ unit := "B", bands := [("1", 100)] }] [{ unit := "B", bands := [("1", 300)] }] [25, 55]).x = 17250 := by
  have h : (firstOfferCase [] [] [80]).best [30] (fun m => match m.assemble with
    | .ok lp => decide (lp.cost (firstOfferCase [] [] [80]).x = 2400) | .error _ => false) = true := by decide +kernel
  have h' : (firstOfferCase [{ unit := "B", bands := [("1", 100)] }] [{ unit := "B", bands := [("1", 300)] }] [25, 55]).best [30, 0, 270] (fun m => match m.assemble with
    | .ok lp => decide (lp.cost (firstOfferCase [{ unit := "B", bands := [("1", 100)] }] [{ unit := "B", bands := [("1", 300)] }] [25, 55]).x = 17250)
    | .error _ => false) = true := by decide +kernel
  obtain ⟨m, lp, h0, h1, h2, h3⟩ := Case.optimal h
  obtain ⟨m', lp', k0, k1, k2, k3⟩ := Case.optimal h'
  rw [h1] at h3
  rw [k1] at k3
  exact ⟨m, lp, m', lp', h0, h1, h2, of_decide_eq_true h3, k0, k1, k2, of_decide_eq_true k3⟩

end Verif
