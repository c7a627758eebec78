import Verif.Proofs.SoftCalls
import Verif.Props.Whole

/-!
# C124: violation costs price what is missed

With violation costs the program still is the market: the schedules that can be completed to a feasible solution are those that do what
the calls without a violation cost ask, and the optimal ones are those with the least sum of the cost of the bids and the price of what
they miss.
-/

namespace Verif

theorem firm_misses {op : Op} (h : op.firm) (m : Market) (os : List Op) (x : Nat → ℚ) : op.misses m os x = [] := by
  cases op <;> first | rfl | exact h.elim | (simp only [Op.firm] at h; first | subst h | obtain ⟨rfl, _⟩ := h) <;> rfl

theorem firm_vcost {op : Op} (h : op.firm) : op.vcost = none := by
  cases op <;> simp_all [Op.firm, Op.vcost]

/-- the pieces of a market -/
theorem MadeBy.pieces {ops : List Op} {m : Market} (h : MadeBy ops m) (l : List Op) (hl : ∀ op ∈ l, op ∈ ops) (ho : OncePerPart l) :
    ∃ L : List Piece, (∀ p ∈ L, SoftPiece m p) ∧ (∀ k ∈ L.map Piece.key, LaxSet l k) ∧
      (∀ k, LaxSet l k → k ∉ L.map Piece.key → m.conRhs.get? k = none ∧ m.mktRhs.get? k = none ∧ m.deficits.get? k = none) ∧
      (L.map Piece.key).Nodup ∧
      ∀ x, (L.map (fun p => m.violationCost p.key p.vc x)).sum = ((l.flatMap (Op.misses m ops x)).map (fun p => p.1 * p.2)).sum := by
  induction l with
  | nil => exact ⟨[], by simp, by simp, by simp [LaxSet], by simp, fun x => rfl⟩
  | cons op l ih =>
    have ho' := List.pairwise_cons.1 ho
    obtain ⟨L, h1, h2, h5, h3, h4⟩ := ih (fun o h => hl o (by simp [h])) ho'.2
    by_cases hlax : op.lax
    · obtain ⟨P, hp⟩ := h.pricedBy (hl op (by simp)) hlax
      have hkP : ∀ k ∈ P.map Piece.key, Part.set k ∈ op.parts := by
        intro k hk
        obtain ⟨p, hpp, rfl⟩ := List.mem_map.1 hk
        exact hp.keys p hpp
      refine ⟨P ++ L, ?_, ?_, ?_, ?_, ?_⟩
      · intro q hq
        rcases List.mem_append.1 hq with hq | hq
        · exact hp.soft q hq
        · exact h1 q hq
      · intro k hk
        rw [List.map_append] at hk
        rcases List.mem_append.1 hk with hk | hk
        · exact ⟨op, by simp, hlax, hkP k hk⟩
        · obtain ⟨o, h, h'⟩ := h2 k hk
          exact ⟨o, by simp [h], h'⟩
      · rintro k ⟨o, h, h', h''⟩ hn
        rw [List.map_append, List.mem_append, not_or] at hn
        rcases List.mem_cons.1 h with rfl | h
        · exact hp.rest k h'' hn.1
        · exact h5 k ⟨o, h, h', h''⟩ hn.2
      · rw [List.map_append, List.nodup_append]
        refine ⟨hp.nodup, h3, ?_⟩
        rintro a ha b hb rfl
        obtain ⟨o, h, _, h''⟩ := h2 _ hb
        exact ho'.1 o h (.set a) (hkP a ha) h''
      · intro x
        rw [List.map_append, List.sum_append, List.flatMap_cons, List.map_append, List.sum_append, h4 x, hp.cost x]
    · refine ⟨L, h1, ?_, ?_, h3, ?_⟩
      · intro k hk
        obtain ⟨o, h, h'⟩ := h2 k hk
        exact ⟨o, by simp [h], h'⟩
      · rintro k ⟨o, h, h', h''⟩ hn
        rcases List.mem_cons.1 h with rfl | h
        · exact absurd h' hlax
        · exact h5 k ⟨o, h, h', h''⟩ hn
      · intro x
        rw [h4 x, List.flatMap_cons, firm_misses ((h.kinds op (hl op (by simp))).resolve_right hlax), List.nil_append]

theorem MadeBy.noDeficits {ops : List Op} {m : Market} (h : MadeBy ops m) {k : CKey} (hk : ¬ LaxSet ops k) : m.deficits.get? k = none := by
  obtain ⟨r, u, d, m0, h1, h2, h3, rfl⟩ := h.history
  refine deficits_never ?_ ?_
  · rw [(init_fresh h1).1]; rfl
  · rintro o ho ⟨hv, hp⟩
    rcases h.kinds o ho with hf | hl
    · rw [firm_vcost hf] at hv; cases hv
    · exact hk ⟨o, ho, hl, hp⟩

theorem MadeBy.noDeficits' {ops : List Op} {m : Market} (h : MadeBy ops m) {K : List CKey}
    (hK : ∀ k, LaxSet ops k → k ∉ K → m.conRhs.get? k = none ∧ m.mktRhs.get? k = none ∧ m.deficits.get? k = none) :
    ∀ k, k ∉ K → m.deficits.get? k = none := by
  classical
  intro k hk
  by_cases hl : LaxSet ops k
  · exact (hK k hl hk).2.2
  · exact h.noDeficits hl

/-- A permitted schedule can be completed to a feasible solution whose violation variables are exactly what is missed. -/
theorem MadeBy.fill {ops : List Op} {m : Market} (h : MadeBy ops m) {lp : Lp} (hl : m.assemble = .ok lp) {x : Nat → ℚ}
    (hx : Permitted m ops x) :
    ∃ y, SameSchedule m x y ∧ Feasible lp y ∧
      ((m.deficits.flatMap (fun d => d.2.1)).map (fun v => v.cost * y v.vid)).sum = m.penalty ops x := by
  obtain ⟨L, l1, l2, l5, l3, l4⟩ := h.pieces ops (fun _ h => h) h.once
  have hno := h.noDeficits' l5
  obtain ⟨z, hs, hv, h2, h1, hk⟩ := h.complete hl hx
  have hdef : ∀ v, (∀ p ∈ L, v ∉ m.deficitVids p.key) → v ∉ m.defVids := by
    intro v hv hc
    obtain ⟨d, hd, hvd⟩ := List.mem_flatMap.1 hc
    have hg := Dict.get?_of_mem h.wf.con.defKeys hd
    by_cases hkL : d.1 ∈ L.map Piece.key
    · obtain ⟨p, hp, e⟩ := List.mem_map.1 hkL
      refine hv p hp ?_
      unfold Market.deficitVids
      rw [e, hg]
      exact hvd
    · rw [hno _ hkL] at hg; cases hg
  have hhard : HardBut m L lp z := by
    refine ⟨fun v hv' hn => hv v hv' (hdef _ hn), fun r hr hn => ?_, h2, h1⟩
    obtain ⟨k, hrow⟩ := rowOf_of_allRows h.wf.con (lpRow hl hr).2.1
    by_cases hlax : LaxSet ops k
    · exfalso
      have hkL : k ∈ L.map Piece.key := by
        by_contra hc
        obtain ⟨n1, n2, _⟩ := l5 k hlax hc
        rcases hrow with ⟨rows, e, _⟩ | ⟨rows, e, _⟩ | ⟨e, _⟩
        · rw [n1] at e; cases e
        · rw [n2] at e; cases e
        · obtain ⟨o, _, hol, hop⟩ := hlax
          rw [e] at hop
          cases o <;> first | exact hol.elim | simp [Op.parts] at hop
      obtain ⟨p, hp, e⟩ := List.mem_map.1 hkL
      subst e
      have sp := l1 p hp
      obtain ⟨q, hq, hc⟩ : ∃ q ∈ (m.rowsOf p.key).getD [], q.cid = r.cid := by
        unfold Market.rowsOf
        rcases hrow with ⟨rows, e, q, hq, hc⟩ | ⟨rows, e, q, hq, hc⟩ | ⟨e, _⟩
        · have := noMkt h.wf (k := p.key) (h.wf.con.conMkt _ (Dict.mem_of_get? e))
          rw [this, e]
          exact ⟨q, hq, hc⟩
        · rw [e]; exact ⟨q, hq, hc⟩
        · obtain ⟨o, _, hol, hop⟩ := hlax
          rw [e] at hop
          cases o <;> first | exact hol.elim | simp [Op.parts] at hop
      exact hn p hp q (List.mem_filter.2 ⟨hq, sp.whole q hq⟩) hc
    · exact hk k hlax r hr hrow
  obtain ⟨y, hy, hoff, hown⟩ := fill_all hl L l1 l3 hhard
  have hzy : SameSchedule m z y := sameSchedule_off h.reached.refs (fun v hv => hoff v (fun q hq hc => hv (deficitVids_sub hc)))
  have hxy : SameSchedule m x y := ⟨fun b hb => (hzy.1 b hb).trans (hs.1 b hb), fun b hb => (hzy.2.1 b hb).trans (hs.2.1 b hb),
    fun b hb => (hzy.2.2 b hb).trans (hs.2.2 b hb)⟩
  refine ⟨y, hxy, hy, ?_⟩
  rw [deficit_cost h.wf L l1 l3 hno]
  unfold Market.penalty
  have : ops.flatMap (Op.misses m ops x) = ops.flatMap (Op.misses m ops y) := by
    congr 1; funext op; exact (hxy.misses op).symm
  rw [this, ← l4 y]
  apply sum_map_congr
  intro p hp
  unfold Market.violationCost
  apply sum_map_congr
  intro e he
  rw [hown p hp e he]

/-- A feasible solution pays at least for what it misses. -/
theorem MadeBy.pays {ops : List Op} {m : Market} (h : MadeBy ops m) {lp : Lp} (hl : m.assemble = .ok lp) {x : Nat → ℚ}
    (hx : Feasible lp x) : m.penalty ops x ≤ ((m.deficits.flatMap (fun d => d.2.1)).map (fun v => v.cost * x v.vid)).sum := by
  obtain ⟨L, l1, l2, l5, l3, l4⟩ := h.pieces ops (fun _ h => h) h.once
  have hno := h.noDeficits' l5
  rw [deficit_cost h.wf L l1 l3 hno]
  unfold Market.penalty
  rw [← l4 x]
  apply List.sum_le_sum
  intro p hp
  unfold Market.violationCost
  apply List.sum_le_sum
  intro e he
  have S := (l1 p hp).set
  exact mul_le_mul_of_nonneg_left (S.own_ge hl (S.nonneg hl hx.vars) he (fun r hr _ => hx.rows r hr)) ((l1 p hp).nonneg e he)

/-- **C124**.  A schedule can be completed to a feasible solution of the program exactly if it does what the calls without a violation
cost ask; calls with a violation cost forbid nothing. -/
theorem C124_schedules {ops : List Op} {m : Market} (h : MadeBy ops m) {lp : Lp} (hl : m.assemble = .ok lp) (x : Nat → ℚ) :
    (∃ z, SameSchedule m x z ∧ Feasible lp z) ↔ Permitted m ops x := by
  constructor
  · rintro ⟨z, hs, hz⟩ op ho hf
    exact hs.symm.meets (h.meets_of_feasible hl hz ho hf)
  · intro hm
    obtain ⟨y, h1, h2, _⟩ := h.fill hl hm
    exact ⟨y, h1, h2⟩

/-- **C124**.  The least objective value with which a schedule can be completed is the cost of its bids plus, for all calls with a violation
cost, the price of what it misses. -/
theorem C124_cost {ops : List Op} {m : Market} (h : MadeBy ops m) {ps : List BidRow} (hp : Op.priceBids ps ∈ ops) (hb : BandsUnique ps)
    {lp : Lp} (hl : m.assemble = .ok lp) {x : Nat → ℚ} (hx : Permitted m ops x) :
    (∃ z, SameSchedule m x z ∧ Feasible lp z ∧ lp.cost z = m.costAt ps x + m.penalty ops x) ∧
    ∀ z, SameSchedule m x z → Feasible lp z → m.costAt ps x + m.penalty ops x ≤ lp.cost z := by
  have hc : ∀ z, SameSchedule m x z → lp.cost z = m.costAt ps x + ((m.deficits.flatMap (fun d => d.2.1)).map (fun v => v.cost * z v.vid)).sum := by
    intro z hs
    rw [C05_objective_is_cost_of_bids (h.priceKeeping hp) hb hl z]
    congr 1
    unfold Market.costAt
    apply sum_map_congr
    intro b hb
    rw [hs.1 b hb]
  have hpen : ∀ z, SameSchedule m x z → m.penalty ops z = m.penalty ops x := by
    intro z hs
    unfold Market.penalty
    have : ops.flatMap (Op.misses m ops z) = ops.flatMap (Op.misses m ops x) := by
      congr 1; funext op; exact hs.misses op
    rw [this]
  constructor
  · obtain ⟨y, h1, h2, h3⟩ := h.fill hl hx
    exact ⟨y, h1, h2, by rw [hc y h1, h3]⟩
  · intro z hs hz
    rw [hc z hs, ← hpen z hs]
    have := h.pays hl hz
    linarith

theorem SameSchedule.refl (m : Market) (x : Nat → ℚ) : SameSchedule m x x := ⟨fun _ _ => rfl, fun _ _ => rfl, fun _ _ => rfl⟩

/-- **C124**.  A schedule can be completed to an optimal solution of the program exactly if no other permitted schedule has a smaller sum of
the cost of its bids and the price of what it misses. -/
theorem C124_optimal {ops : List Op} {m : Market} (h : MadeBy ops m) {ps : List BidRow} (hp : Op.priceBids ps ∈ ops) (hb : BandsUnique ps)
    {lp : Lp} (hl : m.assemble = .ok lp) (x : Nat → ℚ) :
    (∃ z, SameSchedule m x z ∧ Optimal lp z) ↔ LeastTotal m ops ps x := by
  constructor
  · rintro ⟨z, hs, hz, ho⟩
    have hx := (C124_schedules h hl x).1 ⟨z, hs, hz⟩
    refine ⟨hx, fun y hy => ?_⟩
    obtain ⟨w, hw, hf, hc⟩ := (C124_cost h hp hb hl hy).1
    rw [← hc]
    exact ((C124_cost h hp hb hl hx).2 z hs hz).trans (ho w hf)
  · rintro ⟨hm, ho⟩
    obtain ⟨z, hs, hz, hc⟩ := (C124_cost h hp hb hl hm).1
    refine ⟨z, hs, hz, fun w hw => ?_⟩
    rw [hc]
    have hpw := (C124_schedules h hl w).1 ⟨w, .refl m w, hw⟩
    exact (ho w hpw).trans ((C124_cost h hp hb hl hpw).2 w (.refl m w) hw)

theorem MadeBy.defCosts {ops : List Op} {m : Market} (h : MadeBy ops m) : DefCosts m := by
  obtain ⟨L, l1, l2, l5, l3, l4⟩ := h.pieces ops (fun _ h => h) h.once
  have hno := h.noDeficits' l5
  intro d hd v hv
  have hg := Dict.get?_of_mem h.wf.con.defKeys hd
  by_cases hk : d.1 ∈ L.map Piece.key
  · obtain ⟨p, hp, e⟩ := List.mem_map.1 hk
    have S := (l1 p hp).set
    rw [← e, S.deficits] at hg
    injection hg with hg
    rw [← hg, show (m.elasticRows p.key p.vc).map (fun r => (r, (p.vc.of r).getD 0)) = m.costed p.key p.vc from rfl, slots_vars] at hv
    obtain ⟨s, hs, rfl⟩ := List.mem_map.1 hv
    obtain ⟨r, hr, e⟩ := List.mem_map.1 (slots_mem hs).1
    have : (p.vc.of r).getD 0 = s.cost := by simpa using congrArg Prod.snd e
    show 0 ≤ s.cost
    rw [← this]
    exact (l1 p hp).nonneg r hr
  · rw [hno _ hk] at hg; cases hg

/-- **C124**.  With a correct solver `dispatch` finds such a schedule and its objective value is this sum; it raises ValueError exactly if
no schedule does what the calls without a violation cost ask. -/
theorem C124_dispatch {ops : List Op} {m : Market} (h : MadeBy ops m) {ps : List BidRow} (hp : Op.priceBids ps ∈ ops) (hb : BandsUnique ps)
    {lp : Lp} (hl : m.assemble = .ok lp) (hpr : ∀ r ∈ m.mktRhs.concat, r.cid ∈ lp.rows.map LRow.cid) {S : Solver} (hS : S.Correct)
    (ocd : Option ReRun) :
    (m.dispatch S ocd = .error .valueError ↔ ¬ ∃ x, Permitted m ops x) ∧
    ((∃ x, Permitted m ops x) →
      ∃ o, m.dispatch S ocd = .ok o ∧ LeastTotal m ops ps o.x ∧ o.cost = m.costAt ps o.x + m.penalty ops o.x) := by
  have he : (∃ x, Optimal lp x) ↔ ∃ x, Permitted m ops x := by
    constructor
    · rintro ⟨x, hx, _⟩
      exact ⟨x, (C124_schedules h hl x).1 ⟨x, .refl m x, hx⟩⟩
    · rintro ⟨x, hx⟩
      obtain ⟨z, _, hz⟩ := (C124_schedules h hl x).2 hx
      obtain ⟨b, hb⟩ := linVal_bounded lp.obj (objective_bounded_of h.reached.refs h.defCosts hl)
      exact optimal_exists ⟨z, hz⟩ hb
  obtain ⟨a, b⟩ := C94_dispatch S hS m lp ocd hl hpr
  rw [← he]
  refine ⟨a, fun hx => ?_⟩
  obtain ⟨o, o1, o2, o3⟩ := b hx
  have hm := (C124_optimal h hp hb hl o.x).1 ⟨o.x, .refl m o.x, o2⟩
  refine ⟨o, o1, hm, ?_⟩
  obtain ⟨⟨z, hs, hz, hc⟩, hge⟩ := C124_cost h hp hb hl hm.1
  rw [o3]
  refine le_antisymm ?_ (hge o.x (.refl m o.x) o2.1)
  rw [← hc]
  exact o2.2 z hz

/-! ## Example -/

theorem Case.madeBy {s : Case} {m : Market} (h : s.final = some m)
    (ha : (match Market.init s.regions s.units s.di with | .ok m0 => decide (Accepted m0 s.hist) | .error _ => false) = true)
    (ho : OncePerPart s.hist) (hp : ∀ op ∈ s.hist, op.firm ∨ op.lax) (hb : ∀ op ∈ s.hist, op.suits m) (hl : m.properLinks (lossesOf s.hist))
    (ht : ∀ c, Op.tieBreak c ∈ s.hist → ToldApart s.hist m) : MadeBy s.hist m := by
  refine ⟨?_, ho, hp, hb, hl, ht⟩
  unfold Case.final at h
  cases hm : Market.init s.regions s.units s.di with
  | error e => rw [hm] at h; cases h
  | ok m0 =>
    rw [hm] at h ha
    simp only at h ha
    split at h
    · rename_i hb
      injection h with h
      exact ⟨s.regions, s.units, s.di, m0, hm, benignB_iff.1 hb, of_decide_eq_true ha, h.symm⟩
    · cases h

def penaltyPrices : List BidRow := { unit := "A", service := .lowerReg, bands := [("1", 1)] } :: wholePrices

/-- the market of C123 with a start profile, joint ramping, and prices on everything but the losses and the link -/
def penaltyCase : Case where
  regions := ["NSW", "VIC"]
  units := batteryUnits
  hist := [.volumeBids [{ unit := "A", bands := [("1", 200)] }, { unit := "A", service := .raiseReg, bands := [("1", 20)] },
      { unit := "A", service := .lowerReg, bands := [("1", 10)] },
      { unit := "V", bands := [("1", 100)] }, { unit := "B", bands := [("1", 20)] }, { unit := "B", dtype := .load, bands := [("1", 20)] }],
    .priceBids penaltyPrices,
    .capacity [{ unit := "V", val := 0 }] (some (.num 500)),
    .rampRates [{ unit := "A", init := 130, up := 60, down := 60 }, { unit := "B", init := -6, up := 60, down := 60 },
      { unit := "B", dtype := .load, init := -6, up := 120, down := 60 }] none none .noFastStart (some (.num 300)),
    .energyReg [{ unit := "A", service := .raiseReg, maxAvail := 20, emin := 0, lbp := 20, hbp := 180, emax := 200 }] (some (.num 100)),
    .fastStart [{ unit := "V", endMode := 3, time := 1, len2 := 2, len4 := 2, minLoading := 10 }] (some (.num 200)),
    .jointRamping [{ unit := "A", init := 130, up := 60, down := 60 }]
      (some [{ unit := "A", curMode := 2, endMode := 3, minLoading := 150, since := some 2 }]) .second (some (.num 10)),
    .interconnectors [{ inter := "I", link := "I", fromR := "NSW", toR := "VIC", min := -100, max := 100 }],
    .losses regLoss regPoints,
    .fcasReq [{ set := "R", service := .raiseReg, region := "NSW", volume := 30, ctype := .ge }] (some (.table [("R", 50)])),
    .linkInters [{ set := "G", inter := "I", coef := 1 }],
    .generic [{ set := "G", ctype := .le, rhs := 40 }] (some (.table [("G", 20)])),
    .demand regDemand (some (.num 15000))]
  sol := [285/2, 20, 0, 2, 0, 1/2, 1/2, 15/2, 0, 3, 0, 0, 0, 19/2, 21/2, 0, 50, 5, 0, 1/2, 1/2, 10, 10, 0, 0, 10, 0]

theorem penaltyCase_kinds : ∀ op ∈ penaltyCase.hist, op.firm ∨ op.lax := by
  intro op ho
  simp only [penaltyCase, List.mem_cons, List.not_mem_nil, or_false] at ho
  rcases ho with rfl | rfl | rfl | rfl | rfl | rfl | rfl | rfl | rfl | rfl | rfl | rfl | rfl
  · left; trivial
  · left; trivial
  · right; simp only [Op.lax]; norm_num
  · right; simp only [Op.lax]; norm_num
  · right; simp only [Op.lax]; constructor
    · norm_num
    · simp
  · right; simp only [Op.lax]; norm_num
  · right; simp only [Op.lax]; norm_num
  · left; trivial
  · left
    refine ⟨?_, by decide +kernel⟩
    intro f hf
    simp only [regLoss, List.mem_singleton] at hf
    subst hf
    simp only [Increasing, pointsOf, regPoints]
    decide +kernel
  · right; simp [Op.lax, VCost.covers, VCost.proper, VCost.forSet]
  · left; trivial
  · right; simp [Op.lax, VCost.covers, VCost.proper, VCost.forSet]
  · right; simp only [Op.lax]; norm_num

/-- instance of C124: a permitted schedule that exceeds the capacity by 0.5 MW, the ramp limit by 7.5 MW, what the battery can reach by
3 MW and the joint ramp limit by 10.5 MW, stays 9.5 MW below the minimum loading of the start profile, misses the requirement, the generic
constraint and the demand of NSW by 10 MW each, and pays 250, 2250, 900, 105, 1900, 500, 200 and 150000 for it -/
example : ∃ m lp S, MadeBy penaltyCase.hist m ∧ Op.priceBids penaltyPrices ∈ penaltyCase.hist ∧ BandsUnique penaltyPrices ∧ m.assemble = .ok lp ∧
    (∀ r ∈ m.mktRhs.concat, r.cid ∈ lp.rows.map LRow.cid) ∧ Solver.Correct S ∧ Permitted m penaltyCase.hist penaltyCase.x ∧
    m.penalty penaltyCase.hist penaltyCase.x = 250 + (2250 + 900) + 1900 + 105 + 500 + 200 + 150000 ∧ m.costAt penaltyPrices penaltyCase.x = 4460 ∧
    lp.cost penaltyCase.x = 4460 + 156105 := by
  obtain ⟨m, lp, h1, h2, h3, h4⟩ := Case.witness (s := penaltyCase) (P := fun m => decide (∀ op ∈ penaltyCase.hist, op.suits m) && decide (m.properLinks (lossesOf penaltyCase.hist)) &&
    decide (m.penalty penaltyCase.hist penaltyCase.x = 250 + (2250 + 900) + 1900 + 105 + 500 + 200 + 150000 ∧ m.costAt penaltyPrices penaltyCase.x = 4460) &&
    (match m.assemble with
      | .ok lp => decide ((∀ r ∈ m.mktRhs.concat, r.cid ∈ lp.rows.map LRow.cid) ∧ lp.cost penaltyCase.x = 4460 + 156105)
      | .error _ => false)) (by decide +kernel)
  simp only [Bool.and_eq_true, decide_eq_true_eq, h2] at h4
  have hm : MadeBy penaltyCase.hist m := Case.madeBy h1 (by decide +kernel) (by decide +kernel) penaltyCase_kinds h4.1.1.1 h4.1.1.2
    (fun c hc => by simp [penaltyCase] at hc)
  refine ⟨m, lp, perfectSolver, hm, ?_, ?_, h2, h4.2.1, perfectSolver_correct, (C124_schedules hm h2 _).1 ⟨_, .refl m _, h3⟩, h4.1.2.1, h4.1.2.2, h4.2.2⟩
  · simp [penaltyCase]
  · unfold BandsUnique; decide +kernel

/-- a battery that bids for energy on both sides, for a contingency service as a generator and for raise regulation on both sides, with a
joint capacity trapezium without and trapeziums of both sides with a violation cost -/
def trapBatteryCase : Case where
  regions := ["NSW"]
  units := [{ unit := "B", region := "NSW" }, { unit := "B", region := "NSW", dtype := .load }, { unit := "A", region := "NSW" }]
  hist := [.volumeBids [{ unit := "A", bands := [("1", 100)] }, { unit := "B", bands := [("1", 20)] }, { unit := "B", dtype := .load, bands := [("1", 20)] },
      { unit := "B", service := .raise6s, bands := [("1", 10)] }, { unit := "B", service := .raiseReg, bands := [("1", 10)] },
      { unit := "B", service := .raiseReg, dtype := .load, bands := [("1", 10)] }],
    .jointCapacity [{ unit := "B", service := .raise6s, maxAvail := 10, emin := -20, lbp := -20, hbp := 10, emax := 20 }] none,
    .energyReg [{ unit := "B", service := .raiseReg, maxAvail := 10, emin := 0, lbp := 0, hbp := 10, emax := 20 },
      { unit := "B", service := .raiseReg, dtype := .load, maxAvail := 10, emin := -20, lbp := -10, hbp := 0, emax := 0 }] (some (.num 100)),
    .demand [{ region := "NSW", demand := 50 }] none]
  sol := [42, 16, 8, 2, 5, 5, 1, 0, 0, 0]

/-- instance of C124 with trapeziums of a battery -/
example : ∃ m lp, MadeBy trapBatteryCase.hist m ∧ m.assemble = .ok lp ∧ Feasible lp trapBatteryCase.x ∧ m.netOutput trapBatteryCase.x "B" = 8 ∧
    m.regulation trapBatteryCase.x "B" .raiseReg .generator = 10 ∧ m.penalty trapBatteryCase.hist trapBatteryCase.x = 100 := by
  obtain ⟨m, lp, h1, h2, h3, h4⟩ := Case.witness (s := trapBatteryCase) (P := fun m => decide (∀ op ∈ trapBatteryCase.hist, op.suits m) &&
    decide (m.properLinks (lossesOf trapBatteryCase.hist)) && decide (m.netOutput trapBatteryCase.x "B" = 8 ∧
      m.regulation trapBatteryCase.x "B" .raiseReg .generator = 10 ∧ m.penalty trapBatteryCase.hist trapBatteryCase.x = 100)) (by decide +kernel)
  simp only [Bool.and_eq_true, decide_eq_true_eq] at h4
  refine ⟨m, lp, Case.madeBy h1 (by decide +kernel) (by decide +kernel) ?_ h4.1.1 h4.1.2 (fun c hc => by simp [trapBatteryCase] at hc), h2, h3, h4.2⟩
  intro op ho
  simp only [trapBatteryCase, List.mem_cons, List.not_mem_nil, or_false] at ho
  rcases ho with rfl | rfl | rfl | rfl
  · left; trivial
  · left; simp [Op.firm]
  · right; simp only [Op.lax]; constructor
    · norm_num
    · simp
  · left; rfl

/-- joint ramping with a violation cost for a generator and a battery that bids for raise regulation on both sides and for lower
regulation as a load only -/
def rampBatteryCase : Case where
  regions := ["NSW"]
  units := [{ unit := "B", region := "NSW" }, { unit := "B", region := "NSW", dtype := .load }, { unit := "A", region := "NSW" }]
  hist := [.volumeBids [{ unit := "A", bands := [("1", 100)] }, { unit := "A", service := .raiseReg, bands := [("1", 20)] },
      { unit := "A", service := .lowerReg, bands := [("1", 10)] }, { unit := "B", bands := [("1", 20)] },
      { unit := "B", dtype := .load, bands := [("1", 20)] }, { unit := "B", service := .raiseReg, bands := [("1", 10)] },
      { unit := "B", service := .raiseReg, dtype := .load, bands := [("1", 10)] },
      { unit := "B", service := .lowerReg, dtype := .load, bands := [("1", 10)] }],
    .jointRamping [{ unit := "A", init := 40, up := 60, down := 60 }, { unit := "B", init := 0, up := 120, down := 120 }] none .noFastStart (some (.num 100)),
    .demand [{ region := "NSW", demand := 50 }] none]
  sol := [42, 5, 1, 16, 8, 5, 5, 3, 2, 0, 8, 1]

/-- instance of C124 with joint ramping of a battery: its net output of 8 MW and its 10 MW of raise regulation exceed the 10 MW it can
reach by 8 MW, its consumption of 8 MW and its 3 MW of lower regulation exceed what it can reach by 1 MW, and the generator exceeds its
limit by 2 MW -/
example : ∃ m lp, MadeBy rampBatteryCase.hist m ∧ m.assemble = .ok lp ∧ Feasible lp rampBatteryCase.x ∧ m.netOutput rampBatteryCase.x "B" = 8 ∧
    m.regEnergy rampBatteryCase.x "B" .raiseReg = 8 ∧ m.regEnergy rampBatteryCase.x "B" .lowerReg = -8 ∧
    m.penalty rampBatteryCase.hist rampBatteryCase.x = 200 + 800 + 100 := by
  obtain ⟨m, lp, h1, h2, h3, h4⟩ := Case.witness (s := rampBatteryCase) (P := fun m => decide (∀ op ∈ rampBatteryCase.hist, op.suits m) &&
    decide (m.properLinks (lossesOf rampBatteryCase.hist)) && decide (m.netOutput rampBatteryCase.x "B" = 8 ∧
      m.regEnergy rampBatteryCase.x "B" .raiseReg = 8 ∧ m.regEnergy rampBatteryCase.x "B" .lowerReg = -8 ∧
      m.penalty rampBatteryCase.hist rampBatteryCase.x = 200 + 800 + 100)) (by decide +kernel)
  simp only [Bool.and_eq_true, decide_eq_true_eq] at h4
  refine ⟨m, lp, Case.madeBy h1 (by decide +kernel) (by decide +kernel) ?_ h4.1.1 h4.1.2 (fun c hc => by simp [rampBatteryCase] at hc), h2, h3, h4.2⟩
  intro op ho
  simp only [rampBatteryCase, List.mem_cons, List.not_mem_nil, or_false] at ho
  rcases ho with rfl | rfl | rfl
  · left; trivial
  · right; simp only [Op.lax]; norm_num
  · left; rfl

/-- two units with a band of 20 and of 60 MW at the same price (after loss factors), the second limited to 20 MW, demand 30 MW -/
def tiePenaltyCase : Case where
  regions := ["NSW"]
  units := [{ unit := "A", region := "NSW" }, { unit := "B", region := "NSW", lf := 1 / 2 }, { unit := "C", region := "NSW" }]
  hist := [.volumeBids [{ unit := "A", bands := [("1", 20), ("2", 10)] }, { unit := "B", bands := [("1", 60)] }, { unit := "C", bands := [("1", 5)] }],
    .priceBids [{ unit := "A", bands := [("1", 30), ("2", 40)] }, { unit := "B", bands := [("1", 15)] }, { unit := "C", bands := [("1", 31)] }],
    .capacity [{ unit := "B", val := 15 }] none,
    .tieBreak 6, .demand [{ region := "NSW", demand := 30 }] none]
  sol := [15, 0, 15, 0, 1/2, 0]

instance (m : Market) (a b : BidVar) : Decidable (NameUnique m a b) := by unfold NameUnique; infer_instance

/-- instance of C124 with tie-break constraints: `A` is dispatched to three quarters of its band, `B` to a quarter, at a price of 6 -/
example : ∃ m lp, MadeBy tiePenaltyCase.hist m ∧ m.assemble = .ok lp ∧ Permitted m tiePenaltyCase.hist tiePenaltyCase.x ∧
    m.penalty tiePenaltyCase.hist tiePenaltyCase.x = 3 ∧ m.costAt (pricesOf tiePenaltyCase.hist) tiePenaltyCase.x = 900 ∧
    lp.cost tiePenaltyCase.x = 903 := by
  obtain ⟨m, lp, h1, h2, h3, h4⟩ := Case.witness (s := tiePenaltyCase) (P := fun m => decide (∀ op ∈ tiePenaltyCase.hist, op.suits m) &&
    decide (m.properLinks (lossesOf tiePenaltyCase.hist)) &&
    decide (m.penalty tiePenaltyCase.hist tiePenaltyCase.x = 3 ∧ m.costAt (pricesOf tiePenaltyCase.hist) tiePenaltyCase.x = 900) &&
    decide (∀ a ∈ m.bids.getD [], ∀ b ∈ m.bids.getD [], Tied m (pricesOf tiePenaltyCase.hist) a b → NameUnique m a b) &&
    (match m.assemble with
      | .ok lp => decide (lp.cost tiePenaltyCase.x = 903)
      | .error _ => false)) (by decide +kernel)
  simp only [Bool.and_eq_true, decide_eq_true_eq, h2] at h4
  obtain ⟨⟨⟨⟨h5, h6⟩, h7⟩, h8⟩, h9⟩ := h4
  have hm : MadeBy tiePenaltyCase.hist m := by
    refine Case.madeBy h1 (by decide +kernel) (by decide +kernel) ?_ h5 h6 (fun c _ => ⟨?_, fun a b ht => h8 a ht.left b ht.right ht⟩)
    · intro op ho
      simp only [tiePenaltyCase, List.mem_cons, List.not_mem_nil, or_false] at ho
      rcases ho with rfl | rfl | rfl | rfl | rfl
      · left; trivial
      · left; trivial
      · left; rfl
      · right; simp only [Op.lax]; norm_num
      · left; rfl
    · intro ps hps
      simp only [tiePenaltyCase, List.mem_cons, List.not_mem_nil, or_false, reduceCtorEq, false_or, Op.priceBids.injEq] at hps
      subst hps
      unfold BandsUnique; decide +kernel
  exact ⟨m, lp, hm, h2, (C124_schedules hm h2 _).1 ⟨_, .refl m _, h3⟩, h7.1, h7.2, h9⟩

end Verif
