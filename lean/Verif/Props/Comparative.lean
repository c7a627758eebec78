import Verif.Proofs.Alike
import Verif.Props.Bids
import Verif.Props.Settlement
import Verif.Spec.Comparative

/-!
# C106, C107, C108: what happens if one input changes
-/

namespace Verif

theorem OneCall.first {keep : List Part} {op op' : Op} {m m' : Market} (h : OneCall keep op op' m m') : InForceKeeping keep op m := by
  obtain ⟨r, u, di, m0, before, after, h0, hb, _, ho, _, ha, e, _⟩ := h
  exact ⟨r, u, di, m0, before, after, h0, hb, ho, fun o ho p hp => ha o ho p (by simp only [List.mem_append] at hp ⊢; tauto), e⟩

theorem OneCall.second {keep : List Part} {op op' : Op} {m m' : Market} (h : OneCall keep op op' m m') : InForceKeeping keep op' m' := by
  obtain ⟨r, u, di, m0, before, after, h0, _, hb, _, ho, ha, _, e⟩ := h
  exact ⟨r, u, di, m0, before, after, h0, hb, ho, fun o ho p hp => ha o ho p (by simp only [List.mem_append] at hp ⊢; tauto), e⟩

/-- two successful price bid calls leave markets that differ in the prices only -/
theorem priceBids_alike {ps ps' : List BidRow} {m m' : Market}
    (h : OneCall [.bids, .set .tieBreak] (.priceBids ps) (.priceBids ps') m m') (k : CKey) :
    Alike k m m' := by
  obtain ⟨r, u, di, m0, before, after, h0, _, _, h1, h2, ha, rfl, rfl⟩ := h
  rw [run_append, run_append, run_cons, run_cons]
  generalize m0.run before = a at *
  refine run_alike ?_ ?_
  · have key : ∀ {qs : List BidRow}, (a.step (.priceBids qs)).2 = none → (a.step (.priceBids qs)).1 = { a with bidCost := (a.step (.priceBids qs)).1.bidCost } := by
      intro qs
      simp only [Market.step, Market.setPriceBids]
      split
      · intro h; cases h
      split
      · intro h; cases h
      split
      · intro h; cases h
      split
      · intro h; cases h
      · intro _; rfl
    have k1 := key h1
    have k2 := key h2
    generalize (a.step (.priceBids ps)).1 = b at k1 ⊢
    generalize (a.step (.priceBids ps')).1 = b' at k2 ⊢
    rw [k1, k2]
    exact ⟨rfl, .refl _ _, .refl _ _⟩
  · rintro o ho c rfl
    exact ha _ ho (.set .tieBreak) (by simp) (by simp [Op.parts])

/-- with the same rows the feasible schedules are the same -/
theorem alike_feasible {m m' : Market} (h : ∀ k, Alike k m m') (hw : ConWF m) (hw' : ConWF m') {lp lp' : Lp} (hl : m.assemble = .ok lp)
    (hl' : m'.assemble = .ok lp') {x : Nat → ℚ} (hx : Feasible lp x) : Feasible lp' x := by
  have hk : ∀ r ∈ lp'.rows, r ∈ lp.rows := by
    intro r hr
    by_cases h1 : m'.rowOf .demand r.cid
    · have h2 : ¬ m'.rowOf .fcas r.cid := by
        intro h2
        have i1 := inTab_of_rowOf h1
        have i2 := inTab_of_rowOf h2
        obtain ⟨own, ho⟩ := hw'.own
        have e := (ho _ _ i1).1.symm.trans (ho _ _ i2).1
        cases e
      obtain ⟨r', hr', _, _, _, e⟩ := ((h .fcas).symm.lp hw' hw hl' hl).2.2.2 r hr
      rw [e h2] at hr'; exact hr'
    · obtain ⟨r', hr', _, _, _, e⟩ := ((h .demand).symm.lp hw' hw hl' hl).2.2.2 r hr
      rw [e h1] at hr'; exact hr'
  obtain ⟨e1, e2, e3, _⟩ := (h .demand).lp hw hw' hl hl'
  exact ⟨by rw [e1]; exact hx.vars, fun r hr => hx.rows r (hk r hr), by rw [e2]; exact hx.sos2, by rw [e3]; exact hx.sos1⟩


/-! ### C107 -/

/-- **C107**.  If the prices of bids change, the dispatch of the bids moves against them: the changes of the costs of the bid bands
(prices at the reference node, negative for loads) times the changes of what is dispatched of them add up to at most zero. -/
theorem C107_law_of_supply {ps ps' : List BidRow} {m m' : Market}
    (h : OneCall [.bids, .set .tieBreak] (.priceBids ps) (.priceBids ps') m m') (hb : BandsUnique ps) (hb' : BandsUnique ps')
    {lp lp' : Lp} (hl : m.assemble = .ok lp) (hl' : m'.assemble = .ok lp') {x x' : Nat → ℚ} (hx : Optimal lp x) (hx' : Optimal lp' x') :
    ((m.bids.getD []).map (fun b => (b.price ps' m - b.price ps m) * (x' b.vid - x b.vid))).sum ≤ 0 := by
  have ha := priceBids_alike h
  have hw := h.first.inForce.reached.wf.con
  have hw' := h.second.inForce.reached.wf.con
  have i1 := hx.2 x' (alike_feasible (fun k => (ha k).symm) hw' hw hl' hl hx'.1)
  have i2 := hx'.2 x (alike_feasible ha hw hw' hl hl' hx.1)
  have keep : ∀ {op : Op} {m : Market}, InForceKeeping [.bids, .set .tieBreak] op m → InForceKeeping [.bids] op m := by
    rintro op m ⟨r, u, di, m0, before, after, h0, hb, ho, ha, e⟩
    exact ⟨r, u, di, m0, before, after, h0, hb, ho, fun o ho p hp => ha o ho p (by simp only [List.mem_append, List.mem_cons] at hp ⊢; tauto), e⟩
  have c1 := C05_objective_is_cost_of_bids (keep h.first) hb hl
  have c2 := C05_objective_is_cost_of_bids (keep h.second) hb' hl'
  rw [(ha .demand).bids, (ha .demand).units, (ha .demand).deficits] at c2
  rw [c1, c1] at i1
  rw [c2, c2] at i2
  have e : ((m.bids.getD []).map (fun b => (b.price ps' m - b.price ps m) * (x' b.vid - x b.vid))).sum =
      (((m.bids.getD []).map (fun b => costOf ps' m.units b.unit b.service b.dtype b.band * x' b.vid)).sum -
      ((m.bids.getD []).map (fun b => costOf ps' m.units b.unit b.service b.dtype b.band * x b.vid)).sum) -
      (((m.bids.getD []).map (fun b => costOf ps m.units b.unit b.service b.dtype b.band * x' b.vid)).sum -
      ((m.bids.getD []).map (fun b => costOf ps m.units b.unit b.service b.dtype b.band * x b.vid)).sum) := by
    rw [← sum_map_sub, ← sum_map_sub, ← sum_map_sub]
    apply sum_map_congr
    intro b _
    unfold BidVar.price
    ring
  rw [e]
  linarith

/-- **C107**, one band.  If only the price of one bid band is raised, no more is dispatched of it; if it is the energy bid of a load,
no less is dispatched of it. -/
theorem C107_one_band {ps ps' : List BidRow} {m m' : Market}
    (h : OneCall [.bids, .set .tieBreak] (.priceBids ps) (.priceBids ps') m m') (hb : BandsUnique ps) (hb' : BandsUnique ps')
    {lp lp' : Lp} (hl : m.assemble = .ok lp) (hl' : m'.assemble = .ok lp') {x x' : Nat → ℚ} (hx : Optimal lp x) (hx' : Optimal lp' x')
    {b : BidVar} (hbid : b ∈ m.bids.getD []) {p p' : ℚ} (hp : priceOf ps b.unit b.service b.dtype b.band = some p)
    (hp' : priceOf ps' b.unit b.service b.dtype b.band = some p') (hlt : p < p')
    (ho : ∀ u s d n, (u, s, d, n) ≠ (b.unit, b.service, b.dtype, b.band) → priceOf ps' u s d n = priceOf ps u s d n)
    (hu : ((m.bids.getD []).map (fun a => (a.unit, a.service, a.dtype, a.band))).Nodup) (hi : m.lists b.unit b.dtype) :
    (b.dtype = .load ∧ b.service = .energy → x b.vid ≤ x' b.vid) ∧ (¬ (b.dtype = .load ∧ b.service = .energy) → x' b.vid ≤ x b.vid) := by
  have hlaw := C107_law_of_supply h hb hb' hl hl' hx hx'
  have hlf : ∀ i ∈ m.units, 0 < i.lf := by
    have hwf := h.first.inForce.reached.wf
    obtain ⟨r, u, di, m0, before, after, h0, hbn, _, _, _, _, rfl, _⟩ := h
    intro i hi
    have h2 := (benign_append.1 hbn).2.1
    have h3 : i.lf ≠ 0 := h2 i (by rw [(sameBase_run m0 before).2.1]; rwa [(sameBase_run m0 _).2.1] at hi)
    exact lt_of_le_of_ne (hwf.lfs i hi).2 (Ne.symm h3)
  have e1 : ((m.bids.getD []).map (fun a => (a.price ps' m - a.price ps m) * (x' a.vid - x a.vid))).sum =
      (((m.bids.getD []).filter (fun a => decide ((a.unit, a.service, a.dtype, a.band) = (b.unit, b.service, b.dtype, b.band)))).map
        (fun a => (a.price ps' m - a.price ps m) * (x' a.vid - x a.vid))).sum := by
    rw [sum_filter_eq_ite]
    apply sum_map_congr
    intro a _
    by_cases e : (a.unit, a.service, a.dtype, a.band) = (b.unit, b.service, b.dtype, b.band)
    · rw [decide_eq_true e, if_pos rfl]
    · rw [decide_eq_false e, if_neg (by simp)]
      unfold BidVar.price costOf
      rw [ho _ _ _ _ e]
      ring
  rw [e1, filter_key_unique (key := fun a : BidVar => (a.unit, a.service, a.dtype, a.band)) hu hbid] at hlaw
  simp only [List.map_cons, List.map_nil, List.sum_cons, List.sum_nil, add_zero] at hlaw
  obtain ⟨f, hf, hpos⟩ : ∃ f, lossFactor m.units b.unit b.dtype = some f ∧ 0 < f := by
    unfold lossFactor
    obtain ⟨i, hi, e1, e2⟩ := hi
    cases e : m.units.find? (fun i => decide (i.unit = b.unit ∧ i.dtype = b.dtype)) with
    | none =>
      have := List.find?_eq_none.1 e i hi
      simp [e1, e2] at this
    | some j => exact ⟨j.lf, rfl, hlf j (List.mem_of_find?_eq_some e)⟩
  have hdiv : p / f < p' / f := div_lt_div_of_pos_right hlt hpos
  unfold BidVar.price costOf at hlaw
  rw [hp, hp', hf] at hlaw
  dsimp only at hlaw
  constructor
  · rintro ⟨e1, e2⟩
    rw [if_pos e2, if_pos e1, if_pos e2, if_pos e1] at hlaw
    by_contra hc
    have := mul_pos_of_neg_of_neg (a := -(p' / f) - -(p / f)) (b := x' b.vid - x b.vid) (by linarith) (by linarith [not_le.1 hc])
    linarith
  · intro e
    have key : ∀ {q q' : ℚ}, q < q' → (q' - q) * (x' b.vid - x b.vid) ≤ 0 → x' b.vid ≤ x b.vid := by
      intro q q' hq h
      by_contra hc
      have := mul_pos (a := q' - q) (b := x' b.vid - x b.vid) (by linarith) (by linarith [not_le.1 hc])
      linarith
    by_cases e2 : b.service = .energy
    · have e1 : b.dtype ≠ .load := fun e1 => e ⟨e1, e2⟩
      rw [if_pos e2, if_neg e1, if_pos e2, if_neg e1] at hlaw
      exact key hdiv hlaw
    · rw [if_neg e2, if_neg e2] at hlaw
      exact key hlt hlaw

/-- **C107**, a unit.  If a unit raises the prices of all its bands of a service by the same amount at the reference node, its
reported dispatch of the service does not rise (for a load: `δ` is negative, the price a load is willing to pay counts negatively). -/
theorem C107_unit {ps ps' : List BidRow} {m m' : Market}
    (h : OneCall [.bids, .set .tieBreak] (.priceBids ps) (.priceBids ps') m m') (hb : BandsUnique ps) (hb' : BandsUnique ps')
    {lp lp' : Lp} (hl : m.assemble = .ok lp) (hl' : m'.assemble = .ok lp') {x x' : Nat → ℚ} (hx : Optimal lp x) (hx' : Optimal lp' x')
    {u : String} {s : Service} {d : DType} {δ : ℚ}
    (hp : ∀ b ∈ m.bids.getD [], b.price ps' m = b.price ps m + if b.unit = u ∧ b.service = s ∧ b.dtype = d then δ else 0) :
    δ * (m'.dispatched x' u s d - m.dispatched x u s d) ≤ 0 := by
  have hlaw := C107_law_of_supply h hb hb' hl hl' hx hx'
  have e : ((m.bids.getD []).map (fun b => (b.price ps' m - b.price ps m) * (x' b.vid - x b.vid))).sum =
      δ * (m'.dispatched x' u s d - m.dispatched x u s d) := by
    unfold Market.dispatched
    rw [(priceBids_alike h .demand).bids, ← sum_map_sub, ← sum_map_mul_left, sum_filter_eq_ite]
    apply sum_map_congr
    intro b hb
    rw [hp b hb]
    by_cases e : b.unit = u ∧ b.service = s ∧ b.dtype = d
    · simp [e]
    · simp [e]
  rw [← e]
  exact hlaw

/-! ### C106 -/

/-- two successful demand calls for the same regions leave markets that differ in the demand only -/
theorem demand_alike {ds ds' : List Demand} {vc : Option VCost} {m m' : Market} (h : OneCall [] (.demand ds vc) (.demand ds' vc) m m')
    (hr : ds'.map Demand.region = ds.map Demand.region) : Alike .demand m m' ∧ m'.bidCost = m.bidCost := by
  obtain ⟨r, u, di, m0, before, after, h0, _, _, h1, h2, ha, rfl, rfl⟩ := h
  rw [run_append, run_append, run_cons, run_cons]
  generalize m0.run before = a at *
  have hA : AlikeR .demand (a.step (.demand ds vc)) (a.step (.demand ds' vc)) := by
    have hn := step_ok h1
    simp only [Market.step, hn, Market.setDemand, Bool.false_eq_true, if_false] at h1 h2 ⊢
    split at h1
    · cases h1
    split at h2
    · cases h2
    rename_i c1 c2
    rw [if_neg c1, if_neg c2]
    refine AlikeR.andThen ?_ (fun m M h => elasticOpt_alike h _ _)
    refine regSet_alike' (.refl _ a) _ (fun e => absurd rfl e) ?_ ?_
    · have key : ∀ l : List Demand, (energyConstraints l a.nextCon).1.map Row.noRhs =
          saveIndex (l.map Demand.region) a.nextCon (fun i g => { cid := i, ctype := .eq, rhs := 0, region := some g }) := by
        intro l
        unfold energyConstraints
        rw [map_saveIndex, saveIndex_map]
        rfl
      rw [key, key, hr]
    · have key : ∀ l : List Demand, (energyConstraints l a.nextCon).2 =
          saveIndex (l.map Demand.region) a.nextCon (fun i g => { cid := i, region := g, service := .energy, coef := 1 }) := by
        intro l
        unfold energyConstraints
        rw [saveIndex_map]
      rw [key, key, hr]
  have hb : (a.step (.demand ds' vc)).1.bidCost = (a.step (.demand ds vc)).1.bidCost := by
    rw [step_bidCost _ (by simp), step_bidCost _ (by simp)]
  exact run_alike_same hA.1 hb after

theorem alike_cost {k : CKey} {m m' : Market} (h : Alike k m m') (hb : m'.bidCost = m.bidCost) {lp lp' : Lp} (hl : m.assemble = .ok lp)
    (hl' : m'.assemble = .ok lp') (y : Nat → ℚ) : lp'.cost y = lp.cost y := by
  unfold Lp.cost
  rw [(assemble_parts hl).2.1, (assemble_parts hl').2.1]
  unfold Market.objective
  rw [hb, h.deficits]

/-- the payments for demand at given prices -/
theorem energyPayment_eq {energy : List (String × ℚ)} {ds : List Demand} (hk : energy.map Prod.fst = ds.map Demand.region)
    (hn : (ds.map Demand.region).Nodup) (δ : String → ℚ) (hd : ∀ d ∈ ds, δ d.region = d.demand) :
    energyPayment energy ds = (energy.map (fun e => e.2 * δ e.1)).sum := by
  unfold energyPayment
  rw [sum_comm']
  apply sum_map_congr
  intro e he
  have hm : e.1 ∈ ds.map Demand.region := by rw [← hk]; exact List.mem_map_of_mem he
  obtain ⟨d, hd', hde⟩ := List.mem_map.1 hm
  rw [← hde, filter_key_unique (key := Demand.region) hn hd']
  simp [hd d hd']

/-- the demand of a region according to the table -/
theorem exists_demand (ds : List Demand) (hn : (ds.map Demand.region).Nodup) : ∃ δ : String → ℚ, ∀ d ∈ ds, δ d.region = d.demand := by
  refine ⟨fun g => ((ds.filter (fun d => decide (d.region = g))).map Demand.demand).sum, ?_⟩
  intro d hd
  dsimp only
  rw [filter_key_unique (key := Demand.region) hn hd]
  simp

/-- the balance of a region in markets that are alike -/
theorem alike_balance {k : CKey} {m m' : Market} (h : Alike k m m') (y : Nat → ℚ) (fs : List LossFn) (g : String) :
    m'.balance y fs g = m.balance y fs g := by
  unfold Market.balance Market.supply Market.netImport Market.chargedLoss Market.dispatched Market.flow Market.linkLoss
  rw [h.bids, h.units, h.dirs, h.inters, h.losses]

/-- all demand of a market that was dispatched is met in every solution of the constraints -/
theorem demand_met {ds : List Demand} {fs : List LossFn} {m : Market} (h : InForce (.demand ds none) m)
    (hf : LossFunctions fs m) (hp : m.properLinks fs) {S : Solver} {ocd : Option ReRun} {o : Outcome} (ho : m.dispatch S ocd = .ok o)
    {lp : Lp} (hl : m.assemble = .ok lp) {x : Nat → ℚ} (hx : ∀ r ∈ lp.rows, r.holds x) {d : Demand} (hd : d ∈ ds) :
    m.balance x fs d.region = d.demand := by
  obtain ⟨n, hi⟩ := demand_imposed h
  obtain ⟨lp', hl', _, hpr, _⟩ := dispatch_parts ho
  rw [hl] at hl'; injection hl' with hl'; subst hl'
  obtain ⟨i, hd'⟩ := List.mem_iff_getElem?.1 hd
  obtain ⟨t, ht, e⟩ := List.mem_map.1 (priced_row hpr hi.rhs (energy_mem hd'))
  have hu := unique_row hi.wf.con (lpRow hl ht).2.1 (by rw [e]; exact mktRow_mem hi.rhs (energy_mem hd'))
  have h1 := ((lpRow hl ht).2.2 x).1 (hx t ht)
  rw [hu.1, hu.2, e] at h1
  simp only [CType.holds, Rhs.eval] at h1
  unfold Market.balance
  rw [← (demand_row hi hf hp x hd').2]
  exact h1

/-- one half of C106 -/
theorem demand_cost {ds ds' : List Demand} {fs : List LossFn} {m m' : Market} (h : InForce (.demand ds none) m)
    (h' : InForce (.demand ds' none) m') (hA : Alike .demand m m') (hB : m'.bidCost = m.bidCost)
    (hr : ds'.map Demand.region = ds.map Demand.region) (hf : LossFunctions fs m) (hf' : LossFunctions fs m') (hp : m.properLinks fs)
    {S S' : Solver} {ocd ocd' : Option ReRun} {o o' : Outcome} (ho : m.dispatch S ocd = .ok o) (ho' : m'.dispatch S' ocd' = .ok o')
    {lp lp' : Lp} (hl : m.assemble = .ok lp) (hl' : m'.assemble = .ok lp')
    (hv : (m'.linear S' o'.x lp').vars = (m.linear S o.x lp).vars) {xl xl' : Nat → ℚ}
    (hs : ShadowPrices (m.linear S o.x lp) xl o.price) (hx' : Feasible (m'.linear S' o'.x lp') xl')
    {energy : List (String × ℚ)} (he : m.energyPrices o.price = .ok energy) :
    lp.cost xl + (energyPayment energy ds' - energyPayment energy ds) ≤ lp'.cost xl' := by
  obtain ⟨ps, h1, h2, h3⟩ := C30_energy_prices h hf hp ho
  rw [he] at h1
  injection h1 with h1
  subst h1
  have hn : (ds.map Demand.region).Nodup := h.demandSet.tables.1
  obtain ⟨δ, hδ⟩ := exists_demand ds hn
  obtain ⟨δ', hδ'⟩ := exists_demand ds' (by rw [hr]; exact hn)
  rw [energyPayment_eq h2 hn δ hδ, energyPayment_eq (by rw [h2, hr]) (by rw [hr]; exact hn) δ' hδ', ← sum_map_sub]
  have hrows : ∀ r ∈ lp'.rows, r.holds xl' := by
    have := hx'.rows
    rwa [linear_rows] at this
  have key := h3 lp xl hl hs (fun g => δ' g - δ g) xl' ⟨?_, ?_⟩ ?_
  · rw [alike_cost hA hB hl hl']
    have e : (energy.map (fun e => e.2 * δ' e.1 - e.2 * δ e.1)).sum = (energy.map (fun e => e.2 * (δ' e.1 - δ e.1))).sum := by
      apply sum_map_congr; intro e _; ring
    rw [e]
    exact key
  · rw [← hv]; exact hx'.vars
  · intro r hr hnr
    rw [linear_rows] at hr
    obtain ⟨r', hr', _, _, _, e⟩ := (hA.lp h.reached.wf.con h'.reached.wf.con hl hl').2.2.2 r hr
    rw [← e hnr]
    exact hrows r' hr'
  · intro d hd
    have hm : d.region ∈ ds'.map Demand.region := by rw [hr]; exact List.mem_map_of_mem hd
    obtain ⟨d', hd', e⟩ := List.mem_map.1 hm
    have hp' : m'.properLinks fs := by unfold Market.properLinks; rw [hA.dirs]; exact hp
    have := demand_met h' hf' hp' ho' hl' hrows hd'
    rw [alike_balance hA, e] at this
    rw [this, ← hδ d hd, ← e, ← hδ' d' hd']
    ring

/-- **C106**.  Demand changes between two dispatches, everything else stays the same.  The cost rises at least by the change of the
demand valued at the first prices and at most by the change valued at the second.  In particular prices move with demand: valued at
the second prices the change of demand is worth at least what it is worth at the first.  If losses are modelled, the two linear models
the prices come from must fix the same interpolation weights and links. -/
theorem C106_demand {ds ds' : List Demand} {fs : List LossFn} {m m' : Market} (h : OneCall [] (.demand ds none) (.demand ds' none) m m')
    (hr : ds'.map Demand.region = ds.map Demand.region) (hf : LossFunctions fs m) (hf' : LossFunctions fs m') (hp : m.properLinks fs)
    {S S' : Solver} {ocd ocd' : Option ReRun} {o o' : Outcome} (ho : m.dispatch S ocd = .ok o) (ho' : m'.dispatch S' ocd' = .ok o')
    {lp lp' : Lp} (hl : m.assemble = .ok lp) (hl' : m'.assemble = .ok lp')
    (hv : (m'.linear S' o'.x lp').vars = (m.linear S o.x lp).vars) {xl xl' : Nat → ℚ}
    (hs : ShadowPrices (m.linear S o.x lp) xl o.price) (hs' : ShadowPrices (m'.linear S' o'.x lp') xl' o'.price)
    {energy energy' : List (String × ℚ)} (he : m.energyPrices o.price = .ok energy) (he' : m'.energyPrices o'.price = .ok energy') :
    energyPayment energy ds' - energyPayment energy ds ≤ lp'.cost xl' - lp.cost xl ∧
    lp'.cost xl' - lp.cost xl ≤ energyPayment energy' ds' - energyPayment energy' ds := by
  obtain ⟨hA, hB⟩ := demand_alike h hr
  have i1 := demand_cost h.first.inForce h.second.inForce hA hB hr hf hf' hp ho ho' hl hl' hv hs hs'.feasible he
  have hp' : m'.properLinks fs := by unfold Market.properLinks; rw [hA.dirs]; exact hp
  have i2 := demand_cost h.second.inForce h.first.inForce hA.symm hB.symm hr.symm hf' hf hp' ho' ho hl' hl hv.symm hs' hs.feasible he'
  constructor <;> linarith

/-- the value of a change of the demand of one region -/
theorem payment_one {energy : List (String × ℚ)} {ds ds' : List Demand} (hk : energy.map Prod.fst = ds.map Demand.region)
    (hr : ds'.map Demand.region = ds.map Demand.region) (hn : (ds.map Demand.region).Nodup) {g : String}
    (hsame : ∀ d ∈ ds, ∀ d' ∈ ds', d.region = d'.region → d.region ≠ g → d'.demand = d.demand)
    {d d' : Demand} (hd : d ∈ ds) (hd' : d' ∈ ds') (hg : d.region = g) (hg' : d'.region = g) {p : ℚ} (hp : (g, p) ∈ energy) :
    energyPayment energy ds' - energyPayment energy ds = p * (d'.demand - d.demand) := by
  obtain ⟨δ, hδ⟩ := exists_demand ds hn
  obtain ⟨δ', hδ'⟩ := exists_demand ds' (by rw [hr]; exact hn)
  rw [energyPayment_eq hk hn δ hδ, energyPayment_eq (by rw [hk, hr]) (by rw [hr]; exact hn) δ' hδ', ← sum_map_sub]
  have e1 : (energy.map (fun e => e.2 * δ' e.1 - e.2 * δ e.1)).sum =
      ((energy.filter (fun e => decide (e.1 = g))).map (fun e => e.2 * δ' e.1 - e.2 * δ e.1)).sum := by
    rw [sum_filter_eq_ite]
    apply sum_map_congr
    intro e he
    by_cases h : e.1 = g
    · rw [decide_eq_true h, if_pos rfl]
    · rw [decide_eq_false h, if_neg (by simp)]
      have hm : e.1 ∈ ds.map Demand.region := by rw [← hk]; exact List.mem_map_of_mem he
      obtain ⟨a, ha, hae⟩ := List.mem_map.1 hm
      rw [← hr] at hm
      obtain ⟨b, hb, hbe⟩ := List.mem_map.1 hm
      have h1 := hδ a ha
      have h2 := hδ' b hb
      have h3 := hsame a ha b hb (by rw [hae, hbe]) (by rw [hae]; exact h)
      rw [hae] at h1
      rw [hbe] at h2
      rw [h1, h2, h3]
      ring
  have hf := filter_key_unique (key := Prod.fst) (by rw [hk]; exact hn) hp
  rw [e1, hf]
  have h1 := hδ d hd
  have h2 := hδ' d' hd'
  rw [hg] at h1
  rw [hg'] at h2
  simp only [List.map_cons, List.map_nil, List.sum_cons, List.sum_nil, h1, h2]
  ring

/-- **C106**, one region, without losses.  If the demand of one region rises and nothing else changes, the energy price of the region
does not fall. -/
theorem C106_price_rises {ds ds' : List Demand} {m m' : Market} (h : OneCall [] (.demand ds none) (.demand ds' none) m m')
    (hr : ds'.map Demand.region = ds.map Demand.region) (hf : NoLosses m) (hf' : NoLosses m')
    {S S' : Solver} {ocd ocd' : Option ReRun} {o o' : Outcome} (ho : m.dispatch S ocd = .ok o) (ho' : m'.dispatch S' ocd' = .ok o')
    {lp lp' : Lp} (hl : m.assemble = .ok lp) (hl' : m'.assemble = .ok lp') {xl xl' : Nat → ℚ}
    (hs : ShadowPrices (m.linear S o.x lp) xl o.price) (hs' : ShadowPrices (m'.linear S' o'.x lp') xl' o'.price)
    {energy energy' : List (String × ℚ)} (he : m.energyPrices o.price = .ok energy) (he' : m'.energyPrices o'.price = .ok energy')
    {g : String} (hsame : ∀ d ∈ ds, ∀ d' ∈ ds', d.region = d'.region → d.region ≠ g → d'.demand = d.demand)
    {d d' : Demand} (hd : d ∈ ds) (hd' : d' ∈ ds') (hg : d.region = g) (hg' : d'.region = g) (hlt : d.demand < d'.demand)
    {p p' : ℚ} (hp : (g, p) ∈ energy) (hp' : (g, p') ∈ energy') : p ≤ p' := by
  obtain ⟨hA, _⟩ := demand_alike h hr
  have hv : (m'.linear S' o'.x lp').vars = (m.linear S o.x lp).vars := by
    unfold Market.linear
    rw [(noLosses_none hf).2, (noLosses_none hf').2]
    exact (hA.lp h.first.inForce.reached.wf.con h.second.inForce.reached.wf.con hl hl').1
  have key := C106_demand h hr (Or.inl ⟨rfl, hf⟩) (Or.inl ⟨rfl, hf'⟩) (by intro _ _ _ h; cases h) ho ho' hl hl' hv hs hs' he he'
  have hn : (ds.map Demand.region).Nodup := h.first.inForce.demandSet.tables.1
  have k1 : energy.map Prod.fst = ds.map Demand.region := by
    obtain ⟨ps, h1, h2, _⟩ := C30_energy_prices h.first.inForce (Or.inl ⟨rfl, hf⟩) (by intro _ _ _ h; cases h) ho
    rw [he] at h1; injection h1 with h1; subst h1; exact h2
  have k2 : energy'.map Prod.fst = ds.map Demand.region := by
    obtain ⟨ps, h1, h2, _⟩ := C30_energy_prices h.second.inForce (Or.inl ⟨rfl, hf'⟩) (by intro _ _ _ h; cases h) ho'
    rw [he'] at h1; injection h1 with h1; subst h1; rw [h2, hr]
  rw [payment_one k1 hr hn hsame hd hd' hg hg' hp, payment_one k2 hr hn hsame hd hd' hg hg' hp'] at key
  have := key.1.trans key.2
  exact le_of_mul_le_mul_right this (by linarith)

/-! ### C108 -/

/-- the same row with a right hand side that is as easy or easier to meet -/
def Row.easier (r r' : Row) : Prop := r'.noRhs = r.noRhs ∧ r.ctype.easier r.rhs r'.rhs

theorem CType.easier_refl (t : CType) (a : ℚ) : t.easier a a := by cases t <;> simp [CType.easier]

theorem forall₂_easier_refl (rs : List Row) : List.Forall₂ Row.easier rs rs := by
  induction rs with
  | nil => exact .nil
  | cons r rs ih => exact .cons ⟨rfl, CType.easier_refl _ _⟩ ih

theorem forall₂_easier_noRhs {rs rs' : List Row} (h : List.Forall₂ Row.easier rs rs') : rs'.map Row.noRhs = rs.map Row.noRhs := by
  induction h with
  | nil => rfl
  | cons h _ ih => rw [List.map_cons, List.map_cons, h.1, ih]

/-- the tables of a set in two markets, eased in the second -/
def EasedAt (k : CKey) (m m' : Market) : Prop :=
  (∀ rows, m.conRhs.get? k = some rows → ∃ rows', m'.conRhs.get? k = some rows' ∧ List.Forall₂ Row.easier rows rows') ∧
  (∀ rows, m.mktRhs.get? k = some rows → ∃ rows', m'.mktRhs.get? k = some rows' ∧ List.Forall₂ Row.easier rows rows')

theorem elasticOpt_rhs (m : Market) (k : CKey) (c : Option VCost) : (m.elasticOpt k c).1.conRhs = m.conRhs ∧
    (m.elasticOpt k c).1.mktRhs = m.mktRhs ∧ (m.elasticOpt k c).1.bidCost = m.bidCost := by
  unfold Market.elasticOpt
  split
  · exact ⟨rfl, rfl, rfl⟩
  unfold Market.makeElastic
  split
  · exact ⟨rfl, rfl, rfl⟩
  · split
    · exact ⟨rfl, rfl, rfl⟩
    · generalize deficitVariables _ _ = d
      split
      · exact ⟨rfl, rfl, rfl⟩
      · cases hd : d.1.isEmpty <;> simp [hd]

/-- two markets that are alike but for the eased set `k` -/
def EasedR (k : CKey) (r R : Res) : Prop := AlikeR k r R ∧ R.1.bidCost = r.1.bidCost ∧ EasedAt k r.1 R.1

theorem EasedR.elastic {k : CKey} {m m' : Market} (h : Alike k m m') (hb : m'.bidCost = m.bidCost) (he : EasedAt k m m') (c : Option VCost) :
    EasedR k (m.elasticOpt k c) (m'.elasticOpt k c) := by
  refine ⟨elasticOpt_alike h k c, ?_, ?_⟩
  · rw [(elasticOpt_rhs m k c).2.2, (elasticOpt_rhs m' k c).2.2, hb]
  · unfold EasedAt
    rw [(elasticOpt_rhs m k c).1, (elasticOpt_rhs m' k c).1, (elasticOpt_rhs m k c).2.1, (elasticOpt_rhs m' k c).2.1]
    exact he

theorem eased_unitSet (a : Market) (k : CKey) {t T : List Row × List ConUnit} (h1 : List.Forall₂ Row.easier t.1 T.1) (h2 : T.2 = t.2)
    (c : Option VCost) : EasedR k ((a.addUnitSet k t).andThen (fun m => m.elasticOpt k c)) ((a.addUnitSet k T).andThen (fun m => m.elasticOpt k c)) := by
  have hA := unitSet_alike' (.refl k a) k (t := t) (T := T) (fun e => absurd rfl e) (forall₂_easier_noRhs h1) h2
  have key : ∀ t : List Row × List ConUnit, (a.addUnitSet k t).1.conRhs.get? k = some t.1 ∧ (a.addUnitSet k t).1.mktRhs = a.mktRhs ∧
      (a.addUnitSet k t).1.bidCost = a.bidCost := by
    intro t
    unfold Market.addUnitSet; dsimp only; split <;> simp [Dict.get?_set_self]
  have hb : (a.addUnitSet k T).1.bidCost = (a.addUnitSet k t).1.bidCost := by rw [(key T).2.2, (key t).2.2]
  have he : EasedAt k (a.addUnitSet k t).1 (a.addUnitSet k T).1 := by
    refine ⟨fun rows hr => ⟨T.1, (key T).1, ?_⟩, fun rows hr => ⟨rows, ?_, forall₂_easier_refl _⟩⟩
    · rw [(key t).1] at hr; injection hr with hr; subst hr; exact h1
    · rw [(key t).2.1] at hr; rw [(key T).2.1, hr]
  unfold Res.andThen
  rw [hA.2]
  split
  · exact .elastic hA.1 hb he c
  · exact ⟨hA.1.same _, hb, he⟩

theorem eased_regSet (a : Market) (k : CKey) {t T : List Row × List ConReg} (h1 : List.Forall₂ Row.easier t.1 T.1) (h2 : T.2 = t.2)
    (c : Option VCost) : EasedR k ((a.addRegSet k t).andThen (fun m => m.elasticOpt k c)) ((a.addRegSet k T).andThen (fun m => m.elasticOpt k c)) := by
  have hA := regSet_alike' (.refl k a) k (t := t) (T := T) (fun e => absurd rfl e) (forall₂_easier_noRhs h1) h2
  have key : ∀ t : List Row × List ConReg, (a.addRegSet k t).1.mktRhs.get? k = some t.1 ∧ (a.addRegSet k t).1.conRhs = a.conRhs ∧
      (a.addRegSet k t).1.bidCost = a.bidCost := by
    intro t
    unfold Market.addRegSet; dsimp only; split <;> simp [Dict.get?_set_self]
  have hb : (a.addRegSet k T).1.bidCost = (a.addRegSet k t).1.bidCost := by rw [(key T).2.2, (key t).2.2]
  have he : EasedAt k (a.addRegSet k t).1 (a.addRegSet k T).1 := by
    refine ⟨fun rows hr => ⟨rows, ?_, forall₂_easier_refl _⟩, fun rows hr => ⟨T.1, (key T).1, ?_⟩⟩
    · rw [(key t).2.1] at hr; rw [(key T).2.1, hr]
    · rw [(key t).1] at hr; injection hr with hr; subst hr; exact h1
  unfold Res.andThen
  rw [hA.2]
  split
  · exact .elastic hA.1 hb he c
  · exact ⟨hA.1.same _, hb, he⟩

theorem forall₂_saveIndex {α β : Type} {R : α → α → Prop} {Q : β → β → Prop} {l l' : List α} (h : List.Forall₂ R l l') (f : Nat → α → β)
    (hf : ∀ i a b, R a b → Q (f i a) (f i b)) (n : Nat) : List.Forall₂ Q (saveIndex l n f) (saveIndex l' n f) := by
  induction h generalizing n with
  | nil => exact .nil
  | cons h _ ih => exact .cons (hf _ _ _ h) (ih _)

theorem forall₂_map_eq {α β : Type} {R : α → α → Prop} {l l' : List α} (h : List.Forall₂ R l l') (f : α → β) (hf : ∀ a b, R a b → f b = f a) :
    l'.map f = l.map f := by
  induction h with
  | nil => rfl
  | cons h _ ih => rw [List.map_cons, List.map_cons, hf _ _ h, ih]

theorem forall₂_filter {α : Type} {R : α → α → Prop} {l l' : List α} (h : List.Forall₂ R l l') (p : α → Bool) (hp : ∀ a b, R a b → p b = p a) :
    List.Forall₂ R (l.filter p) (l'.filter p) := by
  induction h with
  | nil => exact .nil
  | cons h _ ih =>
    rw [List.filter_cons, List.filter_cons, hp _ _ h]
    split
    · exact .cons h ih
    · exact ih

theorem forall₂_dropDup {α κ : Type} [DecidableEq κ] {R : α → α → Prop} {key : α → κ} {l l' : List α} (h : List.Forall₂ R l l')
    (hk : ∀ a b, R a b → key b = key a) : List.Forall₂ R (dropDup key l) (dropDup key l') := by
  induction h with
  | nil => exact .nil
  | cons h _ ih =>
    unfold dropDup
    rw [hk _ _ h]
    exact .cons h (forall₂_filter ih _ (fun a b r => by rw [hk a b r]))

theorem lims_eased {ls ls' : List Lim} (h : limsLooser ls ls') (n : Nat) :
    List.Forall₂ Row.easier (createConstraints ls n .le).1 (createConstraints ls' n .le).1 ∧
    (createConstraints ls' n .le).2 = (createConstraints ls n .le).2 := by
  refine ⟨forall₂_saveIndex h _ (fun i a b r => ⟨rfl, r.2⟩) n, ?_⟩
  have key : ∀ l : List Lim, (createConstraints l n .le).2 = saveIndex (l.map (fun a => (a.unit, a.service, a.dtype))) n
      (fun i a => ({ cid := i, unit := a.1, service := a.2.1, dtype := a.2.2, coef := 1 } : ConUnit)) := by
    intro l; rw [saveIndex_map]; rfl
  rw [key, key, forall₂_map_eq h _ (fun a b r => by rw [r.1])]

theorem looser_step {a : Market} {op op' : Op} (h : op.looser op') (h1 : (a.step op).2 = none) (h2 : (a.step op').2 = none) :
    ∃ k, k ≠ .interpWeights ∧ Part.set k ∈ op.parts ∧ EasedR k (a.step op) (a.step op') := by
  have hn := step_ok h1
  cases op <;> cases op' <;> first | exact h.elim | skip
  · obtain ⟨rfl, h⟩ := h
    refine ⟨.unitBidCapacity, by simp, by simp [Op.parts], ?_⟩
    simp only [Market.step, hn, Bool.false_eq_true, if_false, Market.setCapacity] at h1 h2 ⊢
    split at h1
    · cases h1
    split at h1
    · cases h1
    split at h2
    · cases h2
    split at h2
    · cases h2
    rename_i c1 c2 c3 c4
    rw [if_neg c1, if_neg c2, if_neg c3, if_neg c4]
    obtain ⟨e1, e2⟩ := lims_eased h a.nextCon
    exact eased_unitSet a _ (t := capacityConstraints _ a.nextCon a.bidi) (T := capacityConstraints _ a.nextCon a.bidi) e1
      (by unfold capacityConstraints; dsimp only; rw [e2]) _
  · obtain ⟨rfl, h⟩ := h
    refine ⟨.uigf, by simp, by simp [Op.parts], ?_⟩
    simp only [Market.step, hn, Bool.false_eq_true, if_false, Market.setUigf] at h1 h2 ⊢
    split at h1
    · cases h1
    split at h1
    · cases h1
    split at h2
    · cases h2
    split at h2
    · cases h2
    rename_i c1 c2 c3 c4
    rw [if_neg c1, if_neg c2, if_neg c3, if_neg c4]
    obtain ⟨e1, e2⟩ := lims_eased h a.nextCon
    exact eased_unitSet a _ (t := uigfConstraints _ a.nextCon) (T := uigfConstraints _ a.nextCon) e1 e2 _
  · obtain ⟨rfl, h⟩ := h
    refine ⟨.fcas, by simp, by simp [Op.parts], ?_⟩
    simp only [Market.step, hn, Bool.false_eq_true, if_false, Market.setFcasReq] at h1 h2 ⊢
    split at h1
    · cases h1
    split at h2
    · cases h2
    rename_i c1 c2
    rw [if_neg c1, if_neg c2]
    have e1 := forall₂_saveIndex (Q := Row.easier) (forall₂_dropDup (key := FcasReq.set) h (fun a b r => by rw [r.1]))
      (fun i r => ({ cid := i, ctype := r.ctype, rhs := r.volume, set := some r.set } : Row))
      (fun i a b r => ⟨by rw [r.1]; rfl, r.2⟩) a.nextCon
    refine eased_regSet a _ (t := fcasConstraints _ a.nextCon) (T := fcasConstraints _ a.nextCon) e1 ?_ _
    have key : ∀ rs : List FcasReq, (fcasConstraints rs a.nextCon).2 = (rs.map (fun r => (r.set, r.region, r.service))).flatMap (fun r =>
        (((fcasRows rs a.nextCon).map Row.noRhs).filter (fun t => decide (t.set = some r.1))).map (fun t =>
          ({ cid := t.cid, region := r.2.1, service := r.2.2, coef := 1 } : ConReg))) := by
      intro rs
      unfold fcasConstraints
      simp only [List.flatMap_map, List.filter_map, List.map_map, Function.comp_def]
      rfl
    rw [key, key, forall₂_map_eq h (fun r => (r.set, r.region, r.service)) (fun a b r => by rw [r.1])]
    have e2 := forall₂_easier_noRhs e1
    unfold fcasRows
    rw [e2]
  · obtain ⟨rfl, h⟩ := h
    refine ⟨.fcasMaxAvail, by simp, by simp [Op.parts], ?_⟩
    simp only [Market.step, hn, Bool.false_eq_true, if_false, Market.setFcasMaxAvail] at h1 h2 ⊢
    split at h1
    · cases h1
    split at h2
    · cases h2
    rename_i c1 c2
    rw [if_neg c1, if_neg c2]
    obtain ⟨e1, e2⟩ := lims_eased h a.nextCon
    exact eased_unitSet a _ (t := fcasMaxAvailConstraints _ a.nextCon) (T := fcasMaxAvailConstraints _ a.nextCon) e1 e2 _
  · obtain ⟨rfl, h⟩ := h
    refine ⟨.generic, by simp, by simp [Op.parts], ?_⟩
    simp only [Market.step, hn, Bool.false_eq_true, if_false] at h1 h2 ⊢
    refine ⟨generic_alike' (.refl .generic a) (fun e => absurd rfl e)
      (forall₂_map_eq h (fun r => (r.set, r.ctype)) (fun a b r => by rw [r.1])) _, ?_⟩
    have key : ∀ (g : List GenericRow) (vc : Option VCost), (a.setGeneric g vc).2 = none → (a.setGeneric g vc).1.conRhs.get? .generic =
        some (saveIndex g a.nextCon (fun i g => ({ cid := i, ctype := g.ctype, rhs := g.rhs, set := some g.set } : Row))) ∧
        (a.setGeneric g vc).1.mktRhs = a.mktRhs ∧ (a.setGeneric g vc).1.bidCost = a.bidCost := by
      intro g vc h
      unfold Market.setGeneric at h ⊢
      split at h
      · cases h
      rename_i c
      rw [if_neg c]
      dsimp only
      rw [(elasticOpt_rhs ..).1, (elasticOpt_rhs ..).2.1, (elasticOpt_rhs ..).2.2]
      split <;> simp [Dict.get?_set_self]
    obtain ⟨k1, k2, k3⟩ := key _ _ h1
    obtain ⟨l1, l2, l3⟩ := key _ _ h2
    refine ⟨by rw [k3, l3], ?_⟩
    unfold EasedAt
    rw [k1, k2, l1, l2]
    refine ⟨fun rows hr => ⟨_, rfl, ?_⟩, fun rows hr => ⟨rows, hr, forall₂_easier_refl _⟩⟩
    injection hr with hr
    subst hr
    exact forall₂_saveIndex h _ (fun i a b r => ⟨by rw [r.1]; rfl, r.2⟩) _

/-- what the calls of C108 leave -/
theorem looser_eased {op op' : Op} {m m' : Market} (h : OneCall [] op op' m m') (hl : op.looser op') :
    ∃ k, k ≠ .interpWeights ∧ Alike k m m' ∧ m'.bidCost = m.bidCost ∧ EasedAt k m m' := by
  obtain ⟨r, u, di, m0, before, after, h0, _, _, h1, h2, ha, rfl, rfl⟩ := h
  rw [run_append, run_append, run_cons, run_cons]
  generalize m0.run before = a at *
  obtain ⟨k, hk, hp, hA, hB, hE⟩ := looser_step hl h1 h2
  obtain ⟨i1, i2⟩ := run_alike_same hA.1 hB after
  refine ⟨k, hk, i1, i2, ?_⟩
  have s1 : SameSet k (a.step op).1 ((a.step op).1.run after) := part_run (p := .set k) (fun o ho => ha o ho _ (by simp [hp]))
  have s2 : SameSet k (a.step op').1 ((a.step op').1.run after) := part_run (p := .set k) (fun o ho => ha o ho _ (by simp [hp]))
  unfold EasedAt
  rw [s1.conRhs, s2.conRhs, s1.mktRhs, s2.mktRhs]
  exact hE

/-- **C108**, schedules.  If limits are loosened, every schedule that was feasible remains so. -/
theorem C108_feasible {op op' : Op} {m m' : Market} (h : OneCall [] op op' m m') (hl : op.looser op') {lp lp' : Lp}
    (ha : m.assemble = .ok lp) (ha' : m'.assemble = .ok lp') {x : Nat → ℚ} (hx : Feasible lp x) : Feasible lp' x := by
  obtain ⟨k, hk, hA, _, hE⟩ := looser_eased h hl
  have hw := h.first.inForce.reached.wf.con
  have hw' := h.second.inForce.reached.wf.con
  obtain ⟨e1, e2, e3, _⟩ := hA.lp hw hw' ha ha'
  refine ⟨by rw [e1]; exact hx.vars, ?_, by rw [e2]; exact hx.sos2, by rw [e3]; exact hx.sos1⟩
  intro r' hr'
  obtain ⟨r, hr, c1, c2, c3, c4⟩ := (hA.symm.lp hw' hw ha' ha).2.2.2 r' hr'
  have hold := hx.rows r hr
  have hall' := (lpRow ha' hr').2.1
  by_cases hro : m.rowOf k r.cid
  · obtain ⟨R, hR, R', hR', i1, i2⟩ : ∃ R : Row, (R.cid, R.ctype, Rhs.const R.rhs) ∈ m.allRows ∧ ∃ R' : Row,
        (R'.cid, R'.ctype, Rhs.const R'.rhs) ∈ m'.allRows ∧ R.cid = r.cid ∧ R.easier R' := by
      have pick : ∀ {rows rows' : List Row}, List.Forall₂ Row.easier rows rows' → ∀ R ∈ rows, ∃ R' ∈ rows', R.easier R' := by
        intro rows rows' hf
        induction hf with
        | nil => intro R hR; cases hR
        | cons h _ ih =>
          intro R hR
          rcases List.mem_cons.1 hR with rfl | hR
          · exact ⟨_, List.mem_cons_self .., h⟩
          · obtain ⟨R', h1, h2⟩ := ih R hR
            exact ⟨R', List.mem_cons_of_mem _ h1, h2⟩
      rcases hro with ⟨rows, g1, R, g2, g3⟩ | ⟨rows, g1, R, g2, g3⟩ | ⟨g1, _⟩
      · obtain ⟨rows', f1, f2⟩ := hE.1 rows g1
        obtain ⟨R', f3, f4⟩ := pick f2 R g2
        exact ⟨R, conRow_mem g1 g2, R', conRow_mem f1 f3, g3, f4⟩
      · obtain ⟨rows', f1, f2⟩ := hE.2 rows g1
        obtain ⟨R', f3, f4⟩ := pick f2 R g2
        exact ⟨R, mktRow_mem g1 g2, R', mktRow_mem f1 f3, g3, f4⟩
      · exact absurd g1 hk
    have hc : R'.cid = R.cid := by
      have := congrArg Row.cid i2.1
      simpa only [Row.noRhs] using this
    rw [i1] at hR
    rw [hc, i1, c1] at hR'
    obtain ⟨u1, u2⟩ := unique_row hw (lpRow ha hr).2.1 hR
    obtain ⟨v1, v2⟩ := unique_row hw' hall' hR'
    have hez := i2.2
    unfold LRow.holds at hold ⊢
    rw [← c2, ← c3, v2]
    rw [u2] at hold
    rw [← u1] at hez
    revert hold hez
    cases r.ctype <;> simp only [CType.holds, CType.easier, Rhs.eval] <;> intro p q <;> first | exact p | linarith
  · obtain ⟨r2, hr2, d1, d2, d3, d4⟩ := (hA.lp hw hw' ha ha').2.2.2 r hr
    rw [d4 hro] at hr2
    have hm := (lpRow ha' hr2).2.1
    rw [c1] at hm
    obtain ⟨_, v2⟩ := unique_row hw' hall' hm
    unfold LRow.holds at hold ⊢
    rw [← c2, ← c3, v2]
    exact hold

/-- **C108**, cost.  If limits are loosened, the cost of the dispatch does not rise. -/
theorem C108_cost {op op' : Op} {m m' : Market} (h : OneCall [] op op' m m') (hl : op.looser op') {lp lp' : Lp}
    (ha : m.assemble = .ok lp) (ha' : m'.assemble = .ok lp') {x x' : Nat → ℚ} (hx : Optimal lp x) (hx' : Optimal lp' x') :
    lp'.cost x' ≤ lp.cost x := by
  obtain ⟨k, _, hA, hB, _⟩ := looser_eased h hl
  rw [← alike_cost hA hB ha ha']
  exact hx'.2 x (C108_feasible h hl ha ha' hx.1)

/-! ### Instances -/

/-- call number `i` succeeds in both scenarios and later calls leave its parts and `keep` alone -/
def Case.differs (s t : Case) (i : Nat) (keep : List Part) : Bool :=
  match Market.init s.regions s.units s.di, s.hist[i]?, t.hist[i]? with
  | .ok m0, some op, some op' => decide (((m0.run (s.hist.take i)).step op).2 = none) && decide (((m0.run (s.hist.take i)).step op').2 = none) &&
      decide (∀ o ∈ s.hist.drop (i + 1), ∀ p ∈ keep ++ op.parts ++ op'.parts, p ∉ o.parts)
  | _, _, _ => false

theorem Case.oneCall {s t : Case} {m m' : Market} (h : s.final = some m) (h' : t.final = some m') (i : Nat) (op op' : Op) (keep : List Part)
    (e : t.regions = s.regions ∧ t.units = s.units ∧ t.di = s.di) (ho : s.hist[i]? = some op) (ho' : t.hist[i]? = some op')
    (ht : t.hist.take i = s.hist.take i) (hd : t.hist.drop (i + 1) = s.hist.drop (i + 1)) (hh : s.differs t i keep = true) :
    OneCall keep op op' m m' := by
  unfold Case.final at h h'
  unfold Case.differs at hh
  rw [e.1, e.2.1, e.2.2] at h'
  cases hm : Market.init s.regions s.units s.di with
  | error e => rw [hm] at h; cases h
  | ok m0 =>
    rw [hm] at h h' hh
    simp only [ho, ho', Bool.and_eq_true, decide_eq_true_eq] at hh
    simp only at h h'
    split at h
    · rename_i hb
      split at h'
      · rename_i hb'
        injection h with h
        injection h' with h'
        have e1 : s.hist = s.hist.take i ++ op :: s.hist.drop (i + 1) := by
          obtain ⟨hlt, e⟩ := List.getElem?_eq_some_iff.1 ho
          conv_lhs => rw [← List.take_append_drop i s.hist, List.drop_eq_getElem_cons hlt, e]
        have e2 : t.hist = s.hist.take i ++ op' :: s.hist.drop (i + 1) := by
          obtain ⟨hlt, e⟩ := List.getElem?_eq_some_iff.1 ho'
          rw [← ht, ← hd]
          conv_lhs => rw [← List.take_append_drop i t.hist, List.drop_eq_getElem_cons hlt, e]
        exact ⟨s.regions, s.units, s.di, m0, _, _, hm, by rw [← e1]; exact benignB_iff.1 hb, by rw [← e2]; exact benignB_iff.1 hb',
          hh.1.1, hh.1.2, hh.2, by rw [← e1]; exact h.symm, by rw [← e2]; exact h'.symm⟩
      · cases h'
    · cases h

theorem Case.noLosses {s : Case} {m : Market} (h : s.final = some m) (hp : ∀ o ∈ s.hist, Part.set .interpWeights ∉ o.parts) : NoLosses m := by
  unfold Case.final at h
  cases hm : Market.init s.regions s.units s.di with
  | error e => rw [hm] at h; cases h
  | ok m0 =>
    rw [hm] at h
    simp only at h
    split at h
    · rename_i hb
      injection h with h
      exact ⟨_, _, _, m0, s.hist, hm, benignB_iff.1 hb, hp, h.symm⟩
    · cases h

def compPrices (p : ℚ) : List BidRow := [{ unit := "A", bands := [("1", p)] }, { unit := "B", bands := [("1", 50)] }]
def compDemand (d : ℚ) : List Demand := [{ region := "NSW", demand := d }]

/-- unit A with the price `p` and the capacity `cap`, unit B with the price 50 -/
def compCase (cap p d : ℚ) (sol : List ℚ) : Case where
  regions := ["NSW"]
  units := [{ unit := "A", region := "NSW" }, { unit := "B", region := "NSW" }]
  hist := [.volumeBids [{ unit := "A", bands := [("1", 100)] }, { unit := "B", bands := [("1", 100)] }],
    .capacity [{ unit := "A", val := cap }] none, .priceBids (compPrices p), .demand (compDemand d) none]
  sol := sol

/-- instance of C106: demand rises from 50 MW to 80 MW and the price from 20 to 50 -/
example : ∃ m m' lp lp' o o' S S', OneCall [] (.demand (compDemand 50) none) (.demand (compDemand 80) none) m m' ∧ NoLosses m ∧ NoLosses m' ∧
    m.dispatch S none = .ok o ∧ m'.dispatch S' none = .ok o' ∧ m.assemble = .ok lp ∧ m'.assemble = .ok lp' ∧
    ShadowPrices (m.linear S o.x lp) (compCase 60 20 50 [50, 0]).x o.price ∧
    ShadowPrices (m'.linear S' o'.x lp') (compCase 60 20 80 [60, 20]).x o'.price ∧
    m.energyPrices o.price = .ok [("NSW", 20)] ∧ m'.energyPrices o'.price = .ok [("NSW", 50)] := by
  have h : (compCase 60 20 50 [50, 0]).shadow [0, 20] (fun m => decide (m.energyPrices (fun c => [0, 20].getD c 0) = .ok [("NSW", 20)])) = true := by
    decide +kernel
  have h' : (compCase 60 20 80 [60, 20]).shadow [-30, 50] (fun m => decide (m.energyPrices (fun c => [-30, 50].getD c 0) = .ok [("NSW", 50)])) = true := by
    decide +kernel
  obtain ⟨m, lp, o, h0, h1, h2, h3, h4, h5, h6⟩ := Case.shadow_spec h
  obtain ⟨m', lp', o', k0, k1, k2, k3, k4, k5, k6⟩ := Case.shadow_spec h'
  have hone := Case.oneCall h0 k0 3 (.demand (compDemand 50) none) (.demand (compDemand 80) none) [] ⟨rfl, rfl, rfl⟩ rfl rfl rfl rfl (by decide +kernel)
  exact ⟨m, m', lp, lp', o, o', _, _, hone, Case.noLosses h0 (by decide +kernel), Case.noLosses k0 (by decide +kernel), h2, k2, h1, k1, h5, k5,
    h4 ▸ of_decide_eq_true h6, k4 ▸ of_decide_eq_true k6⟩

def compBid : BidVar := { unit := "A", band := "1", service := .energy, dtype := .generator, vid := 0, ub := 100 }

/-- instance of C107: unit A raises its price from 20 to 70 and is dispatched at 0 MW instead of 60 MW -/
example : ∃ m m' lp lp' b, OneCall [.bids, .set .tieBreak] (.priceBids (compPrices 20)) (.priceBids (compPrices 70)) m m' ∧
    BandsUnique (compPrices 20) ∧ BandsUnique (compPrices 70) ∧ m.assemble = .ok lp ∧ m'.assemble = .ok lp' ∧
    Optimal lp (compCase 60 20 80 [60, 20]).x ∧ Optimal lp' (compCase 60 70 80 [0, 80]).x ∧ b ∈ m.bids.getD [] ∧
    (priceOf (compPrices 20) b.unit b.service b.dtype b.band = some 20 ∧ priceOf (compPrices 70) b.unit b.service b.dtype b.band = some 70) ∧
    ((m.bids.getD []).map (fun a => (a.unit, a.service, a.dtype, a.band))).Nodup ∧ m.lists b.unit b.dtype ∧
    ∀ a ∈ m.bids.getD [], a.price (compPrices 70) m = a.price (compPrices 20) m + if a.unit = "A" ∧ a.service = .energy ∧ a.dtype = .generator then 50 else 0 := by
  have h : (compCase 60 20 80 [60, 20]).best [50, -30] (fun m => decide (compBid ∈ m.bids.getD [] ∧
      ((m.bids.getD []).map (fun a => (a.unit, a.service, a.dtype, a.band))).Nodup ∧ m.lists "A" .generator ∧
      ∀ a ∈ m.bids.getD [], a.price (compPrices 70) m = a.price (compPrices 20) m + if a.unit = "A" ∧ a.service = .energy ∧ a.dtype = .generator then 50 else 0)) = true := by
    decide +kernel
  have h' : (compCase 60 70 80 [0, 80]).best [50, 0] (fun _ => true) = true := by decide +kernel
  obtain ⟨m, lp, h0, h1, h2, h3⟩ := Case.optimal h
  obtain ⟨m', lp', k0, k1, k2, _⟩ := Case.optimal h'
  have hone := Case.oneCall h0 k0 2 (.priceBids (compPrices 20)) (.priceBids (compPrices 70)) [.bids, .set .tieBreak] ⟨rfl, rfl, rfl⟩ rfl rfl rfl rfl
    (by decide +kernel)
  obtain ⟨a1, a2, a3, a4⟩ := of_decide_eq_true h3
  exact ⟨m, m', lp, lp', compBid, hone, by unfold BandsUnique; decide +kernel, by unfold BandsUnique; decide +kernel, h1, k1, h2, k2, a1,
    by decide +kernel, a2, a3, a4⟩

/-- instance of C108: the capacity of unit A rises from 40 MW to 60 MW and the cost falls from 2800 to 2200 -/
example : ∃ m m' lp lp', OneCall [] (.capacity [{ unit := "A", val := 40 }] none) (.capacity [{ unit := "A", val := 60 }] none) m m' ∧
    Op.looser (.capacity [{ unit := "A", val := 40 }] none) (.capacity [{ unit := "A", val := 60 }] none) ∧
    m.assemble = .ok lp ∧ m'.assemble = .ok lp' ∧ Optimal lp (compCase 40 20 80 [40, 40]).x ∧ Optimal lp' (compCase 60 20 80 [60, 20]).x ∧
    lp.cost (compCase 40 20 80 [40, 40]).x = 2800 ∧ lp'.cost (compCase 60 20 80 [60, 20]).x = 2200 := by
  have h : (compCase 40 20 80 [40, 40]).best [50, -30] (fun m => match m.assemble with
      | .ok lp => decide (lp.cost (compCase 40 20 80 [40, 40]).x = 2800)
      | .error _ => false) = true := by decide +kernel
  have h' : (compCase 60 20 80 [60, 20]).best [50, -30] (fun m => match m.assemble with
      | .ok lp => decide (lp.cost (compCase 60 20 80 [60, 20]).x = 2200)
      | .error _ => false) = true := by decide +kernel
  obtain ⟨m, lp, h0, h1, h2, h3⟩ := Case.optimal h
  obtain ⟨m', lp', k0, k1, k2, k3⟩ := Case.optimal h'
  rw [h1] at h3
  rw [k1] at k3
  have hone := Case.oneCall h0 k0 1 (.capacity [{ unit := "A", val := 40 }] none) (.capacity [{ unit := "A", val := 60 }] none) [] ⟨rfl, rfl, rfl⟩ rfl rfl rfl rfl
    (by decide +kernel)
  refine ⟨m, m', lp, lp', hone, ⟨rfl, .cons ⟨rfl, ?_⟩ .nil⟩, h1, k1, h2, k2, of_decide_eq_true h3, of_decide_eq_true k3⟩
  show (40 : ℚ) ≤ 60
  norm_num

end Verif
