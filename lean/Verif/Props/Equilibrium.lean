import Verif.Spec.Equilibrium
import Verif.Props.PriceCap

/-!
# C103: no unit gains from another schedule at the market prices
-/

namespace Verif

/-- complementary slackness, row by row -/
theorem ShadowPrices.slack_row {lp : Lp} {x p : Nat → ℚ} (h : ShadowPrices lp x p) {r : LRow} (hr : r ∈ lp.rows) :
    p r.cid * (linVal x r.coefs - r.rhs.eval x) = 0 := by
  have h0 := h.slack
  have hn : ∀ q ∈ lp.rows, 0 ≤ p q.cid * (linVal x q.coefs - q.rhs.eval x) :=
    fun q hq => CType.pays (h.ge q hq) (h.le q hq) (h.feasible.rows q hq)
  obtain ⟨a, b, e⟩ := List.append_of_mem hr
  rw [e] at h0 hn
  simp only [List.map_append, List.map_cons, List.sum_append, List.sum_cons] at h0
  have h1 := sum_map_nonneg a (fun q => p q.cid * (linVal x q.coefs - q.rhs.eval x)) (fun q hq => hn q (by simp [hq]))
  have h2 := sum_map_nonneg b (fun q => p q.cid * (linVal x q.coefs - q.rhs.eval x)) (fun q hq => hn q (by simp [hq]))
  have h3 := hn r (by simp)
  linarith

/-- the cost of a point that respects all rows but the rows `R`: what it changes in these rows is worth its price -/
theorem shadow_rows {m : Market} (hw : ConWF m) {lp lin : Lp} (hl : m.assemble = .ok lp) (hrows : lin.rows = lp.rows)
    {R : List Row} (hn : (R.map Row.cid).Nodup) (hin : ∀ r ∈ R, (r.cid, r.ctype, Rhs.const r.rhs) ∈ m.allRows ∧ r.cid ∈ lp.rows.map LRow.cid)
    {x p : Nat → ℚ} (hs : ShadowPrices lin x p) {y : Nat → ℚ} (hv : ∀ v ∈ lin.vars, v.holds y)
    (hy : ∀ r ∈ lin.rows, r.cid ∉ R.map Row.cid → r.holds y) :
    lin.cost x ≤ lin.cost y - (R.map (fun r => p r.cid * (rowVal m.terms y r.cid - rowVal m.terms x r.cid))).sum := by
  have hb := hs.bound y hv
  let f : Nat → ℚ := fun c => if c ∈ R.map Row.cid then p c * (rowVal m.terms y c - rowVal m.terms x c) else 0
  have h2 : ((lp.rows.map LRow.cid).map f).sum = ((R.map Row.cid).map f).sum := by
    apply sum_sublist (lpRows_nodup hl) hn
    · intro c hc
      obtain ⟨r, hr', rfl⟩ := List.mem_map.1 hc
      exact (hin r hr').2
    · intro c _ hc
      simp only [f, if_neg hc]
  have h1 : ((R.map Row.cid).map f).sum = (R.map (fun r => p r.cid * (rowVal m.terms y r.cid - rowVal m.terms x r.cid))).sum := by
    rw [List.map_map]
    apply sum_map_congr
    intro r hr
    simp only [f, Function.comp, if_pos (List.mem_map_of_mem (f := Row.cid) hr)]
  have h3 : (lp.rows.map (fun r => f r.cid)).sum ≤ (lp.rows.map (fun r => p r.cid * (linVal y r.coefs - r.rhs.eval y))).sum := by
    apply sum_map_le
    intro r hr'
    have hr'' : r ∈ lin.rows := by rw [hrows]; exact hr'
    by_cases hc : r.cid ∈ R.map Row.cid
    · obtain ⟨e, he, ec⟩ := List.mem_map.1 hc
      have hu := unique_row hw (lpRow hl hr').2.1 (by rw [← ec]; exact (hin e he).1)
      have h4 := hs.slack_row hr''
      rw [lpRow_val hl hr', hu.2] at h4
      rw [lpRow_val hl hr', hu.2]
      simp only [f, if_pos hc]
      simp only [Rhs.eval] at h4 ⊢
      linarith
    · simp only [f, if_neg hc]
      exact CType.pays (hs.ge r hr'') (hs.le r hr'') (hy r hr'' hc)
  rw [List.map_map] at h2
  rw [hrows] at hb
  have h4 : (lp.rows.map (fun r => f r.cid)).sum = ((R.map Row.cid).map f).sum := h2
  linarith

theorem not_rowOf {m : Market} (hw : ConWF m) {k : CKey} (hk : k.isMarket = true) {rows : List Row} (hr : m.mktRhs.get? k = some rows)
    {c : Nat} (hc : c ∉ rows.map Row.cid) : ¬ m.rowOf k c := by
  intro hro
  rcases hro with ⟨rs, h, q, hq, e⟩ | ⟨rs, h, q, hq, e⟩ | ⟨e, _⟩
  · have := hw.conMkt _ (Dict.mem_of_get? h)
    rw [hk] at this; cases this
  · rw [hr] at h; injection h with h; subst h
    exact hc (List.mem_map.2 ⟨q, hq, e⟩)
  · subst e; simp [CKey.isMarket] at hk

theorem Market.onlyUnits.net {m : Market} (hr : Reached m) {us : List String} {x y : Nat → ℚ} (h : m.onlyUnits us x y) {v : Nat}
    (hv : v ∈ m.netRefs ∨ v ∈ m.defVids) : y v = x v := by
  apply h
  rintro b hb _ rfl
  have hav := List.mem_map_of_mem (f := BidVar.vid) hb
  exact hv.elim (hr.net _ hav) (hr.refs.bids hav).2

theorem Market.onlyUnits.dispatched {m : Market} (hr : Reached m) {us : List String} {x y : Nat → ℚ} (h : m.onlyUnits us x y) {u : String}
    (hu : u ∉ us) (s : Service) (d : DType) : m.dispatched y u s d = m.dispatched x u s d := by
  unfold Market.dispatched
  apply sum_map_congr
  intro b hb
  obtain ⟨hb, e⟩ := List.mem_filter.1 hb
  apply h
  intro c hc hcu e2
  have : c = b := List.inj_on_of_nodup_map (bids_nodup hr.wf.var) hc hb e2
  subst this
  exact hu ((of_decide_eq_true e).1 ▸ hcu)

/-- what the change does to a row of a regional constraint set -/
theorem Market.onlyUnits.row {m : Market} (hr : Reached m) {us : List String} {x y : Nat → ℚ} (h : m.onlyUnits us x y) {k : CKey}
    (hk : k.isMarket = true) {rows : List Row} (hrows : m.mktRhs.get? k = some rows) {q : Row} (hq : q ∈ rows) {cs : List ConReg}
    (hcs : m.regCon.get? k = some cs)
    (hg : rowVal (m.genericTermsFor (setIds (m.genericRows k))) y q.cid = rowVal (m.genericTermsFor (setIds (m.genericRows k))) x q.cid) :
    rowVal m.terms y q.cid - rowVal m.terms x q.cid =
      ((cs.filter (fun c => decide (c.cid = q.cid))).map (fun c =>
        c.coef * (m.supply y c.region c.service - m.supply x c.region c.service))).sum := by
  have hw := hr.wf
  have hin : InTab m k q.cid := Or.inr (Or.inr (Or.inr (Or.inl ⟨rows, Dict.mem_of_get? hrows, q, hq, rfl⟩)))
  have h5 : m.unitCon.get? k = none := by
    apply get?_none_of_keys
    rintro e he rfl
    have h' := isUnit_not_market (hw.key.1 e he)
    rw [hk] at h'; cases h'
  have h1 : k ≠ .interpWeights := by rintro rfl; simp [CKey.isMarket] at hk
  have h2 : k ≠ .tieBreak := by rintro rfl; simp [CKey.isMarket] at hk
  rw [rowVal_own hw.con hin, rowVal_own hw.con hin]
  unfold Market.ownTerms
  rw [if_neg h1, if_neg h2, h5, hcs]
  simp only [rowVal_append, rowVal_createLhsReg, Option.getD_some]
  rw [hg]
  have hd : rowVal ((m.deficits.get? k).elim [] (·.2)) y q.cid = rowVal ((m.deficits.get? k).elim [] (·.2)) x q.cid := by
    apply rowVal_agree
    intro t ht
    apply h.net hr
    right
    cases hdf : m.deficits.get? k with
    | none => rw [hdf] at ht; cases ht
    | some d =>
      rw [hdf] at ht
      exact List.mem_flatMap.2 ⟨_, Dict.mem_of_get? hdf, hr.refs.own _ (Dict.mem_of_get? hdf) t ht⟩
  have hreg : ∀ g s, regSum m.regVars y g s - regSum m.regVars x g s = m.supply y g s - m.supply x g s := by
    intro g s
    unfold Market.regVars
    rw [regSum_append, regSum_append, supply_eq hw, regSum_append, regSum_append, supply_eq hw]
    rw [regSum_congr (vs := (m.interReg.getD []).map InterMap.toReg) (x := y) (y := x), regSum_congr (vs := m.lossReg.getD []) (x := y) (y := x)]
    · ring
    · intro v hv
      apply h.net hr
      left
      have h2 := List.mem_map_of_mem (f := VarReg.vid) hv
      unfold Market.netRefs
      simp only [List.mem_append]
      tauto
    · intro v hv
      apply h.net hr
      left
      obtain ⟨i, hi, rfl⟩ := List.mem_map.1 hv
      have h2 : i.vid ∈ (m.inters.getD []).map InterVar.vid := interReg_inters hw hi
      unfold Market.netRefs
      simp only [List.mem_append]
      tauto
  have hz : ∀ z, rowVal (createLhsUnit ((none : Option (List ConUnit)).getD []) (m.bidUnit.getD [])) z q.cid = 0 := fun z => rfl
  rw [hd, hz, hz]
  have : ((cs.filter (fun c => decide (c.cid = q.cid))).map (fun c => c.coef * (m.supply y c.region c.service - m.supply x c.region c.service))).sum =
      ((cs.filter (fun c => decide (c.cid = q.cid))).map (fun c => c.coef * regSum m.regVars y c.region c.service)).sum -
      ((cs.filter (fun c => decide (c.cid = q.cid))).map (fun c => c.coef * regSum m.regVars x c.region c.service)).sum := by
    rw [← sum_map_sub]
    apply sum_map_congr
    intro c _
    rw [← hreg]; ring
  rw [this]
  simp only [rowVal_nil]
  ring

/-- the value of what a change adds to the supply of regions is what the changed units earn more -/
theorem sum_prices {κ : Type} {m : Market} (hr : Reached m) {us : List String} {x y : Nat → ℚ} (h : m.onlyUnits us x y)
    (E : List (κ × ℚ)) (g : κ → String) (s : κ → Service) :
    (E.map (fun e => e.2 * (m.supply y (g e.1) (s e.1) - m.supply x (g e.1) (s e.1)))).sum =
      ((m.units.filter (fun i => decide (i.unit ∈ us))).map (fun i => ((E.filter (fun e => decide (g e.1 = i.region))).map (fun e =>
        e.2 * (i.sign (s e.1) * m.dispatched y i.unit (s e.1) i.dtype))).sum)).sum -
      ((m.units.filter (fun i => decide (i.unit ∈ us))).map (fun i => ((E.filter (fun e => decide (g e.1 = i.region))).map (fun e =>
        e.2 * (i.sign (s e.1) * m.dispatched x i.unit (s e.1) i.dtype))).sum)).sum := by
  rw [← sum_map_sub]
  have e1 : (E.map (fun e => e.2 * (m.supply y (g e.1) (s e.1) - m.supply x (g e.1) (s e.1)))).sum =
      (E.map (fun e => (m.units.map (fun i => if g e.1 = i.region then
        e.2 * (i.sign (s e.1) * (m.dispatched y i.unit (s e.1) i.dtype - m.dispatched x i.unit (s e.1) i.dtype)) else 0)).sum)).sum := by
    apply sum_map_congr
    intro e _
    unfold Market.supply
    rw [← sum_map_sub, ← sum_map_mul_left, sum_filter_eq_ite]
    apply sum_map_congr
    intro i _
    by_cases hi : i.region = g e.1
    · simp only [hi, decide_true, if_true, UnitInfo.sign]; ring
    · simp only [hi, Ne.symm hi, decide_false, if_false, Bool.false_eq_true]
  rw [e1, sum_comm, sum_filter_eq_ite]
  apply sum_map_congr
  intro i _
  rw [← sum_map_sub, sum_filter_eq_ite]
  by_cases hu : i.unit ∈ us
  · simp only [hu, decide_true, if_true]
    apply sum_map_congr
    intro e _
    by_cases hi : g e.1 = i.region
    · simp only [hi, decide_true, if_true]; ring
    · simp only [hi, decide_false, if_false, Bool.false_eq_true]
  · simp only [hu, decide_false, if_false, Bool.false_eq_true]
    apply sum_map_zero
    intro e _
    rw [h.dispatched hr hu]
    simp

theorem onlyUnits_cost {ps : List BidRow} {m : Market} (h : InForceKeeping [.bids] (.priceBids ps) m) (hr : Reached m)
    (hb : BandsUnique ps) {lp : Lp} (hl : m.assemble = .ok lp) {us : List String} {x y : Nat → ℚ} (hx : m.onlyUnits us x y) :
    lp.cost y - lp.cost x = m.costOfBids ps y us - m.costOfBids ps x us := by
  rw [C05_objective_is_cost_of_bids h hb hl, C05_objective_is_cost_of_bids h hb hl]
  have h1 : ((m.deficits.flatMap (fun d => d.2.1)).map (fun v => v.cost * y v.vid)).sum =
      ((m.deficits.flatMap (fun d => d.2.1)).map (fun v => v.cost * x v.vid)).sum := by
    apply sum_map_congr
    intro v hv
    rw [hx.net hr]
    right
    obtain ⟨d, hd, hv⟩ := List.mem_flatMap.1 hv
    exact List.mem_flatMap.2 ⟨d, hd, List.mem_map_of_mem hv⟩
  have h2 : ((m.bids.getD []).map (fun b => costOf ps m.units b.unit b.service b.dtype b.band * y b.vid)).sum -
      ((m.bids.getD []).map (fun b => costOf ps m.units b.unit b.service b.dtype b.band * x b.vid)).sum =
      m.costOfBids ps y us - m.costOfBids ps x us := by
    unfold Market.costOfBids
    rw [← sum_map_sub, ← sum_map_sub, sum_filter_eq_ite]
    apply sum_map_congr
    intro b hbm
    by_cases hu : b.unit ∈ us
    · simp only [hu, decide_true, if_true, BidVar.price]
    · simp only [hu, decide_false, if_false, Bool.false_eq_true]
      rw [hx b.vid, sub_self]
      intro c hc hcu e2
      have : c = b := List.inj_on_of_nodup_map (bids_nodup hr.wf.var) hc hbm e2
      subst this
      exact hu hcu
  rw [h1]
  linarith

theorem sum_region (rows : List Row) (h : ∀ r ∈ rows, ∃ g, r.region = some g) (p : Nat → ℚ) (F : String → ℚ) :
    ((rows.filterMap (fun r => r.region.map (fun g => (g, p r.cid)))).map (fun e => e.2 * F e.1)).sum =
      (rows.map (fun r => p r.cid * F (r.region.getD ""))).sum := by
  induction rows with
  | nil => rfl
  | cons r rows ih =>
    obtain ⟨g, hg⟩ := h r (by simp)
    rw [List.filterMap_cons_some (b := (g, p r.cid)) (by simp [hg])]
    simp only [List.map_cons, List.sum_cons, ih (fun q hq => h q (by simp [hq])), hg, Option.getD_some]

theorem energy_part {ds : List Demand} {m : Market} {n : Nat} (ht1 : m.mktRhs.get? .demand = some (energyConstraints ds n).1)
    (ht2 : m.regCon.get? .demand = some (energyConstraints ds n).2) (hr : Reached m) {us : List String} {x y : Nat → ℚ}
    (hx : m.onlyUnits us x y) {p : Nat → ℚ} {energy : List (String × ℚ)} (he : m.energyPrices p = .ok energy) :
    ((energyConstraints ds n).1.map (fun r => p r.cid * (rowVal m.terms y r.cid - rowVal m.terms x r.cid))).sum =
      m.energyRevenue energy y us - m.energyRevenue energy x us := by
  unfold Market.energyPrices at he
  rw [ht1] at he
  injection he with he
  have := sum_prices hr hx energy (fun g => g) (fun _ => .energy)
  unfold Market.energyRevenue
  rw [← this, ← he]
  rw [sum_region _ _ p (fun g => m.supply y g .energy - m.supply x g .energy)]
  · apply sum_map_congr
    intro r hrm
    rw [hx.row hr rfl ht1 hrm ht2 (by
      unfold Market.genericRows
      simp only [reduceCtorEq, if_false, setIds]
      rw [show (List.filterMap _ [] : List (Nat × String)) = [] from rfl, genericTermsFor_nil]; rfl)]
    obtain ⟨i, d, hd, rfl⟩ := mem_saveIndex.1 hrm
    have hf1 : (energyConstraints ds n).2.filter (fun k => decide (k.cid = n + i)) = [⟨n + i, d.region, .energy, 1⟩] :=
      filter_saveIndex ds n (fun i (d : Demand) => ({ cid := i, region := d.region, service := .energy, coef := 1 } : ConReg))
        ConReg.cid (fun _ _ => rfl) hd
    dsimp only
    rw [hf1]
    simp
  · intro r hrm
    obtain ⟨i, d, hd, rfl⟩ := mem_saveIndex.1 hrm
    exact ⟨_, rfl⟩

theorem fcas_part {rs : List FcasReq} {m : Market} {n : Nat} (ht1 : m.mktRhs.get? .fcas = some (fcasConstraints rs n).1)
    (ht2 : m.regCon.get? .fcas = some (fcasConstraints rs n).2) (hr : Reached m) {us : List String} {x y : Nat → ℚ}
    (hx : m.onlyUnits us x y) (hk : ∀ r ∈ rs, m.linked y r.set = m.linked x r.set) {p : Nat → ℚ} {fcas : List ((String × Service) × ℚ)}
    (he : m.fcasPrices p = .ok fcas) :
    ((fcasConstraints rs n).1.map (fun r => p r.cid * (rowVal m.terms y r.cid - rowVal m.terms x r.cid))).sum =
      m.fcasRevenue fcas y us - m.fcasRevenue fcas x us := by
  have hw := hr.wf
  have hnd : ((fcasConstraints rs n).1.map Row.cid).Nodup := rows_nodup hw.con (k := .fcas) (by unfold Market.rowsOf; rw [ht1])
  rw [fcasPrices_of ht2 ht1 hnd] at he
  injection he with he
  have := sum_prices hr hx fcas (fun g => g.1) (fun g => g.2)
  unfold Market.fcasRevenue
  rw [← this, ← he]
  rw [groupSum_weighted (fun c : ConReg => (c.region, c.service)) (fun c => p c.cid) (fun k => m.supply y k.1 k.2 - m.supply x k.1 k.2)]
  rw [sum_by_row (rows := (fcasConstraints rs n).1) (key := Row.cid) (k := ConReg.cid) hnd ?_]
  · apply sum_map_congr
    intro r hrm
    obtain ⟨i, d, hd, rfl⟩ := mem_saveIndex.1 hrm
    have hmem : d ∈ rs := by
      obtain ⟨a, b, e, _⟩ := mem_dropDup_first.1 (List.mem_of_getElem? hd)
      rw [e]; simp
    rw [hx.row hr rfl ht1 hrm ht2 (by
      unfold Market.genericRows
      simp only [reduceCtorEq, if_false, if_true, ht1]
      simp only [Option.getD_some]
      rw [rowVal_genericTermsFor hw hnd hrm rfl, rowVal_genericTermsFor hw hnd hrm rfl]
      exact hk d hmem)]
    rw [← sum_map_mul_left]
    apply sum_map_congr
    intro c hc
    obtain ⟨hc, e⟩ := List.mem_filter.1 hc
    obtain ⟨q, hq, ht⟩ := List.mem_flatMap.1 hc
    obtain ⟨t, ht', rfl⟩ := List.mem_map.1 ht
    have := of_decide_eq_true e
    dsimp only at this ⊢
    rw [this]; ring
  · intro c hc
    obtain ⟨q, hq, ht⟩ := List.mem_flatMap.1 hc
    obtain ⟨t, ht', rfl⟩ := List.mem_map.1 ht
    exact List.mem_map.2 ⟨t, (List.mem_filter.1 ht').1, rfl⟩

/-- **C103, energy.**  At the reported energy prices no unit, and no group of units, would gain from another schedule: when the
prices the solver reports for the linear model are shadow prices at its solution `xl`, and `y` differs from `xl` only in the dispatch of
the units `us` and respects all constraints other than the balance of the regions, then what the units earn at the energy prices less
the cost of their bids is with `y` at most what it is with `xl`. -/
theorem C103_energy {ds : List Demand} {ps : List BidRow} {m : Market} (hds : DemandSet ds m)
    (hps : InForceKeeping [.bids] (.priceBids ps) m) (hb : BandsUnique ps)
    {S : Solver} {ocd : Option ReRun} {o : Outcome} (ho : m.dispatch S ocd = .ok o) {lp : Lp} (hl : m.assemble = .ok lp)
    {xl : Nat → ℚ} (hs : ShadowPrices (m.linear S o.x lp) xl o.price) {energy : List (String × ℚ)}
    (he : m.energyPrices o.price = .ok energy) {us : List String} {y : Nat → ℚ} (hx : m.onlyUnits us xl y)
    (hy : m.allButSets [.demand] (m.linear S o.x lp) y) :
    m.energyRevenue energy y us - m.costOfBids ps y us ≤ m.energyRevenue energy xl us - m.costOfBids ps xl us := by
  obtain ⟨-, n, ht1, ht2⟩ := hds.tables
  have hr := hps.inForce.reached
  have hw := hr.wf
  obtain ⟨lp', hl', _, hpr, _⟩ := dispatch_parts ho
  rw [hl] at hl'; injection hl' with hl'; subst hl'
  have hb1 := shadow_rows hw.con hl (linear_rows ..) (R := (energyConstraints ds n).1)
    (rows_nodup hw.con (k := .demand) (by unfold Market.rowsOf; rw [ht1]))
    (fun r hr => ⟨mktRow_mem ht1 hr, priced_row hpr ht1 hr⟩) hs hy.1 (by
      intro r hr' hc
      apply hy.2 r hr'
      intro k hk
      simp only [List.mem_singleton] at hk
      subst hk
      exact not_rowOf hw.con rfl ht1 hc)
  rw [energy_part ht1 ht2 hr hx he, linear_cost, linear_cost] at hb1
  have := onlyUnits_cost hps hr hb hl hx
  linarith

/-- **C103, energy and FCAS.**  The same with co-optimised services: `y` may also change what is enabled for FCAS (but not the value
that is linked to the requirement sets by `link_units_to_generic_constraints`), and units are paid for FCAS at the reported FCAS
prices. -/
theorem C103_energy_and_fcas {ds : List Demand} {rs : List FcasReq} {ps : List BidRow} {m : Market} (hds : DemandSet ds m) (hrs : FcasSet rs m)
    (hps : InForceKeeping [.bids] (.priceBids ps) m) (hb : BandsUnique ps)
    {S : Solver} {ocd : Option ReRun} {o : Outcome} (ho : m.dispatch S ocd = .ok o) {lp : Lp} (hl : m.assemble = .ok lp)
    {xl : Nat → ℚ} (hs : ShadowPrices (m.linear S o.x lp) xl o.price) {energy : List (String × ℚ)} {fcas : List ((String × Service) × ℚ)}
    (he : m.energyPrices o.price = .ok energy) (hf : m.fcasPrices o.price = .ok fcas) {us : List String} {y : Nat → ℚ}
    (hx : m.onlyUnits us xl y) (hy : m.allButSets [.demand, .fcas] (m.linear S o.x lp) y)
    (hk : ∀ r ∈ rs, m.linked y r.set = m.linked xl r.set) :
    m.energyRevenue energy y us + m.fcasRevenue fcas y us - m.costOfBids ps y us ≤
      m.energyRevenue energy xl us + m.fcasRevenue fcas xl us - m.costOfBids ps xl us := by
  obtain ⟨-, n, ht1, ht2⟩ := hds.tables
  obtain ⟨-, -, n', ht1', ht2'⟩ := hrs.tables
  have hr := hps.inForce.reached
  have hw := hr.wf
  obtain ⟨lp', hl', _, hpr, _⟩ := dispatch_parts ho
  rw [hl] at hl'; injection hl' with hl'; subst hl'
  have hdis : ∀ a ∈ (energyConstraints ds n).1.map Row.cid, ∀ b ∈ (fcasConstraints rs n').1.map Row.cid, a ≠ b := by
    rintro a ha b hb' rfl
    obtain ⟨r1, h1, rfl⟩ := List.mem_map.1 ha
    obtain ⟨r2, h2, e⟩ := List.mem_map.1 hb'
    obtain ⟨own, ho⟩ := hw.con.own
    have k1 := (ho .demand r1.cid (Or.inr (Or.inr (Or.inr (Or.inl ⟨_, Dict.mem_of_get? ht1, r1, h1, rfl⟩))))).1
    have k2 := (ho .fcas r1.cid (Or.inr (Or.inr (Or.inr (Or.inl ⟨_, Dict.mem_of_get? ht1', r2, h2, e⟩))))).1
    rw [k1] at k2; cases k2
  have hb1 := shadow_rows hw.con hl (linear_rows ..) (R := (energyConstraints ds n).1 ++ (fcasConstraints rs n').1)
    (by
      rw [List.map_append, List.nodup_append]
      exact ⟨rows_nodup hw.con (k := .demand) (by unfold Market.rowsOf; rw [ht1]),
        rows_nodup hw.con (k := .fcas) (by unfold Market.rowsOf; rw [ht1']), hdis⟩)
    (by
      intro r hr
      rcases List.mem_append.1 hr with hr | hr
      · exact ⟨mktRow_mem ht1 hr, priced_row hpr ht1 hr⟩
      · exact ⟨mktRow_mem ht1' hr, priced_row hpr ht1' hr⟩) hs hy.1 (by
      intro r hr' hc
      rw [List.map_append, List.mem_append, not_or] at hc
      apply hy.2 r hr'
      intro k hk
      simp only [List.mem_cons, List.not_mem_nil, or_false] at hk
      rcases hk with rfl | rfl
      · exact not_rowOf hw.con rfl ht1 hc.1
      · exact not_rowOf hw.con rfl ht1' hc.2)
  rw [List.map_append, List.sum_append, energy_part ht1 ht2 hr hx he, fcas_part ht1' ht2' hr hx hk hf, linear_cost, linear_cost] at hb1
  have := onlyUnits_cost hps hr hb hl hx
  linarith

theorem stopped_only (m : Market) (us : List String) (x : Nat → ℚ) : m.onlyUnits us x (m.stopped us x) := by
  intro v hv
  unfold Market.stopped
  rw [if_neg]
  rintro ⟨b, hb, hu, e⟩
  exact hv b hb hu e

theorem stopped_bid {m : Market} {us : List String} {x : Nat → ℚ} {b : BidVar} (hb : b ∈ m.bids.getD []) (hu : b.unit ∈ us) :
    m.stopped us x b.vid = 0 := by
  unfold Market.stopped
  rw [if_pos ⟨b, hb, hu, rfl⟩]

theorem stopped_dispatched {m : Market} {us : List String} {x : Nat → ℚ} {u : String} (hu : u ∈ us) (s : Service) (d : DType) :
    m.dispatched (m.stopped us x) u s d = 0 := by
  unfold Market.dispatched
  apply sum_map_zero
  intro b hb
  obtain ⟨hb, e⟩ := List.mem_filter.1 hb
  exact stopped_bid hb ((of_decide_eq_true e).1.symm ▸ hu)

theorem stopped_zero {m : Market} (ps : List BidRow) (energy : List (String × ℚ)) (fcas : List ((String × Service) × ℚ)) (us : List String) (x : Nat → ℚ) :
    m.energyRevenue energy (m.stopped us x) us = 0 ∧ m.fcasRevenue fcas (m.stopped us x) us = 0 ∧ m.costOfBids ps (m.stopped us x) us = 0 := by
  refine ⟨?_, ?_, ?_⟩
  · unfold Market.energyRevenue
    apply sum_map_zero
    intro i hi
    have hu := of_decide_eq_true (List.mem_filter.1 hi).2
    apply sum_map_zero
    intro e _
    rw [stopped_dispatched hu]; simp
  · unfold Market.fcasRevenue
    apply sum_map_zero
    intro i hi
    have hu := of_decide_eq_true (List.mem_filter.1 hi).2
    apply sum_map_zero
    intro e _
    rw [stopped_dispatched hu]; simp
  · unfold Market.costOfBids
    apply sum_map_zero
    intro b hb
    obtain ⟨hb, e⟩ := List.mem_filter.1 hb
    rw [stopped_bid hb (of_decide_eq_true e), mul_zero]

/-- **C103, cost recovery.**  Units that could be left out without breaking a constraint other than the balance of the regions and the
FCAS requirements earn at least the cost of their bids. -/
theorem C103_cost_recovery {ds : List Demand} {rs : List FcasReq} {ps : List BidRow} {m : Market} (hds : DemandSet ds m) (hrs : FcasSet rs m)
    (hps : InForceKeeping [.bids] (.priceBids ps) m) (hb : BandsUnique ps)
    {S : Solver} {ocd : Option ReRun} {o : Outcome} (ho : m.dispatch S ocd = .ok o) {lp : Lp} (hl : m.assemble = .ok lp)
    {xl : Nat → ℚ} (hs : ShadowPrices (m.linear S o.x lp) xl o.price) {energy : List (String × ℚ)} {fcas : List ((String × Service) × ℚ)}
    (he : m.energyPrices o.price = .ok energy) (hf : m.fcasPrices o.price = .ok fcas) {us : List String}
    (hy : m.allButSets [.demand, .fcas] (m.linear S o.x lp) (m.stopped us xl))
    (hk : ∀ r ∈ rs, m.linked (m.stopped us xl) r.set = m.linked xl r.set) :
    m.costOfBids ps xl us ≤ m.energyRevenue energy xl us + m.fcasRevenue fcas xl us := by
  have h := C103_energy_and_fcas hds hrs hps hb ho hl hs he hf (stopped_only m us xl) hy hk
  obtain ⟨h1, h2, h3⟩ := stopped_zero (m := m) ps energy fcas us xl
  rw [h1, h2, h3] at h
  linarith

/-- Shadow prices at one solution of a program are shadow prices at every feasible point with the same cost. -/
theorem ShadowPrices.at {lp : Lp} {x z p : Nat → ℚ} (h : ShadowPrices lp x p) (hz : Feasible lp z) (hc : lp.cost z ≤ lp.cost x) :
    ShadowPrices lp z p :=
  ⟨hz, h.ge, h.le, fun y hy => hc.trans (h.bound y hy)⟩

/-- **C103, at the dispatch.**  Where the linear model did not find a cheaper solution by mixing segments or directions that the
dispatch excludes (`xl` is feasible for the mixed integer program, which is always so without interconnectors), the prices support the
dispatch itself: C103 holds with `o.x`, the values `get_unit_dispatch` reports, in the place of `xl`. -/
theorem C103_at_dispatch {m : Market} {S : Solver} {o : Outcome} {lp : Lp} {xl : Nat → ℚ}
    (hs : ShadowPrices (m.linear S o.x lp) xl o.price) (ho : Optimal lp o.x) (hf : Feasible (m.linear S o.x lp) o.x) (hx : Feasible lp xl) :
    ShadowPrices (m.linear S o.x lp) o.x o.price := by
  apply hs.at hf
  rw [linear_cost, linear_cost]
  exact ho.2 _ hx

def equilibriumReqs : List FcasReq := [{ set := "R", service := .raise6s, region := "NSW", volume := 30, ctype := .ge }]

def equilibriumPrices : List BidRow := [{ unit := "A", bands := [("1", 10)] }, { unit := "A", service := .raise6s, bands := [("1", 2)] },
  { unit := "B", bands := [("1", 40)] }, { unit := "B", service := .raise6s, bands := [("1", 1)] }]

/-- Two units that offer energy and a service. -/
def equilibriumCase : Case where
  regions := ["NSW"]
  units := [{ unit := "A", region := "NSW" }, { unit := "B", region := "NSW" }]
  hist := [.volumeBids [{ unit := "A", bands := [("1", 100)] }, { unit := "A", service := .raise6s, bands := [("1", 50)] },
      { unit := "B", bands := [("1", 100)] }, { unit := "B", service := .raise6s, bands := [("1", 20)] }],
    .priceBids equilibriumPrices,
    .demand [{ region := "NSW", demand := 120 }] none,
    .fcasReq equilibriumReqs none]
  sol := [100, 10, 20, 20]

/-- the schedule of the instance -/
def otherSchedule (v : Nat) : ℚ := if v = 0 then 50 else if v = 1 then 50 else equilibriumCase.x v

def Market.butChecked (m : Market) (ks : List CKey) (lp : Lp) (y : Nat → ℚ) : Bool :=
  decide (∀ v ∈ lp.vars, v.holds y) &&
  decide (∀ r ∈ lp.rows, r.holds y ∨ ∃ k ∈ ks, ∃ q ∈ (m.mktRhs.get? k).getD [], q.cid = r.cid)

theorem butChecked_spec {m : Market} {ks : List CKey} {lp : Lp} {y : Nat → ℚ} (h : m.butChecked ks lp y = true) : m.allButSets ks lp y := by
  simp only [Market.butChecked, Bool.and_eq_true, decide_eq_true_eq] at h
  refine ⟨h.1, fun r hr hn => (h.2 r hr).resolve_right ?_⟩
  rintro ⟨k, hk, q, hq, e⟩
  refine hn k hk (Or.inr (Or.inl ?_))
  cases hd : m.mktRhs.get? k with
  | none => rw [hd] at hq; cases hq
  | some rows => rw [hd] at hq; exact ⟨rows, rfl, q, hq, e⟩

/-- instance of C103: unit A would produce less energy and offer more of the service -/
example : ∃ m lp o S y, DemandSet [{ region := "NSW", demand := 120 }] m ∧ FcasSet equilibriumReqs m ∧
    InForceKeeping [.bids] (.priceBids equilibriumPrices) m ∧ BandsUnique equilibriumPrices ∧ m.dispatch S none = .ok o ∧
    m.assemble = .ok lp ∧ ShadowPrices (m.linear S o.x lp) equilibriumCase.x o.price ∧ m.energyPrices o.price = .ok [("NSW", 40)] ∧
    m.fcasPrices o.price = .ok [(("NSW", .raise6s), 2)] ∧ m.onlyUnits ["A"] equilibriumCase.x y ∧
    m.allButSets [.demand, .fcas] (m.linear S o.x lp) y ∧ (∀ r ∈ equilibriumReqs, m.linked y r.set = m.linked equilibriumCase.x r.set) ∧
    m.energyRevenue [("NSW", 40)] y ["A"] + m.fcasRevenue [(("NSW", .raise6s), 2)] y ["A"] - m.costOfBids equilibriumPrices y ["A"] = 1500 ∧
    m.energyRevenue [("NSW", 40)] equilibriumCase.x ["A"] + m.fcasRevenue [(("NSW", .raise6s), 2)] equilibriumCase.x ["A"] -
      m.costOfBids equilibriumPrices equilibriumCase.x ["A"] = 3000 := by
  have h : equilibriumCase.shadow [40, 2] (fun m => (match m.assemble with
      | .error _ => false
      | .ok lp => m.butChecked [.demand, .fcas] (m.linear (equilibriumCase.solver [40, 2]) equilibriumCase.x lp) otherSchedule) &&
      decide (m.energyPrices (fun c => [40, 2].getD c 0) = .ok [("NSW", 40)] ∧
      m.fcasPrices (fun c => [40, 2].getD c 0) = .ok [(("NSW", .raise6s), 2)] ∧
      (∃ b ∈ m.bids.getD [], b.unit = "A" ∧ b.vid = 0) ∧ (∃ b ∈ m.bids.getD [], b.unit = "A" ∧ b.vid = 1) ∧
      m.linked otherSchedule "R" = m.linked equilibriumCase.x "R" ∧
      m.energyRevenue [("NSW", 40)] otherSchedule ["A"] + m.fcasRevenue [(("NSW", .raise6s), 2)] otherSchedule ["A"] -
        m.costOfBids equilibriumPrices otherSchedule ["A"] = 1500 ∧
      m.energyRevenue [("NSW", 40)] equilibriumCase.x ["A"] + m.fcasRevenue [(("NSW", .raise6s), 2)] equilibriumCase.x ["A"] -
        m.costOfBids equilibriumPrices equilibriumCase.x ["A"] = 3000)) = true := by decide +kernel
  obtain ⟨m, lp, o, h0, h1, h2, h3, h4, h5, h6⟩ := Case.shadow_spec h
  rw [h1] at h6
  simp only [Bool.and_eq_true] at h6
  obtain ⟨k1, k2⟩ := h6
  obtain ⟨k2, k3, ⟨b0, hb0, u0, v0⟩, ⟨b1, hb1, u1, v1⟩, k4, k5, k6⟩ := of_decide_eq_true k2
  have hf := InForceKeeping.inForce (Case.inForce (s := equilibriumCase) (op := .fcasReq equilibriumReqs none) (i := 3) (keep := []) h0 rfl (by decide +kernel))
  have hd := InForceKeeping.inForce (Case.inForce (s := equilibriumCase) (op := .demand [{ region := "NSW", demand := 120 }] none) (i := 2) (keep := []) h0 rfl (by decide +kernel))
  refine ⟨m, lp, o, _, otherSchedule, hd.demandSet, hf.fcasSet, Case.inForce (i := 1) (keep := [.bids]) h0 rfl (by decide +kernel),
    by unfold BandsUnique; decide +kernel, h2, h1, h5, h4 ▸ k2, h4 ▸ k3, ?_, h3 ▸ butChecked_spec k1, ?_, k5, k6⟩
  · intro v hv
    unfold otherSchedule
    rw [if_neg, if_neg]
    · rintro rfl; exact hv b1 hb1 (by simp [u1]) v1
    · rintro rfl; exact hv b0 hb0 (by simp [u0]) v0
  · intro r hr
    simp only [equilibriumReqs, List.mem_singleton] at hr
    subst hr
    exact k4

end Verif
