import Verif.Props.Marginal
import Verif.Props.Elastic

/-!
# C102: violation prices cap shadow prices
-/

namespace Verif

/-- the column of a violation variable -/
theorem slot_column {m : Market} {k : CKey} {vc : VCost} {n : Nat} (E : ElasticSet m k vc n) {lp : Lp} (hl : m.assemble = .ok lp)
    {s : Slot} (hs : s ∈ slots (m.costed k vc) n) (p : Nat → ℚ) :
    (lp.rows.map (fun r => p r.cid * linVal (unitVec s.vid) r.coefs)).sum = p s.row.cid * s.sg := by
  have hval : ∀ c, rowVal m.terms (unitVec s.vid) c = if c = s.row.cid then s.sg else 0 := by
    intro c
    rw [E.slot_val]
    have h0 : m.originalLhs k (unitVec s.vid) c = 0 := by
      rw [originalLhs_eq]
      apply rowVal_vanish
      intro t ht
      have := inelastic_local E.wf E.refs k ht
      rw [E.vids] at this
      have hne : t.vid ≠ s.vid := by
        intro e
        exact this (e ▸ List.mem_map_of_mem (f := Slot.vid) hs)
      simp [unitVec, hne]
    rw [h0, zero_add, sum_filter_eq_ite]
    have e : ((slots (m.costed k vc) n).map (fun a => if decide (a.row.cid = c) = true then a.sg * unitVec s.vid a.vid else 0)).sum =
        (((slots (m.costed k vc) n).filter (fun a => decide (a.vid = s.vid))).map (fun a => if c = s.row.cid then s.sg else 0)).sum := by
      rw [sum_filter_eq_ite]
      apply sum_map_congr
      intro a ha
      by_cases e : a.vid = s.vid
      · have : a = s := List.inj_on_of_nodup_map (slots_nodup _ _) ha hs e
        subst this
        by_cases e2 : a.row.cid = c
        · simp [e2, unitVec]
        · simp [e2, Ne.symm e2]
      · simp [e, unitVec]
    rw [e]
    rw [filter_key_unique (key := Slot.vid) (slots_nodup _ _) hs]
    simp
  obtain ⟨e, he⟩ : ∃ e ∈ m.elasticRows k vc, s.row = e := by
    obtain ⟨r, hr, e⟩ := List.mem_map.1 (slots_mem hs).1
    injection e with e1 e2
    exact ⟨r, hr, e1.symm⟩
  obtain ⟨r, hr, hrc⟩ := E.reaches hl he.1 hs (by rw [he.2])
  have e1 : (lp.rows.map (fun r => p r.cid * linVal (unitVec s.vid) r.coefs)).sum =
      ((lp.rows.filter (fun q => decide (q.cid = r.cid))).map (fun q => p s.row.cid * s.sg)).sum := by
    rw [sum_filter_eq_ite]
    apply sum_map_congr
    intro q hq
    rw [lpRow_val hl hq, hval, he.2, hrc]
    by_cases e : q.cid = r.cid <;> simp [e]
  rw [e1, filter_key_unique (key := LRow.cid) (lpRows_nodup hl) hr]
  simp

/-- the cost of a violation variable -/
theorem slot_cost {m : Market} {k : CKey} {vc : VCost} {n : Nat} (E : ElasticSet m k vc n) {lp : Lp} (hl : m.assemble = .ok lp)
    {s : Slot} (hs : s ∈ slots (m.costed k vc) n) : lp.cost (unitVec s.vid) = s.cost := by
  obtain ⟨rest, h1, h2⟩ := E.cost_split hl
  rw [h2]
  have hv : s.vid ∈ m.deficitVids k := by rw [E.vids]; exact List.mem_map_of_mem hs
  have e0 : linVal (unitVec s.vid) rest = 0 := by
    unfold linVal
    apply sum_map_zero
    intro q hq
    have : q.1 ≠ s.vid := fun e => h1 q hq (e ▸ hv)
    simp [unitVec, this]
  obtain ⟨e, he, hee⟩ := List.mem_map.1 (slots_mem hs).1
  have i1 : e = s.row := by simpa using congrArg Prod.fst hee
  have i2 : (vc.of e).getD 0 = s.cost := by simpa using congrArg Prod.snd hee
  have hnd : ((m.elasticRows k vc).map Row.cid).Nodup := by
    have hnd := E.nodup
    unfold Market.costed at hnd
    rwa [List.map_map] at hnd
  have e1 : ((m.elasticRows k vc).map (fun r => (vc.of r).getD 0 * E.own (unitVec s.vid) r)).sum =
      (((m.elasticRows k vc).filter (fun r => decide (r.cid = e.cid))).map (fun r => (vc.of r).getD 0)).sum := by
    rw [sum_filter_eq_ite]
    apply sum_map_congr
    intro r hr
    have hown : E.own (unitVec s.vid) r = if r.cid = e.cid then 1 else 0 := by
      unfold ElasticSet.own
      rw [sum_filter_eq_ite]
      have : ((slots (m.costed k vc) n).map (fun a => if decide (a.row.cid = r.cid) = true then unitVec s.vid a.vid else 0)).sum =
          (((slots (m.costed k vc) n).filter (fun a => decide (a.vid = s.vid))).map (fun a => if r.cid = e.cid then (1 : ℚ) else 0)).sum := by
        rw [sum_filter_eq_ite]
        apply sum_map_congr
        intro a ha
        by_cases e' : a.vid = s.vid
        · have : a = s := List.inj_on_of_nodup_map (slots_nodup _ _) ha hs e'
          subst this
          rw [i1]
          by_cases e2 : a.row.cid = r.cid
          · simp [e2, unitVec]
          · simp [e2, Ne.symm e2]
        · simp [e', unitVec]
      rw [this, filter_key_unique (key := Slot.vid) (slots_nodup _ _) hs]
      simp
    rw [hown]
    by_cases e' : r.cid = e.cid <;> simp [e']
  rw [e0, e1, filter_key_unique (key := Row.cid) hnd he]
  simp [i2]

/-- reduced cost of a violation variable that can change by `δ` -/
theorem slot_step {m : Market} {k : CKey} {vc : VCost} {n : Nat} (E : ElasticSet m k vc n) (hreach : Reached m) {S : Solver}
    (hS : S.sorts) {x : Nat → ℚ} {lp : Lp} (hl : m.assemble = .ok lp) {xl p : Nat → ℚ} (hs : ShadowPrices (m.linear S x lp) xl p)
    {s : Slot} (hs' : s ∈ slots (m.costed k vc) n) {δ : ℚ} (hδ : 0 ≤ xl s.vid + δ) : δ * (p s.row.cid * s.sg) ≤ δ * s.cost := by
  have hv : s.vid ∈ m.defVids := deficitVids_sub (k := k) (by rw [E.vids]; exact List.mem_map_of_mem hs')
  have := hs.reduced (v := s.vid) (δ := δ) (by
    intro w hw e
    obtain ⟨w', hw', e3, h⟩ := linear_vars hw
    rcases h with rfl | ⟨h, _⟩
    · rw [(assemble_parts hl).1] at hw'
      have hmem : (⟨s.vid, 0, none⟩ : LVar) ∈ m.allVars := by
        unfold Market.allVars
        simp only [List.mem_append, List.mem_flatMap, List.mem_map]
        obtain ⟨d, hd, hv⟩ := List.mem_flatMap.1 hv
        obtain ⟨v, hv, e⟩ := List.mem_map.1 hv
        exact Or.inr ⟨d, hd, v, hv, by rw [e]⟩
      have : w = ⟨s.vid, 0, none⟩ := List.inj_on_of_nodup_map (allVars_nodup hreach) hw' hmem e
      subst this
      exact ⟨hδ, by intro u hu; cases hu⟩
    · rw [e] at h
      exact absurd hv (hreach.refs.net (unused_net hS h)).2) (by
    intro q hq e
    rw [linear_rows] at hq
    have h1 := (lpRow hl hq).2.1
    rw [e] at h1
    simp only [Market.allRows, List.mem_append, List.mem_map, Prod.mk.injEq, reduceCtorEq, and_false, exists_false, false_or,
      Rhs.var.injEq] at h1
    obtain ⟨q, hq, _, _, e⟩ := h1
    refine (hreach.refs.net (v := s.vid) ?_).2 hv
    have := List.mem_map_of_mem (f := DynRow.rhsVid) hq
    rw [e] at this
    unfold Market.netRefs
    simp only [List.mem_append]
    tauto)
  rw [linear_rows, slot_column E hl hs', linear_cost, slot_cost E hl hs'] at this
  exact this

theorem slot_nonneg {m : Market} {k : CKey} {vc : VCost} {n : Nat} (E : ElasticSet m k vc n) (hreach : Reached m) {S : Solver}
    (hS : S.sorts) {x : Nat → ℚ} {lp : Lp} (hl : m.assemble = .ok lp) {xl : Nat → ℚ} (hx : Feasible (m.linear S x lp) xl)
    {s : Slot} (hs : s ∈ slots (m.costed k vc) n) : 0 ≤ xl s.vid := by
  have hv : s.vid ∈ m.defVids := deficitVids_sub (k := k) (by rw [E.vids]; exact List.mem_map_of_mem hs)
  have hmem : (⟨s.vid, 0, none⟩ : LVar) ∈ m.allVars := by
    unfold Market.allVars
    simp only [List.mem_append, List.mem_flatMap, List.mem_map]
    obtain ⟨d, hd, hv⟩ := List.mem_flatMap.1 hv
    obtain ⟨v, hv, e⟩ := List.mem_map.1 hv
    exact Or.inr ⟨d, hd, v, hv, by rw [e]⟩
  have hin : (⟨s.vid, 0, none⟩ : LVar) ∈ lp.vars := by rw [(assemble_parts hl).1]; exact hmem
  obtain ⟨w, hw, e⟩ : ∃ w ∈ (m.linear S x lp).vars, w.vid = s.vid := by
    unfold Market.linear
    dsimp only
    split
    · refine ⟨_, List.mem_map.2 ⟨_, hin, rfl⟩, ?_⟩
      split <;> rfl
    · exact ⟨_, hin, rfl⟩
  obtain ⟨w', hw', e3, h⟩ := linear_vars hw
  rcases h with rfl | ⟨h, _⟩
  · rw [(assemble_parts hl).1] at hw'
    have : w = ⟨s.vid, 0, none⟩ := List.inj_on_of_nodup_map (allVars_nodup hreach) hw' hmem e
    subst this
    exact (hx.vars _ hw).1
  · rw [e] at h
    exact absurd hv (hreach.refs.net (unused_net hS h)).2

/-- **C102** The shadow price of a constraint with violation price `c` is at most `c` in absolute value: it pays to violate the
constraint once one unit of it costs more.  Constraints `≥` have prices of zero and above, constraints `≤` of zero and below. -/
theorem C102_shadow_price {k : CKey} {vc : VCost} {m : Market} (h : InForce (.elastic k vc) m) (hp : vc.proper) {S : Solver}
    (hS : S.sorts) {o : Outcome} {lp : Lp} (hl : m.assemble = .ok lp)
    {xl : Nat → ℚ} (hs : ShadowPrices (m.linear S o.x lp) xl o.price) {r : Row} (hr : r ∈ m.elasticRows k vc) {c : ℚ}
    (hc : vc.of r = some c) :
    (r.ctype = .ge → 0 ≤ o.price r.cid ∧ o.price r.cid ≤ c) ∧ (r.ctype = .le → -c ≤ o.price r.cid ∧ o.price r.cid ≤ 0) ∧
    (r.ctype = .eq → -c ≤ o.price r.cid ∧ o.price r.cid ≤ c) := by
  obtain ⟨n, E⟩ := elasticSet_of h hp (List.ne_nil_of_mem hr)
  have hreach : Reached m := h.reached
  have slot : ∀ s ∈ slots (m.costed k vc) n, s.row = r → s.cost = c → o.price r.cid * s.sg ≤ c := by
    intro s hs' e1 e2
    have h0 : 0 ≤ xl s.vid := slot_nonneg E hreach hS hl hs.feasible hs'
    have := slot_step E hreach hS hl hs hs' (δ := 1) (by linarith)
    rw [e1, e2] at this
    linarith
  have hco : (r, c) ∈ m.costed k vc := by
    have := ElasticSet.costed_mem hr
    rwa [hc] at this
  have lprow : ∀ s ∈ slots (m.costed k vc) n, s.row = r → ∃ q ∈ (m.linear S o.x lp).rows, q.cid = r.cid ∧ q.ctype = r.ctype := by
    intro s hs' e1
    obtain ⟨q, hq, e⟩ := E.reaches hl hr hs' (by rw [e1])
    have hu := unique_row E.wf.con (lpRow hl hq).2.1 (by rw [← e]; exact (elasticRows_mem hr).1)
    exact ⟨q, by rw [linear_rows]; exact hq, e.symm, hu.1⟩
  have hmem : ∀ s, s ∈ (slots (m.costed k vc) n).filter (fun s => decide (s.row.cid = r.cid)) → s ∈ slots (m.costed k vc) n :=
    fun s h => List.mem_of_mem_filter h
  rcases slots_row E.nodup n hco with ⟨i, ⟨ht, hf⟩ | ⟨ht, hf⟩⟩ | ⟨i, j, ht, hf⟩ | ⟨ht, -⟩ <;> dsimp only at ht
  · dsimp only at hf
    have hin := hmem ⟨i, r, c, 1⟩ (by rw [hf]; simp)
    have h1 := slot _ hin rfl rfl
    obtain ⟨q, hq, e1, e2⟩ := lprow _ hin rfl
    have h2 := hs.ge q hq (e2.trans ht)
    rw [e1] at h2
    dsimp only at h1
    rw [ht]
    exact ⟨fun _ => ⟨h2, by linarith⟩, nofun, nofun⟩
  · dsimp only at hf
    have hin := hmem ⟨i, r, c, -1⟩ (by rw [hf]; simp)
    have h1 := slot _ hin rfl rfl
    obtain ⟨q, hq, e1, e2⟩ := lprow _ hin rfl
    have h2 := hs.le q hq (e2.trans ht)
    rw [e1] at h2
    dsimp only at h1
    rw [ht]
    exact ⟨nofun, fun _ => ⟨by linarith, h2⟩, nofun⟩
  · dsimp only at hf
    have h1 := slot _ (hmem ⟨i, r, c, -1⟩ (by rw [hf]; simp)) rfl rfl
    have h2 := slot _ (hmem ⟨j, r, c, 1⟩ (by rw [hf]; simp)) rfl rfl
    dsimp only at h1 h2
    rw [ht]
    exact ⟨nofun, nofun, fun _ => ⟨by linarith, by linarith⟩⟩
  · rw [ht]
    exact ⟨nofun, nofun, nofun⟩

/-- **C102, market price cap and floor.**  If the demand constraints have the violation price `c`, then no energy price is above `c`
or below `-c`. -/
theorem C102_energy_price {ds : List Demand} {c : ℚ} {m : Market} (hds : DemandSet ds m) (h : InForce (.elastic .demand (.num c)) m)
    {S : Solver} (hS : S.sorts) {o : Outcome} {lp : Lp} (hl : m.assemble = .ok lp) {xl : Nat → ℚ} (hs : ShadowPrices (m.linear S o.x lp) xl o.price) {prices : List (String × ℚ)}
    (hpr : m.energyPrices o.price = .ok prices) {g : String} {p : ℚ} (hp : (g, p) ∈ prices) : -c ≤ p ∧ p ≤ c := by
  obtain ⟨hnd, n, ht1, ht2⟩ := hds.tables
  unfold Market.energyPrices at hpr
  rw [ht1] at hpr
  injection hpr with hpr
  subst hpr
  obtain ⟨r, hr, e⟩ := List.mem_filterMap.1 hp
  obtain ⟨i, d, hd, rfl⟩ := mem_saveIndex.1 hr
  simp only [Option.map_some, Option.some.injEq, Prod.mk.injEq] at e
  have hel : ({ cid := n + i, ctype := .eq, rhs := d.demand, region := some d.region } : Row) ∈ m.elasticRows .demand (.num c) := by
    unfold Market.elasticRows Market.rowsOf
    rw [ht1]
    exact List.mem_filter.2 ⟨hr, rfl⟩
  have := (C102_shadow_price h trivial hS hl hs hel rfl).2.2 rfl
  rw [← e.2]
  exact this

theorem sets_fcas {o : Op} (h : Part.set .fcas ∈ o.parts) : (∃ rs vc, o = .fcasReq rs vc) ∨ ∃ vc, o = .elastic .fcas vc := by
  cases o <;> simp [Op.parts] at h ⊢ <;> exact h.symm

theorem fcas_kept {m : Market} {ops : List Op} (h : ∀ o ∈ ops, ∀ rs vc, o ≠ .fcasReq rs vc) :
    (m.run ops).mktRhs.get? .fcas = m.mktRhs.get? .fcas ∧ (m.run ops).regCon.get? .fcas = m.regCon.get? .fcas := by
  induction ops generalizing m with
  | nil => exact ⟨rfl, rfl⟩
  | cons o ops ih =>
    rw [run_cons]
    have h1 := ih (m := (m.step o).1) (fun o ho => h o (by simp [ho]))
    by_cases hp : Part.set .fcas ∈ o.parts
    · rcases sets_fcas hp with ⟨ds, vc, rfl⟩ | ⟨vc, rfl⟩
      · exact absurd rfl (h _ (by simp) ds vc)
      · rw [h1.1, h1.2, (elastic_step_tables m .fcas vc).1, (elastic_step_tables m .fcas vc).2]
        exact ⟨rfl, rfl⟩
    · have := frame_run (m := m) (ops := [o]) (k := .fcas) (by simpa using hp)
      exact ⟨h1.1.trans this.mktRhs, h1.2.trans this.regCon⟩

theorem FcasSet.tables {rs : List FcasReq} {m : Market} (h : FcasSet rs m) :
    (∀ r ∈ rs, r.ctype ≠ .other) ∧ (rs.map (fun r => (r.set, r.region, r.service))).Nodup ∧
    ∃ n, m.mktRhs.get? .fcas = some (fcasConstraints rs n).1 ∧ m.regCon.get? .fcas = some (fcasConstraints rs n).2 := by
  obtain ⟨r, u, di, m0, before, after, vc, h0, hb, hok, ha, rfl⟩ := h
  rw [run_append, run_cons]
  have hk := fcas_kept (m := ((m0.run before).step (.fcasReq rs vc)).1) ha
  generalize m0.run before = a at *
  rw [hk.1, hk.2]
  have hn := step_ok hok
  simp only [Market.step, hn, Market.setFcasReq, Bool.false_eq_true, if_false] at hok ⊢
  by_cases h2 : (!(rs.all (fun r => decide (r.region ∈ a.regions) && decide (r.ctype ≠ .other)) &&
      decide ((rs.map (fun r => (r.set, r.region, r.service))).Nodup))) = true
  · rw [if_pos h2] at hok; simp at hok
  rw [if_neg h2] at hok ⊢
  simp only [Bool.not_eq_true, Bool.not_eq_false', Bool.and_eq_true, decide_eq_true_eq, List.all_eq_true] at h2
  refine ⟨fun r hr => (h2.1 r hr).2, h2.2, a.nextCon, ?_⟩
  have h4 := (andThen_ok hok).2
  rw [h4, (elastic_tables ..).1, (elastic_tables ..).2]
  unfold Market.addRegSet
  dsimp only
  split <;> simp [Dict.get?_set_self]

theorem FcasSet.reached {rs : List FcasReq} {m : Market} (h : FcasSet rs m) : Reached m := by
  obtain ⟨r, u, di, m0, before, after, vc, h0, hb, -, -, rfl⟩ := h
  exact ⟨r, u, di, m0, _, h0, hb, rfl⟩

/-- the reported price is the sum of the shadow prices of the sets -/
theorem fcas_price_sum {rs : List FcasReq} {m : Market} (h : FcasSet rs m) {n : Nat}
    (ht1 : m.mktRhs.get? .fcas = some (fcasConstraints rs n).1) (ht2 : m.regCon.get? .fcas = some (fcasConstraints rs n).2)
    {price : Nat → ℚ} {prices : List ((String × Service) × ℚ)} (hpr : m.fcasPrices price = .ok prices) {g : String} {s : Service}
    {p : ℚ} (hp : ((g, s), p) ∈ prices) :
    p = ((rs.filter (fun q => decide (q.region = g ∧ q.service = s))).map (fun q =>
      (((fcasConstraints rs n).1.filter (fun t => decide (t.set = some q.set))).map (fun t => price t.cid)).sum)).sum := by
  have hnd : ((fcasConstraints rs n).1.map Row.cid).Nodup := rows_nodup h.reached.wf.con (k := .fcas) (by unfold Market.rowsOf; rw [ht1])
  rw [fcasPrices_of ht2 ht1 hnd] at hpr
  injection hpr with hpr
  subst hpr
  obtain ⟨-, e⟩ := mem_groupSum.1 hp
  dsimp only at e
  rw [e, sum_filter_eq_ite, sum_filter_eq_ite]
  unfold fcasConstraints
  dsimp only
  rw [sum_map_flatMap]
  apply sum_map_congr
  intro q _
  rw [List.map_map]
  by_cases hq : q.region = g ∧ q.service = s
  · have : (q.region, q.service) = (g, s) := by rw [hq.1, hq.2]
    simp only [Function.comp_def, this, decide_true, if_true, hq, and_self]
  · have : ¬ (q.region, q.service) = (g, s) := by
      intro e; injection e with e1 e2; exact hq ⟨e1, e2⟩
    simp [Function.comp_def, this, hq]

/-- **C102** If the FCAS requirements are `≥` constraints with violation prices, then no FCAS price is negative or above the sum of the
violation prices of the sets in which the region provides the service. -/
theorem C102_fcas_price {rs : List FcasReq} {vc : VCost} {m : Market} (hrs : FcasSet rs m) (h : InForce (.elastic .fcas vc) m)
    (hv : vc.proper) {S : Solver} (hS : S.sorts) {o : Outcome} {lp : Lp} (hl : m.assemble = .ok lp) {xl : Nat → ℚ}
    (hs : ShadowPrices (m.linear S o.x lp) xl o.price) {prices : List ((String × Service) × ℚ)}
    (hpr : m.fcasPrices o.price = .ok prices) (hge : ∀ r ∈ rs, r.ctype = .ge) {g : String} {s : Service} {p : ℚ}
    (hp : ((g, s), p) ∈ prices) {cost : String → ℚ}
    (hc : ∀ r ∈ rs, r.region = g → r.service = s → vc.forSet r.set = some (cost r.set)) :
    0 ≤ p ∧ p ≤ ((rs.filter (fun r => decide (r.region = g ∧ r.service = s))).map (fun r => cost r.set)).sum := by
  obtain ⟨-, -, n, ht1, ht2⟩ := hrs.tables
  have hsum := fcas_price_sum hrs ht1 ht2 hpr hp
  have each : ∀ q ∈ rs, q.region = g → q.service = s →
      0 ≤ (((fcasConstraints rs n).1.filter (fun t => decide (t.set = some q.set))).map (fun t => o.price t.cid)).sum ∧
      (((fcasConstraints rs n).1.filter (fun t => decide (t.set = some q.set))).map (fun t => o.price t.cid)).sum ≤ cost q.set := by
    intro q hq e1 e2
    obtain ⟨r, hr, e⟩ := exists_dropDup (key := FcasReq.set) hq
    obtain ⟨i, hr'⟩ := List.mem_iff_getElem?.1 hr
    have hrow : ({ cid := n + i, ctype := r.ctype, rhs := r.volume, set := some r.set } : Row) ∈ (fcasConstraints rs n).1 :=
      mem_saveIndex.2 ⟨i, r, hr', rfl⟩
    have hsets : ((fcasConstraints rs n).1.map Row.set).Nodup := by
      have := (dropDup_sets rs).map (f := some) (fun a b h => by injection h)
      show ((fcasRows rs n).map Row.set).Nodup
      rw [fcasRows, map_saveIndex]
      rw [show (fun (i : Nat) (a : FcasReq) => Row.set { cid := i, ctype := a.ctype, rhs := a.volume, set := some a.set }) =
        fun (_ : Nat) (a : FcasReq) => some a.set from rfl, saveIndex_vals]
      rw [List.map_map] at this
      exact this
    have hone := filter_key_unique (key := Row.set) hsets hrow
    dsimp only at hone
    rw [show q.set = r.set from e.symm, hone]
    simp only [List.map_cons, List.map_nil, List.sum_cons, List.sum_nil, add_zero]
    have hof : vc.of ({ cid := n + i, ctype := r.ctype, rhs := r.volume, set := some r.set } : Row) = some (cost q.set) := by
      rw [← hc q hq e1 e2, ← show r.set = q.set from e]
      cases vc with
      | num c => rfl
      | table t =>
        simp only [VCost.of, VCost.forSet]
        congr 2
        funext c
        simp [eq_comm]
    have hel : ({ cid := n + i, ctype := r.ctype, rhs := r.volume, set := some r.set } : Row) ∈ m.elasticRows .fcas vc := by
      unfold Market.elasticRows Market.rowsOf
      rw [ht1]
      exact List.mem_filter.2 ⟨hrow, by rw [hof]; rfl⟩
    have := (C102_shadow_price h hv hS hl hs hel hof).1 (hge r ((dropDup_sublist _ _).subset hr))
    rwa [← show r.set = q.set from e] at this
  rw [hsum]
  constructor
  · apply sum_map_nonneg
    intro q hq
    have := List.mem_filter.1 hq
    have h2 : q.region = g ∧ q.service = s := by simpa using this.2
    exact (each q this.1 h2.1 h2.2).1
  · apply List.sum_le_sum
    intro q hq
    have := List.mem_filter.1 hq
    have h2 : q.region = g ∧ q.service = s := by simpa using this.2
    exact (each q this.1 h2.1 h2.2).2

theorem InForce.demandSet {ds : List Demand} {vc : Option VCost} {m : Market} (h : InForce (.demand ds vc) m) : DemandSet ds m := by
  obtain ⟨r, u, di, m0, before, after, q1, q2, q3, q4, q5⟩ := h
  refine ⟨r, u, di, m0, before, after, vc, q1, q2, q3, ?_, q5⟩
  rintro o ho ds vc rfl
  exact q4 _ ho (.set .demand) (by simp [Op.parts]) (by simp [Op.parts])

theorem InForce.fcasSet {rs : List FcasReq} {vc : Option VCost} {m : Market} (h : InForce (.fcasReq rs vc) m) : FcasSet rs m := by
  obtain ⟨r, u, di, m0, before, after, q1, q2, q3, q4, q5⟩ := h
  refine ⟨r, u, di, m0, before, after, vc, q1, q2, q3, ?_, q5⟩
  rintro o ho ds vc rfl
  exact q4 _ ho (.set .fcas) (by simp [Op.parts]) (by simp [Op.parts])

/-- **C102** The same for `set_demand_constraints(ds, violation_cost=c)`. -/
theorem C102_demand_cap {ds : List Demand} {c : ℚ} {m : Market} (h : InForce (.demand ds (some (.num c))) m) {S : Solver} (hS : S.sorts)
    {o : Outcome} {lp : Lp} (hl : m.assemble = .ok lp) {xl : Nat → ℚ} (hs : ShadowPrices (m.linear S o.x lp) xl o.price)
    {prices : List (String × ℚ)} (hpr : m.energyPrices o.price = .ok prices) {g : String} {p : ℚ} (hp : (g, p) ∈ prices) :
    -c ≤ p ∧ p ≤ c :=
  C102_energy_price h.demandSet (apart_inForce rfl h (by simp)) hS hl hs hpr hp

theorem energyPrices_regions {ds : List Demand} {m : Market} (h : DemandSet ds m) (p : Nat → ℚ) :
    ∃ ps, m.energyPrices p = .ok ps ∧ ps.map Prod.fst = ds.map Demand.region := by
  obtain ⟨_, n, ht1, _⟩ := h.tables
  refine ⟨saveIndex ds n (fun i d => (d.region, p i)), ?_, ?_⟩
  · unfold Market.energyPrices
    rw [ht1]
    exact congrArg Except.ok (saveIndex_filterMap _)
  · rw [map_saveIndex, saveIndex_vals]

/-- **C102, of a dispatch.**  The same for the prices of `dispatch()` when the dual values the solver reports for the linear model are
shadow prices of it. -/
theorem C102_dispatch {ds : List Demand} {c : ℚ} {m : Market} (h : InForce (.demand ds (some (.num c))) m) {S : Solver} (hS : S.sorts)
    {o : Outcome} (ho : m.dispatch S none = .ok o) {lp : Lp} (hl : m.assemble = .ok lp) {xl : Nat → ℚ}
    (hs : ShadowPrices (m.linear S o.x lp) xl (S.dual (m.linear S o.x lp))) :
    ∃ prices, m.energyPrices o.price = .ok prices ∧ ∀ d ∈ ds, ∃ p, (d.region, p) ∈ prices ∧ -c ≤ p ∧ p ≤ c := by
  rw [← C30_of_linear_model ho hl] at hs
  obtain ⟨prices, h1, h2⟩ := energyPrices_regions h.demandSet o.price
  refine ⟨prices, h1, fun d hd => ?_⟩
  have : d.region ∈ prices.map Prod.fst := by rw [h2]; exact List.mem_map_of_mem hd
  obtain ⟨⟨g, p⟩, hp, rfl⟩ := List.mem_map.1 this
  exact ⟨p, hp, C102_demand_cap h hS hl hs h1 hp⟩

def capReqs : List FcasReq := [{ set := "R", service := .raise6s, region := "NSW", volume := 30, ctype := .ge }]

/-- A region that is short of energy and of a service: both prices are at their caps. -/
def capCase : Case where
  regions := ["NSW"]
  units := [{ unit := "A", region := "NSW" }]
  hist := [.volumeBids [{ unit := "A", bands := [("1", 50)] }, { unit := "A", service := .raise6s, bands := [("1", 20)] }],
    .priceBids [{ unit := "A", bands := [("1", 20)] }, { unit := "A", service := .raise6s, bands := [("1", 5)] }],
    .demand [{ region := "NSW", demand := 100 }] (some (.num 1000)),
    .fcasReq capReqs (some (.table [("R", 500)]))]
  sol := [50, 20, 0, 50, 10]

/-- instance of C102 -/
example : ∃ m lp o S, InForce (.demand [{ region := "NSW", demand := 100 }] (some (.num 1000))) m ∧
    FcasSet capReqs m ∧
    InForce (.elastic .fcas (.table [("R", 500)])) m ∧ (VCost.table [("R", 500)]).proper ∧ S.sorts ∧ m.dispatch S none = .ok o ∧
    m.assemble = .ok lp ∧ ShadowPrices (m.linear S o.x lp) capCase.x o.price ∧ m.energyPrices o.price = .ok [("NSW", 1000)] ∧
    m.fcasPrices o.price = .ok [(("NSW", .raise6s), 500)] ∧ (VCost.table [("R", 500)]).forSet "R" = some 500 := by
  have h : capCase.shadow [1000, 500] (fun m => decide (
      m.energyPrices (fun c => [1000, 500].getD c 0) = .ok [("NSW", 1000)] ∧
      m.fcasPrices (fun c => [1000, 500].getD c 0) = .ok [(("NSW", .raise6s), 500)])) = true := by decide +kernel
  obtain ⟨m, lp, o, h0, h1, h2, h3, h4, h5, h6⟩ := Case.shadow_spec h
  obtain ⟨k1, k2⟩ := of_decide_eq_true h6
  have hf := InForceKeeping.inForce (Case.inForce (s := capCase) (op := .fcasReq capReqs (some (.table [("R", 500)]))) (i := 3) (keep := []) h0 rfl (by decide +kernel))
  exact ⟨m, lp, o, _, InForceKeeping.inForce (Case.inForce (i := 2) (keep := []) h0 rfl (by decide +kernel)), hf.fcasSet,
    apart_inForce rfl hf (by simp), by simp [VCost.proper], Case.solver_sorts _ _, h2, h1, h5, h4 ▸ k1, h4 ▸ k2, by decide +kernel⟩

end Verif
