import Verif.Props.Prices
import Verif.Proofs.ShadowCheck

/-!
# C30: the marginal bid sets the price
-/

namespace Verif

theorem elastic_tables (m : Market) (k : CKey) (vc : Option VCost) :
    (m.elasticOpt k vc).1.mktRhs = m.mktRhs ∧ (m.elasticOpt k vc).1.regCon = m.regCon := by
  unfold Market.elasticOpt Market.makeElastic
  cases vc with
  | none => exact ⟨rfl, rfl⟩
  | some c =>
    dsimp only
    split
    · exact ⟨rfl, rfl⟩
    split
    · exact ⟨rfl, rfl⟩
    split
    · exact ⟨rfl, rfl⟩
    split <;> exact ⟨rfl, rfl⟩

theorem elastic_step_tables (m : Market) (k : CKey) (vc : VCost) :
    (m.step (.elastic k vc)).1.mktRhs = m.mktRhs ∧ (m.step (.elastic k vc)).1.regCon = m.regCon := by
  unfold Market.step
  split
  · exact ⟨rfl, rfl⟩
  · exact elastic_tables m k (some vc)

theorem sets_demand {o : Op} (h : Part.set .demand ∈ o.parts) : (∃ ds vc, o = .demand ds vc) ∨ ∃ vc, o = .elastic .demand vc := by
  cases o <;> simp [Op.parts] at h ⊢ <;> exact h.symm

theorem demand_kept {m : Market} {ops : List Op} (h : ∀ o ∈ ops, ∀ ds vc, o ≠ .demand ds vc) :
    (m.run ops).mktRhs.get? .demand = m.mktRhs.get? .demand ∧ (m.run ops).regCon.get? .demand = m.regCon.get? .demand := by
  induction ops generalizing m with
  | nil => exact ⟨rfl, rfl⟩
  | cons o ops ih =>
    rw [run_cons]
    have h1 := ih (m := (m.step o).1) (fun o ho => h o (by simp [ho]))
    by_cases hp : Part.set .demand ∈ o.parts
    · rcases sets_demand hp with ⟨ds, vc, rfl⟩ | ⟨vc, rfl⟩
      · exact absurd rfl (h _ (by simp) ds vc)
      · rw [h1.1, h1.2, (elastic_step_tables m .demand vc).1, (elastic_step_tables m .demand vc).2]
        exact ⟨rfl, rfl⟩
    · have := frame_run (m := m) (ops := [o]) (k := .demand) (by simpa using hp)
      exact ⟨h1.1.trans this.mktRhs, h1.2.trans this.regCon⟩

theorem DemandSet.tables {ds : List Demand} {m : Market} (h : DemandSet ds m) :
    (ds.map Demand.region).Nodup ∧
    ∃ n, m.mktRhs.get? .demand = some (energyConstraints ds n).1 ∧ m.regCon.get? .demand = some (energyConstraints ds n).2 := by
  obtain ⟨r, u, di, m0, before, after, vc, h0, hb, hok, ha, rfl⟩ := h
  rw [run_append, run_cons]
  have hk := demand_kept (m := ((m0.run before).step (.demand ds vc)).1) ha
  generalize m0.run before = a at *
  rw [hk.1, hk.2]
  have hn := step_ok hok
  simp only [Market.step, hn, Market.setDemand, Bool.false_eq_true, if_false] at hok ⊢
  by_cases h2 : (!(ds.all (fun d => decide (d.region ∈ a.regions)) && decide ((ds.map (·.region)).Nodup))) = true
  · rw [if_pos h2] at hok; simp at hok
  rw [if_neg h2] at hok ⊢
  refine ⟨?_, a.nextCon, ?_⟩
  · simp only [Bool.not_eq_true, Bool.not_eq_false', Bool.and_eq_true, decide_eq_true_eq] at h2
    exact h2.2
  have h4 := (andThen_ok hok).2
  rw [h4, (elastic_tables ..).1, (elastic_tables ..).2]
  unfold Market.addRegSet
  dsimp only
  split <;> simp [Dict.get?_set_self]

/-! ### FCAS requirements do not touch energy -/

theorem noEnergy_step {m : Market} {o : Op} (ho : o.balanceOnly = true) (h : ∀ c ∈ (m.regCon.get? .fcas).getD [], c.service ≠ .energy) :
    ∀ c ∈ ((m.step o).1.regCon.get? .fcas).getD [], c.service ≠ .energy := by
  by_cases hp : Part.set .fcas ∈ o.parts
  · cases o with
    | fcasReq rs vc =>
      simp only [Op.balanceOnly, List.all_eq_true, decide_eq_true_eq] at ho
      unfold Market.step
      split
      · exact h
      simp only [Market.setFcasReq]
      split
      · exact h
      have : ((m.addRegSet .fcas (fcasConstraints rs m.nextCon)).andThen (fun m => m.elasticOpt .fcas vc)).1.regCon.get? .fcas =
          some (fcasConstraints rs m.nextCon).2 := by
        have h1 : (m.addRegSet .fcas (fcasConstraints rs m.nextCon)).1.regCon.get? .fcas = some (fcasConstraints rs m.nextCon).2 := by
          unfold Market.addRegSet
          dsimp only
          split <;> simp [Dict.get?_set_self]
        unfold Res.andThen
        split
        · rw [(elastic_tables ..).2, h1]
        · exact h1
      rw [this]
      intro c hc
      obtain ⟨q, hq, ht⟩ := List.mem_flatMap.1 hc
      obtain ⟨t, _, rfl⟩ := List.mem_map.1 ht
      exact ho q hq
    | elastic k vc => rw [(elastic_step_tables m k vc).2]; exact h
    | _ => simp [Op.parts] at hp
  · have := frame_run (m := m) (ops := [o]) (k := .fcas) (by simpa using hp)
    have e : (m.step o).1.regCon.get? .fcas = m.regCon.get? .fcas := this.regCon
    rw [e]; exact h

theorem noEnergy {m : Market} (h : CallsOnly (fun o => o.balanceOnly = true) m) :
    ∀ c ∈ (m.regCon.get? .fcas).getD [], c.service ≠ .energy := by
  obtain ⟨r, u, di, m0, ops, h1, h2, h3, rfl⟩ := h
  have h0 : ∀ c ∈ (m0.regCon.get? .fcas).getD [], c.service ≠ .energy := by
    rw [(init_fresh h1).1]; intro c hc; cases hc
  clear h1 h2
  induction ops generalizing m0 with
  | nil => exact h0
  | cons o ops ih =>
    rw [run_cons]
    exact ih (m0.step o).1 (fun q hq => h3 q (by simp [hq])) (noEnergy_step (h3 o (by simp)) h0)

theorem balanceOnly_parts {o : Op} (h : o.balanceOnly = true) {p : Part} (hp : p ∈ o.parts) :
    (p ≠ .gUnit ∧ p ≠ .gRegion ∧ p ≠ .gInter) ∧ ∀ k, p = .set k → k = .demand ∨ k = .fcas ∨ k = .interpWeights := by
  cases o <;> first
    | (cases h; done)
    | (simp only [Op.parts, List.mem_singleton] at hp; subst hp
       refine ⟨by simp, ?_⟩
       intro k hk; cases hk; done)
    | (simp only [Op.parts, List.mem_singleton] at hp; subst hp
       refine ⟨by simp, ?_⟩
       intro k hk; cases hk; simp; done)
    | (simp only [Op.parts, List.mem_singleton] at hp; subst hp
       refine ⟨by simp, ?_⟩
       intro k hk; cases hk; simpa [Op.balanceOnly] using h)

theorem allVars_nodup {m : Market} (h : Reached m) : (m.allVars.map LVar.vid).Nodup := by
  rw [List.nodup_iff_count_le_one]
  intro i
  rw [vcount_eq]
  exact (h.wf.var i).1

theorem unused_net {m : Market} {S : Solver} (hS : S.sorts) {x : Nat → ℚ} {v : Nat} (h : v ∈ m.unusedWeights S x ++ m.unusedLinks x) :
    v ∈ m.netRefs := by
  unfold Market.netRefs
  simp only [List.mem_append]
  rcases List.mem_append.1 h with h | h
  · obtain ⟨w, hw, h⟩ := List.mem_flatMap.1 h
    obtain ⟨e, he, rfl⟩ := List.mem_map.1 h
    have h2 := (hS _).1.subset (List.mem_of_mem_drop he)
    obtain ⟨q, hq, rfl⟩ := List.mem_map.1 h2
    have := List.mem_map_of_mem (f := WeightVar.vid) (List.mem_of_mem_filter hq)
    tauto
  · obtain ⟨w, hw, rfl⟩ := List.mem_map.1 h
    have := List.mem_map_of_mem (f := InterVar.vid) (List.mem_of_mem_filter hw)
    tauto

theorem linear_vars {m : Market} {S : Solver} {x : Nat → ℚ} {lp : Lp} {w : LVar} (h : w ∈ (m.linear S x lp).vars) :
    ∃ w' ∈ lp.vars, w.vid = w'.vid ∧ (w = w' ∨ (w.vid ∈ m.unusedWeights S x ++ m.unusedLinks x ∧ w.lb = 0 ∧ w.ub = some 0)) := by
  unfold Market.linear at h
  dsimp only at h
  split at h
  · obtain ⟨w', hw', rfl⟩ := List.mem_map.1 h
    refine ⟨w', hw', ?_⟩
    split
    · rename_i hmem; exact ⟨rfl, Or.inr ⟨hmem, rfl, rfl⟩⟩
    · exact ⟨rfl, Or.inl rfl⟩
  · exact ⟨w, h, rfl, Or.inl rfl⟩

theorem unitVec_net {m : Market} (hr : Reached m) {a : BidVar} (ha : a ∈ m.bids.getD []) {v : Nat} (hv : v ∈ m.netRefs ∨ v ∈ m.defVids) :
    unitVec a.vid v = 0 := by
  have hav := List.mem_map_of_mem (f := BidVar.vid) ha
  have hne : v ≠ a.vid := by
    rintro rfl
    exact hv.elim (hr.net _ hav) (hr.refs.bids hav).2
  simp [unitVec, hne]

theorem regSum_zero (vs : List VarReg) {x : Nat → ℚ} (h : ∀ v ∈ vs, x v.vid = 0) (r : String) (s : Service) : regSum vs x r s = 0 := by
  unfold regSum
  apply sum_map_zero
  intro v hv
  rw [h v (List.mem_of_mem_filter hv), mul_zero]

theorem regSum_unitVec {m : Market} (hr : Reached m) {a : BidVar} (ha : a ∈ m.bids.getD []) {i : UnitInfo} (hi : i ∈ m.units)
    (hu : i.unit = a.unit) (hd : i.dtype = a.dtype) (r : String) (s : Service) :
    regSum m.regVars (unitVec a.vid) r s =
      if i.region = r ∧ a.service = s then (if i.dtype = .load ∧ s = .energy then -1 else 1) else 0 := by
  have hw := hr.wf
  unfold Market.regVars
  rw [regSum_append, regSum_append, supply_eq hw]
  rw [regSum_zero ((m.interReg.getD []).map InterMap.toReg), regSum_zero (m.lossReg.getD [])]
  · rw [add_zero, add_zero]
    exact region_unitVec hw ha hi hu hd (fun u => if u.dtype = .load ∧ s = .energy then -1 else 1) r s
  · intro v hv
    apply unitVec_net hr ha
    left
    have h2 := List.mem_map_of_mem (f := VarReg.vid) hv
    unfold Market.netRefs
    simp only [List.mem_append]
    tauto
  · intro v hv
    apply unitVec_net hr ha
    left
    obtain ⟨i, hi, rfl⟩ := List.mem_map.1 hv
    have h2 : i.vid ∈ (m.inters.getD []).map InterVar.vid := interReg_inters hw hi
    unfold Market.netRefs
    simp only [List.mem_append]
    tauto

theorem rowVal_vanish {ts : List Term} {x : Nat → ℚ} (h : ∀ t ∈ ts, x t.vid = 0) (c : Nat) : rowVal ts x c = 0 := by
  unfold rowVal
  apply sum_map_zero
  intro t ht
  rw [h t (List.mem_of_mem_filter ht), mul_zero]

/-- what one MW of a bid adds to the rows of a constraint set, in markets with only regional constraints -/
theorem column {m : Market} (hm : CallsOnly (fun o => o.balanceOnly = true) m) {a : BidVar} (ha : a ∈ m.bids.getD [])
    {i : UnitInfo} (hi : i ∈ m.units) (hu : i.unit = a.unit) (hd : i.dtype = a.dtype) {k : CKey} {c : Nat} (hk : InTab m k c) :
    rowVal m.terms (unitVec a.vid) c = ((((m.regCon.get? k).getD []).filter (fun q => decide (q.cid = c))).map (fun q =>
      q.coef * (if i.region = q.region ∧ a.service = q.service then (if i.dtype = .load ∧ q.service = .energy then -1 else 1) else 0))).sum := by
  have hr := hm.reached
  have hw := hr.wf
  obtain ⟨m0, hu0, ht0, hg0, hp⟩ := hm.part
  have hsame : ∀ k, k ≠ .demand → k ≠ .fcas → k ≠ .interpWeights → SameSet k m0 m := by
    intro k h1 h2 h3
    exact hp (.set k) (fun o ho hq => by rcases (balanceOnly_parts ho hq).2 _ rfl with h | h | h <;> contradiction)
  have ht' : m.tieLhs = none := by
    rw [(hsame .tieBreak (by simp) (by simp) (by simp)).tie rfl, ht0]
  have hg' : m.gUnit = none ∧ m.gRegion = none ∧ m.gInter = none := by
    obtain ⟨r, u, di, m1, ops, h1, h2, h3, rfl⟩ := hm
    have e := (init_fresh h1).1
    have p1 : SamePart m1 (m1.run ops) .gUnit := part_run (fun o ho hq => (balanceOnly_parts (h3 o ho) hq).1.1 rfl)
    have p2 : SamePart m1 (m1.run ops) .gRegion := part_run (fun o ho hq => (balanceOnly_parts (h3 o ho) hq).1.2.1 rfl)
    have p3 : SamePart m1 (m1.run ops) .gInter := part_run (fun o ho hq => (balanceOnly_parts (h3 o ho) hq).1.2.2 rfl)
    simp only [SamePart] at p1 p2 p3
    rw [p1, p2, p3, e]
    exact ⟨rfl, rfl, rfl⟩
  have hu' : m.unitCon = [] := by
    by_contra hne
    obtain ⟨e, he⟩ := List.exists_mem_of_ne_nil _ hne
    have hk := hw.key.1 e he
    have : SameSet e.1 m0 m := hsame e.1 (by intro h; rw [h] at hk; cases hk) (by intro h; rw [h] at hk; cases hk)
      (by intro h; rw [h] at hk; cases hk)
    have h2 : m.unitCon.get? e.1 = none := by rw [this.unitCon, hu0]; rfl
    exact Dict.get?_ne_none he h2
  rw [rowVal_own hw.con hk]
  unfold Market.ownTerms
  have hgen : ∀ ids, m.genericTermsFor ids = [] := by
    intro ids
    unfold Market.genericTermsFor
    rw [hg'.1, hg'.2.1, hg'.2.2]
    rfl
  rw [hgen, ht', hu']
  simp only [rowVal_append]
  have z1 : rowVal (if k = .interpWeights then m.lossLhs.getD [] else []) (unitVec a.vid) c = 0 := by
    apply rowVal_vanish
    intro t ht
    split at ht
    · apply unitVec_net hr ha
      left
      have := List.mem_map_of_mem (f := Term.vid) ht
      unfold Market.netRefs
      simp only [List.mem_append]
      tauto
    · cases ht
  have z2 : rowVal ((m.deficits.get? k).elim [] (·.2)) (unitVec a.vid) c = 0 := by
    apply rowVal_vanish
    intro t ht
    apply unitVec_net hr ha
    right
    cases hdf : m.deficits.get? k with
    | none => rw [hdf] at ht; cases ht
    | some d =>
      rw [hdf] at ht
      exact List.mem_flatMap.2 ⟨_, Dict.mem_of_get? hdf, hr.refs.own _ (Dict.mem_of_get? hdf) t ht⟩
  rw [z1, z2, rowVal_createLhsReg]
  have z3 : rowVal (if k = .tieBreak then (none : Option (List Term)).getD [] else []) (unitVec a.vid) c = 0 := by
    apply rowVal_vanish; intro t ht; split at ht <;> cases ht
  have z4 : rowVal (createLhsUnit ((Dict.get? ([] : Dict CKey (List ConUnit)) k).getD []) (m.bidUnit.getD [])) (unitVec a.vid) c = 0 := rfl
  rw [z3, z4]
  have z5 : rowVal [] (unitVec a.vid) c = 0 := rfl
  rw [z5]
  simp only [zero_add, add_zero]
  apply sum_map_congr
  intro q _
  rw [regSum_unitVec hr ha hi hu hd]

/-- the pays of a feasible point vanish -/
theorem ShadowPrices.slack {lp : Lp} {x p : Nat → ℚ} (h : ShadowPrices lp x p) :
    (lp.rows.map (fun r => p r.cid * (linVal x r.coefs - r.rhs.eval x))).sum = 0 := by
  have h1 := h.bound x h.feasible.vars
  have h2 : 0 ≤ (lp.rows.map (fun r => p r.cid * (linVal x r.coefs - r.rhs.eval x))).sum := by
    apply sum_map_nonneg
    intro r hr
    exact CType.pays (h.ge r hr) (h.le r hr) (h.feasible.rows r hr)
  linarith

/-- reduced costs -/
theorem ShadowPrices.reduced {lp : Lp} {x p : Nat → ℚ} (h : ShadowPrices lp x p) {v : Nat} {δ : ℚ}
    (hb : ∀ w ∈ lp.vars, w.vid = v → w.lb ≤ x v + δ ∧ ∀ u, w.ub = some u → x v + δ ≤ u)
    (hr : ∀ r ∈ lp.rows, r.rhs ≠ .var v) :
    δ * (lp.rows.map (fun r => p r.cid * linVal (unitVec v) r.coefs)).sum ≤ δ * lp.cost (unitVec v) := by
  have hlin : ∀ cs, linVal (fun w => x w + δ * unitVec v w) cs = linVal x cs + δ * linVal (unitVec v) cs := by
    intro cs
    unfold linVal
    rw [← sum_map_mul_left, ← sum_map_add]
    apply sum_map_congr
    intro c _
    ring
  have h1 := h.bound (fun w => x w + δ * unitVec v w) (by
    intro w hw
    by_cases e : w.vid = v
    · have := hb w hw e
      unfold LVar.holds
      rw [e]
      simpa [unitVec] using this
    · have := h.feasible.vars w hw
      unfold LVar.holds at this ⊢
      simpa [unitVec, e] using this)
  have h2 := h.slack
  unfold Lp.cost at h1 ⊢
  rw [hlin] at h1
  have h3 : (lp.rows.map (fun r => p r.cid * (linVal (fun w => x w + δ * unitVec v w) r.coefs - r.rhs.eval (fun w => x w + δ * unitVec v w)))).sum =
      (lp.rows.map (fun r => p r.cid * (linVal x r.coefs - r.rhs.eval x))).sum +
      δ * (lp.rows.map (fun r => p r.cid * linVal (unitVec v) r.coefs)).sum := by
    rw [← sum_map_mul_left, ← sum_map_add]
    apply sum_map_congr
    intro r hr'
    rw [hlin]
    have : r.rhs.eval (fun w => x w + δ * unitVec v w) = r.rhs.eval x := by
      have := hr r hr'
      cases hh : r.rhs with
      | const q => rfl
      | var w =>
        rw [hh] at this
        have hne : w ≠ v := fun e => this (by rw [e])
        simp [Rhs.eval, unitVec, hne]
    rw [this]; ring
  rw [h3, h2] at h1
  linarith

/-- **C30, the marginal bid sets the price.**  In a market of bids, demand, FCAS requirements, interconnectors and
losses: at the solution `xl` of the linear model every energy bid of a generator that is dispatched costs no more than
the energy price of its region and every one that is not used fully costs no less.  For loads the price, which is
paid by the load, enters with the opposite sign. -/
theorem C30_marginal_bid {m : Market} (hm : CallsOnly (fun o => o.balanceOnly = true) m) {ps : List BidRow}
    (hpb : InForceKeeping [.bids] (.priceBids ps) m) (hbu : BandsUnique ps) {ds : List Demand} (hds : DemandSet ds m)
    {S : Solver} (hS : S.sorts) {ocd : Option ReRun} {o : Outcome} (ho : m.dispatch S ocd = .ok o) {lp : Lp} (hl : m.assemble = .ok lp)
    {xl : Nat → ℚ} (hs : ShadowPrices (m.linear S o.x lp) xl o.price)
    {prices : List (String × ℚ)} (hpr : m.energyPrices o.price = .ok prices)
    {a : BidVar} (ha : a ∈ m.bids.getD []) (hse : a.service = .energy)
    {i : UnitInfo} (hi : i ∈ m.units) (hu : i.unit = a.unit) (hd : i.dtype = a.dtype) {p : ℚ} (hp : (i.region, p) ∈ prices) :
    (0 < xl a.vid → a.price ps m ≤ (if a.dtype = .load then -p else p)) ∧
    (xl a.vid < a.ub → (if a.dtype = .load then -p else p) ≤ a.price ps m) := by
  have hr := hm.reached
  have hw := hr.wf
  obtain ⟨hnd, n, ht1, ht2⟩ := hds.tables
  obtain ⟨lp', hl', _, hpc, _⟩ := dispatch_parts ho
  rw [hl] at hl'; injection hl' with hl'; subst hl'
  unfold Market.energyPrices at hpr
  rw [ht1] at hpr
  dsimp only at hpr
  rw [saveIndex_filterMap] at hpr
  injection hpr with hpr
  subst hpr
  have hrn : ((energyConstraints ds n).1.map Row.cid).Nodup := rows_nodup hw.con (k := .demand) (by unfold Market.rowsOf; rw [ht1])
  -- the column of the bid
  have hcol : (lp.rows.map (fun r => o.price r.cid * linVal (unitVec a.vid) r.coefs)).sum = (if a.dtype = .load then -p else p) := by
    have e1 : (lp.rows.map (fun r => o.price r.cid * linVal (unitVec a.vid) r.coefs)).sum =
        ((lp.rows.map LRow.cid).map (fun c => o.price c * rowVal m.terms (unitVec a.vid) c)).sum := by
      rw [List.map_map]
      apply sum_map_congr
      intro r hr'
      rw [lpRow_val hl hr']; rfl
    rw [e1, sum_sublist (lpRows_nodup hl) hrn]
    · have hreg : ((energyConstraints ds n).1.map Row.region).Nodup := by
        have := hnd.map (f := some) (fun a b h => by injection h)
        unfold energyConstraints
        dsimp only
        rw [map_saveIndex]
        rw [List.map_map] at this
        rw [show (fun (i : Nat) (d : Demand) => Row.region { cid := i, ctype := .eq, rhs := d.demand, region := some d.region }) =
          fun (_ : Nat) (d : Demand) => some d.region from rfl, saveIndex_vals]
        exact this
      obtain ⟨j, d, hj, e⟩ := mem_saveIndex.1 hp
      injection e with e2 e3
      have hrow := energy_mem (n := n) hj
      rw [List.map_map]
      have e4 : ((energyConstraints ds n).1.map ((fun c => o.price c * rowVal m.terms (unitVec a.vid) c) ∘ Row.cid)).sum =
          (((energyConstraints ds n).1.filter (fun r => decide (r.region = some i.region))).map (fun r =>
            o.price r.cid * (if a.dtype = .load then -1 else 1))).sum := by
        rw [sum_filter_eq_ite]
        apply sum_map_congr
        intro r hr'
        obtain ⟨j', d', hj', rfl⟩ := mem_saveIndex.1 hr'
        simp only [Function.comp]
        rw [column hm ha hi hu hd (k := .demand) (inTab_of_rowOf (Or.inr (Or.inl ⟨_, ht1, _, hr', rfl⟩))), ht2]
        simp only [Option.getD_some]
        have hf1 : (energyConstraints ds n).2.filter (fun k => decide (k.cid = n + j')) = [⟨n + j', d'.region, .energy, 1⟩] :=
          filter_saveIndex ds n (fun i (d : Demand) => ({ cid := i, region := d.region, service := .energy, coef := 1 } : ConReg))
            ConReg.cid (fun _ _ => rfl) hj'
        rw [hf1, hd, hse]
        by_cases e : i.region = d'.region
        · simp [e]
        · have e' : ¬ d'.region = i.region := fun h => e h.symm
          simp [e, e']
      rw [e4, e2]
      have hu1 := filter_key_unique (key := Row.region) hreg hrow
      dsimp only at hu1
      rw [hu1]
      simp only [List.map_cons, List.map_nil, List.sum_cons, List.sum_nil, add_zero]
      rw [e3]
      by_cases e : a.dtype = .load <;> simp [e]
    · intro c hc
      obtain ⟨r, hr', rfl⟩ := List.mem_map.1 hc
      exact priced_row hpc ht1 hr'
    · intro c hc hno
      obtain ⟨r, hr', rfl⟩ := List.mem_map.1 hc
      obtain ⟨k, hk⟩ := rowOf_of_allRows hw.con (lpRow hl hr').2.1
      have hkd : k ≠ .demand := by
        rintro rfl
        rcases hk with ⟨rs, h, q, hq, e⟩ | ⟨rs, h, q, hq, e⟩ | ⟨e, _⟩
        · have := hw.con.conMkt _ (Dict.mem_of_get? h)
          cases this
        · rw [ht1] at h; injection h with h; subst h
          exact hno (List.mem_map.2 ⟨q, hq, e⟩)
        · cases e
      rw [column hm ha hi hu hd (inTab_of_rowOf hk)]
      have : ((((m.regCon.get? k).getD []).filter (fun q => decide (q.cid = r.cid))).map (fun q =>
          q.coef * (if i.region = q.region ∧ a.service = q.service then (if i.dtype = .load ∧ q.service = .energy then (-1 : ℚ) else 1) else 0))).sum = 0 := by
        apply sum_map_zero
        intro q hq
        have hq := List.mem_of_mem_filter hq
        have hne : a.service ≠ q.service := by
          rw [hse]
          cases hg : m.regCon.get? k with
          | none => rw [hg] at hq; cases hq
          | some cs =>
            have hmk := hw.key.2 _ (Dict.mem_of_get? hg)
            have : k = .fcas := by
              cases k <;> simp [CKey.isMarket] at hmk hkd ⊢
            subst this
            exact fun e => noEnergy hm q hq e.symm
        rw [if_neg (fun h => hne h.2), mul_zero]
      rw [this, mul_zero]
  -- bounds of the variable
  have hbv : (⟨a.vid, 0, some a.ub⟩ : LVar) ∈ m.allVars := by
    unfold Market.allVars
    simp only [List.mem_append, List.mem_map]
    exact Or.inl (Or.inl (Or.inl (Or.inl ⟨a, ha, rfl⟩)))
  have hvn : (m.allVars.map LVar.vid).Nodup := allVars_nodup hr
  have hvars : ∀ w ∈ (m.linear S o.x lp).vars, w.vid = a.vid → w = ⟨a.vid, 0, some a.ub⟩ := by
    intro w hw' e
    obtain ⟨w', hw'', e1, h⟩ := linear_vars hw'
    rw [(assemble_parts hl).1] at hw''
    rcases h with rfl | ⟨h, _⟩
    · exact List.inj_on_of_nodup_map hvn hw'' hbv e
    · rw [e] at h
      exact absurd (unused_net hS h) (hr.net _ (List.mem_map_of_mem (f := BidVar.vid) ha))
  have hrhs : ∀ r ∈ (m.linear S o.x lp).rows, r.rhs ≠ .var a.vid := by
    intro r hr' e
    rw [linear_rows] at hr'
    have h1 := (lpRow hl hr').2.1
    rw [e] at h1
    simp only [Market.allRows, List.mem_append, List.mem_map, Prod.mk.injEq, reduceCtorEq, and_false, exists_false, false_or,
      Rhs.var.injEq] at h1
    obtain ⟨q, hq, _, _, e⟩ := h1
    apply hr.net _ (List.mem_map_of_mem (f := BidVar.vid) ha)
    have := List.mem_map_of_mem (f := DynRow.rhsVid) hq
    rw [e] at this
    unfold Market.netRefs
    simp only [List.mem_append]
    tauto
  have hx := hs.feasible.vars
  have hcost : (m.linear S o.x lp).cost (unitVec a.vid) = a.price ps m := by
    rw [linear_cost]; exact cost_unitVec hpb hr hbu hl ha
  have hred : ∀ δ, 0 ≤ xl a.vid + δ → xl a.vid + δ ≤ a.ub → δ * (if a.dtype = .load then -p else p) ≤ δ * a.price ps m := by
    intro δ h1 h2
    have := hs.reduced (v := a.vid) (δ := δ) (by
      intro w hw' e
      rw [hvars w hw' e]
      refine ⟨h1, ?_⟩
      intro u hu'
      injection hu' with hu'
      rw [← hu']; exact h2) hrhs
    rw [linear_rows, hcol, hcost] at this
    exact this
  have hv : (⟨a.vid, 0, some a.ub⟩ : LVar).holds xl := by
    have hin : ∃ w ∈ (m.linear S o.x lp).vars, w.vid = a.vid := by
      unfold Market.linear
      dsimp only
      have : (⟨a.vid, 0, some a.ub⟩ : LVar) ∈ lp.vars := by rw [(assemble_parts hl).1]; exact hbv
      split
      · refine ⟨_, List.mem_map.2 ⟨_, this, rfl⟩, ?_⟩
        split <;> rfl
      · exact ⟨_, this, rfl⟩
    obtain ⟨w, hw', e⟩ := hin
    rw [← hvars w hw' e]
    exact hx w hw'
  have hv2 := hv.2 _ rfl
  have hv1 := hv.1
  dsimp only at hv1 hv2
  constructor
  · intro h0
    have := hred (-xl a.vid) (by linarith) (by linarith)
    by_contra hc
    push Not at hc
    have := mul_lt_mul_of_pos_left hc h0
    linarith
  · intro h0
    have := hred (a.ub - xl a.vid) (by linarith) (by linarith)
    by_contra hc
    push Not at hc
    have := mul_lt_mul_of_pos_left hc (sub_pos.2 h0)
    linarith

/-! ### Instances -/

def priceDemand : List Demand := [{ region := "NSW", demand := 50 }, { region := "VIC", demand := 60 }]
def priceReqs : List FcasReq := [{ set := "R", service := .raise6s, region := "NSW", volume := 12, ctype := .ge },
  { set := "R", service := .raise6s, region := "VIC", volume := 12, ctype := .ge },
  { set := "V", service := .raise6s, region := "VIC", volume := 5, ctype := .ge }]
def priceBids : List BidRow := [{ unit := "A", bands := [("1", 20)] }, { unit := "A", service := .raise6s, bands := [("1", 5)] },
  { unit := "B", bands := [("1", 40)] }, { unit := "B", service := .raise6s, bands := [("1", 7)] }]

/-- Two regions joined by a full interconnector; a requirement for both regions and one for the second. -/
def priceCase : Case where
  regions := ["NSW", "VIC"]
  units := [{ unit := "A", region := "NSW" }, { unit := "B", region := "VIC" }]
  hist := [.volumeBids [{ unit := "A", bands := [("1", 100)] }, { unit := "A", service := .raise6s, bands := [("1", 20)] },
      { unit := "B", bands := [("1", 100)] }, { unit := "B", service := .raise6s, bands := [("1", 20)] }],
    .priceBids priceBids,
    .interconnectors [{ inter := "I", link := "I", fromR := "NSW", toR := "VIC", min := -30, max := 30 }],
    .demand priceDemand none, .fcasReq priceReqs none]
  sol := [80, 7, 30, 5, 30]

/-- instance of C30: NSW has the price 20, VIC 40, and the FCAS price of VIC is the sum of the prices of both sets -/
example : ∃ m lp o S, InForce (.demand priceDemand none) m ∧ InForce (.fcasReq priceReqs none) m ∧ LossFunctions [] m ∧
    m.properLinks [] ∧ m.dispatch S none = .ok o ∧ S.sorts ∧ m.assemble = .ok lp ∧ ShadowPrices (m.linear S o.x lp) priceCase.x o.price ∧
    m.energyPrices o.price = .ok [("NSW", 20), ("VIC", 40)] ∧
    m.fcasPrices o.price = .ok [(("NSW", .raise6s), 5), (("VIC", .raise6s), 7)] ∧
    CallsOnly (fun o => o.balanceOnly = true) m ∧ InForceKeeping [.bids] (.priceBids priceBids) m ∧ BandsUnique priceBids ∧ DemandSet priceDemand m ∧
    (⟨"A", "1", .energy, .generator, 0, 100⟩ : BidVar) ∈ m.bids.getD [] := by
  have h : priceCase.shadow [20, 40, 5, 2] (fun m => decide (
      m.energyPrices (fun c => [20, 40, 5, 2].getD c 0) = .ok [("NSW", 20), ("VIC", 40)] ∧
      m.fcasPrices (fun c => [20, 40, 5, 2].getD c 0) = .ok [(("NSW", .raise6s), 5), (("VIC", .raise6s), 7)] ∧
      (⟨"A", "1", .energy, .generator, 0, 100⟩ : BidVar) ∈ m.bids.getD [])) = true := by decide +kernel
  obtain ⟨m, lp, o, h0, h1, h2, h3, h4, h5, h6⟩ := Case.shadow_spec h
  obtain ⟨k1, k2, k3⟩ := of_decide_eq_true h6
  refine ⟨m, lp, o, _, ?_, ?_, Or.inl ⟨rfl, ?_⟩, ?_, h2, Case.solver_sorts _ _, h1, h5, h4 ▸ k1, h4 ▸ k2, Case.callsOnly h0 (by decide +kernel),
    Case.inForce (i := 1) (keep := [.bids]) h0 rfl (by decide +kernel), by unfold BandsUnique; decide, ?_, k3⟩
  · exact InForceKeeping.inForce (Case.inForce (i := 3) (keep := []) h0 rfl (by decide +kernel))
  · exact InForceKeeping.inForce (Case.inForce (i := 4) (keep := []) h0 rfl (by decide +kernel))
  · obtain ⟨r, u, di, m0, ops, q1, q2, q3, q4⟩ := Case.callsOnly (p := fun o => Part.set .interpWeights ∉ o.parts) h0 (by decide +kernel)
    exact ⟨r, u, di, m0, ops, q1, q2, q3, q4⟩
  · intro d _ f hf; cases hf
  · obtain ⟨r, u, di, m0, before, after, q1, q2, q3, q4, q5⟩ :=
      InForceKeeping.inForce (Case.inForce (s := priceCase) (op := .demand priceDemand none) (i := 3) (keep := []) h0 rfl (by decide +kernel))
    refine ⟨r, u, di, m0, before, after, none, q1, q2, q3, ?_, q5⟩
    rintro o ho ds vc rfl
    exact q4 _ ho (.set .demand) (by simp [Op.parts]) (by simp [Op.parts])

end Verif
