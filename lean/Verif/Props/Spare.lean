import Verif.Props.Shortage
import Verif.Props.Regional

/-!
# C141: FCAS beyond the requirement has no price
-/

namespace Verif

section
variable {rs : List FcasReq} {fs : List LossFn} {m : Market} {S : Solver} {o : Outcome} {lp : Lp} {xl : Nat → ℚ}
  {prices : List ((String × Service) × ℚ)} {g : String} {s : Service} {p : ℚ}

/-- the row of a requirement set, its price and its slack -/
theorem fcas_row_price (h : InForce (.fcasReq rs none) m) (hs : ∀ r ∈ rs, r.service ≠ .energy) (hf : LossFunctions fs m)
    (hl : m.assemble = .ok lp) (hsp : ShadowPrices (m.linear S o.x lp) xl o.price) (hpr : m.fcasPrices o.price = .ok prices)
    (hp : ((g, s), p) ∈ prices) (hsup : m.hasSupply g s) :
    ∃ w : String → ℚ, p = ((rs.filter (fun q => decide (q.region = g ∧ q.service = s))).map (fun q => w q.set)).sum ∧
      ∀ q ∈ rs, q.region = g → q.service = s → ∀ r, FirstOfSet rs r → r.set = q.set →
        (r.ctype = .ge → 0 ≤ w q.set) ∧ (r.ctype = .le → w q.set ≤ 0) ∧
        w q.set * (m.setSupply xl rs r.set + m.linked xl r.set - r.volume) = 0 := by
  obtain ⟨n, hi⟩ := fcas_imposed h
  refine ⟨fun z => (((fcasConstraints rs n).1.filter (fun t => decide (t.set = some z))).map (fun t => o.price t.cid)).sum,
    fcas_price_sum h.fcasSet hi.rhs hi.map hpr hp, ?_⟩
  intro q hq e1 e2 r hr e
  have hr0 := mem_dropDup_first.2 hr
  obtain ⟨i, hr'⟩ := List.mem_iff_getElem?.1 hr0
  have hrow : ({ cid := n + i, ctype := r.ctype, rhs := r.volume, set := some r.set } : Row) ∈ (fcasConstraints rs n).1 :=
    mem_saveIndex.2 ⟨i, r, hr', rfl⟩
  have hsets : ((fcasConstraints rs n).1.map Row.set).Nodup := by
    have := (dropDup_sets rs).map (f := some) (fun a b h => by injection h)
    show ((fcasRows rs n).map Row.set).Nodup
    rw [fcasRows, map_saveIndex]
    rw [show (fun (i : Nat) (a : FcasReq) => Row.set { cid := i, ctype := a.ctype, rhs := a.volume, set := some a.set }) =
      fun (_ : Nat) (a : FcasReq) => some a.set from rfl, saveIndex_vals]
    rw [List.map_map] at this
    exact this
  have hone := filter_key_unique (key := Row.set) hsets hrow
  dsimp only at hone
  dsimp only
  rw [show q.set = r.set from e.symm, hone]
  simp only [List.map_cons, List.map_nil, List.sum_cons, List.sum_nil, add_zero]
  obtain ⟨k1, k2⟩ := fcas_row hi hs hf xl hr'
  have ht := k1.2 (Or.inl ⟨q, hq, e.symm, by rw [e1, e2]; exact hsup⟩)
  have hm := lpRow_of hi.wf.con hl (mktRow_mem hi.rhs hrow) ht
  have hm' := hm
  rw [← linear_rows m S o.x lp] at hm'
  refine ⟨fun hc => hsp.ge _ hm' hc, fun hc => hsp.le _ hm' hc, ?_⟩
  have h4 := hsp.slack_row hm'
  rw [lpRow_val hl hm, k2] at h4
  exact h4

/-- **C141** If no requirement set in which a region provides a service is met exactly (a `≥` requirement is then exceeded, C14), the
price of the service in the region is zero. -/
theorem C141_spare (h : InForce (.fcasReq rs none) m) (hs : ∀ r ∈ rs, r.service ≠ .energy) (hf : LossFunctions fs m)
    (hl : m.assemble = .ok lp) (hsp : ShadowPrices (m.linear S o.x lp) xl o.price) (hpr : m.fcasPrices o.price = .ok prices)
    (hp : ((g, s), p) ∈ prices) (hsup : m.hasSupply g s)
    (hmore : ∀ q ∈ rs, q.region = g → q.service = s → ∀ r, FirstOfSet rs r → r.set = q.set →
      m.setSupply xl rs r.set + m.linked xl r.set ≠ r.volume) : p = 0 := by
  obtain ⟨w, e, hw⟩ := fcas_row_price h hs hf hl hsp hpr hp hsup
  rw [e]
  apply List.sum_eq_zero
  intro z hz
  obtain ⟨q, hq, rfl⟩ := List.mem_map.1 hz
  obtain ⟨hq, hc⟩ := List.mem_filter.1 hq
  obtain ⟨e1, e2⟩ : q.region = g ∧ q.service = s := by simpa using hc
  obtain ⟨r, hr, e3⟩ := exists_dropDup (key := FcasReq.set) hq
  have hr := mem_dropDup_first.1 hr
  rcases mul_eq_zero.1 (hw q hq e1 e2 r hr e3).2.2 with h0 | h0
  · exact h0
  · exact absurd (by linarith) (hmore q hq e1 e2 r hr e3)

/-- **C141** A price that is not zero comes from a requirement set in which the region provides the service and which is met exactly. -/
theorem C141_binding (h : InForce (.fcasReq rs none) m) (hs : ∀ r ∈ rs, r.service ≠ .energy) (hf : LossFunctions fs m)
    (hl : m.assemble = .ok lp) (hsp : ShadowPrices (m.linear S o.x lp) xl o.price) (hpr : m.fcasPrices o.price = .ok prices)
    (hp : ((g, s), p) ∈ prices) (hsup : m.hasSupply g s) (h0 : p ≠ 0) :
    ∃ q ∈ rs, q.region = g ∧ q.service = s ∧ ∃ r, FirstOfSet rs r ∧ r.set = q.set ∧
      m.setSupply xl rs r.set + m.linked xl r.set = r.volume := by
  by_contra hno
  apply h0
  apply C141_spare h hs hf hl hsp hpr hp hsup
  intro q hq e1 e2 r hr e3 he
  exact hno ⟨q, hq, e1, e2, r, hr, e3, he⟩

/-- **C141** If all requirement sets in which a region provides a service are `≥` constraints, the price of the service in the region is
not negative (C102 says so for requirements with violation prices). -/
theorem C141_sign (h : InForce (.fcasReq rs none) m) (hs : ∀ r ∈ rs, r.service ≠ .energy) (hf : LossFunctions fs m)
    (hl : m.assemble = .ok lp) (hsp : ShadowPrices (m.linear S o.x lp) xl o.price) (hpr : m.fcasPrices o.price = .ok prices)
    (hp : ((g, s), p) ∈ prices) (hsup : m.hasSupply g s)
    (hge : ∀ q ∈ rs, q.region = g → q.service = s → ∀ r, FirstOfSet rs r → r.set = q.set → r.ctype = .ge) : 0 ≤ p := by
  obtain ⟨w, e, hw⟩ := fcas_row_price h hs hf hl hsp hpr hp hsup
  rw [e]
  apply sum_map_nonneg
  intro q hq
  obtain ⟨hq, hc⟩ := List.mem_filter.1 hq
  obtain ⟨e1, e2⟩ : q.region = g ∧ q.service = s := by simpa using hc
  obtain ⟨r, hr, e3⟩ := exists_dropDup (key := FcasReq.set) hq
  have hr := mem_dropDup_first.1 hr
  exact (hw q hq e1 e2 r hr e3).1 (hge q hq e1 e2 r hr e3)

/-- **C141, of a dispatch.**  Where the linear model did not find a cheaper solution than the dispatch (as in C119), the claim holds of
the dispatch itself. -/
theorem C141_dispatch (h : InForce (.fcasReq rs none) m) (hs : ∀ r ∈ rs, r.service ≠ .energy) (hf : LossFunctions fs m)
    (ho : m.dispatch S none = .ok o) (hl : m.assemble = .ok lp) (hopt : Optimal lp o.x) (hlin : Feasible (m.linear S o.x lp) o.x)
    (hsp : ShadowPrices (m.linear S o.x lp) xl (S.dual (m.linear S o.x lp))) (hx : Feasible lp xl)
    (hpr : m.fcasPrices o.price = .ok prices) (hp : ((g, s), p) ∈ prices) (hsup : m.hasSupply g s)
    (hmore : ∀ q ∈ rs, q.region = g → q.service = s → ∀ r, FirstOfSet rs r → r.set = q.set →
      m.setSupply o.x rs r.set + m.linked o.x r.set ≠ r.volume) : p = 0 := by
  rw [← C30_of_linear_model ho hl] at hsp
  exact C141_spare h hs hf hl (C103_at_dispatch hsp hopt hlin hx) hpr hp hsup hmore

/-- **C141, violation prices.**  A constraint with a violation price that holds with room to spare has the shadow price zero. -/
theorem C141_elastic {k : CKey} {vc : VCost} (h : InForce (.elastic k vc) m) (hv : vc.proper) (hS : S.sorts)
    (hl : m.assemble = .ok lp) (hsp : ShadowPrices (m.linear S o.x lp) xl o.price) {r : Row} (hr : r ∈ m.elasticRows k vc) :
    (r.ctype = .ge → r.rhs < m.originalLhs k xl r.cid → o.price r.cid = 0) ∧
    (r.ctype = .le → m.originalLhs k xl r.cid < r.rhs → o.price r.cid = 0) := by
  obtain ⟨n, E⟩ := elasticSet_of h hv (List.ne_nil_of_mem hr)
  have hreach : Reached m := h.reached
  have hco := ElasticSet.costed_mem hr
  have hmem : ∀ s, s ∈ (slots (m.costed k vc) n).filter (fun s => decide (s.row.cid = r.cid)) → s ∈ slots (m.costed k vc) n :=
    fun s h => List.mem_of_mem_filter h
  have slack : ∀ s, s ∈ slots (m.costed k vc) n → s.row = r → o.price r.cid * (m.originalLhs k xl r.cid +
      (((slots (m.costed k vc) n).filter (fun s => decide (s.row.cid = r.cid))).map (fun s => s.sg * xl s.vid)).sum - r.rhs) = 0 := by
    intro s hs' e
    obtain ⟨q, hq, e'⟩ := E.reaches hl hr hs' (by rw [e])
    have h1 := hsp.slack_row (r := q) (by rw [linear_rows]; exact hq)
    have hu := unique_row E.wf.con (elasticRows_mem hr).1 (by rw [e']; exact (lpRow hl hq).2.1)
    rw [lpRow_val hl hq, E.slot_val, ← hu.2, ← e'] at h1
    exact h1
  have nonneg : ∀ s, s ∈ slots (m.costed k vc) n → 0 ≤ xl s.vid := fun s h => slot_nonneg E hreach hS hl hsp.feasible h
  rcases slots_row E.nodup n hco with ⟨i, ⟨ht, hf⟩ | ⟨ht, hf⟩⟩ | ⟨i, j, ht, hf⟩ | ⟨ht, -⟩ <;> dsimp only at ht
  · dsimp only at hf
    have hin := hmem ⟨i, r, (vc.of r).getD 0, 1⟩ (by rw [hf]; simp)
    have h1 := slack _ hin rfl
    have h3 := nonneg _ hin
    rw [hf] at h1
    simp only [List.map_cons, List.map_nil, List.sum_cons, List.sum_nil] at h1 h3
    rw [ht]
    refine ⟨fun _ hlt => ?_, by simp⟩
    rcases mul_eq_zero.1 h1 with h2 | h2
    · exact h2
    · linarith
  · dsimp only at hf
    have hin := hmem ⟨i, r, (vc.of r).getD 0, -1⟩ (by rw [hf]; simp)
    have h1 := slack _ hin rfl
    have h3 := nonneg _ hin
    rw [hf] at h1
    simp only [List.map_cons, List.map_nil, List.sum_cons, List.sum_nil] at h1 h3
    rw [ht]
    refine ⟨by simp, fun _ hlt => ?_⟩
    rcases mul_eq_zero.1 h1 with h2 | h2
    · exact h2
    · linarith
  · rw [ht]; simp
  · rw [ht]; simp

/-- **C141, FCAS with violation prices.**  If all requirement sets in which a region provides a service have violation prices and are
`≥` constraints that are exceeded, then the price of the service in the region is zero. -/
theorem C141_fcas_elastic {vc : VCost} (hrs : FcasSet rs m) (h : InForce (.elastic .fcas vc) m) (hv : vc.proper)
    (hne : ∀ r ∈ rs, r.service ≠ .energy) (hf : LossFunctions fs m) (hS : S.sorts) (hl : m.assemble = .ok lp)
    (hsp : ShadowPrices (m.linear S o.x lp) xl o.price) (hpr : m.fcasPrices o.price = .ok prices) (hp : ((g, s), p) ∈ prices)
    (hc : ∀ r ∈ rs, r.region = g → r.service = s → (vc.forSet r.set).isSome = true)
    (hmore : ∀ q ∈ rs, q.region = g → q.service = s → ∀ r, FirstOfSet rs r → r.set = q.set →
      r.ctype = .ge ∧ r.volume < m.setSupply xl rs r.set + m.linked xl r.set) : p = 0 := by
  obtain ⟨-, -, n, ht1, ht2⟩ := hrs.tables
  have hw := h.reached.wf
  rw [fcas_price_sum hrs ht1 ht2 hpr hp]
  apply List.sum_eq_zero
  intro z hz
  obtain ⟨q, hq, rfl⟩ := List.mem_map.1 hz
  have hq' := List.mem_filter.1 hq
  obtain ⟨e1, e2⟩ : q.region = g ∧ q.service = s := by simpa using hq'.2
  have hq := hq'.1
  obtain ⟨r, hr, e⟩ := exists_dropDup (key := FcasReq.set) hq
  obtain ⟨i, hr'⟩ := List.mem_iff_getElem?.1 hr
  have hrow : ({ cid := n + i, ctype := r.ctype, rhs := r.volume, set := some r.set } : Row) ∈ (fcasConstraints rs n).1 :=
    mem_saveIndex.2 ⟨i, r, hr', rfl⟩
  have hsets : ((fcasConstraints rs n).1.map Row.set).Nodup := by
    have := (dropDup_sets rs).map (f := some) (fun a b h => by injection h)
    show ((fcasRows rs n).map Row.set).Nodup
    rw [fcasRows, map_saveIndex]
    rw [show (fun (i : Nat) (a : FcasReq) => Row.set { cid := i, ctype := a.ctype, rhs := a.volume, set := some a.set }) =
      fun (_ : Nat) (a : FcasReq) => some a.set from rfl, saveIndex_vals]
    rw [List.map_map] at this
    exact this
  have hone := filter_key_unique (key := Row.set) hsets hrow
  dsimp only at hone
  rw [show q.set = r.set from e.symm, hone]
  simp only [List.map_cons, List.map_nil, List.sum_cons, List.sum_nil, add_zero]
  have hof : (vc.of ({ cid := n + i, ctype := r.ctype, rhs := r.volume, set := some r.set } : Row)).isSome = true := by
    have h0 := hc q hq e1 e2
    rw [← show r.set = q.set from e] at h0
    cases vc with
    | num c => rfl
    | table t =>
      simp only [VCost.of, VCost.forSet] at h0 ⊢
      rw [← h0]
      congr 3
      funext c
      simp [eq_comm]
  have hel : ({ cid := n + i, ctype := r.ctype, rhs := r.volume, set := some r.set } : Row) ∈ m.elasticRows .fcas vc := by
    unfold Market.elasticRows Market.rowsOf
    rw [ht1]
    exact List.mem_filter.2 ⟨hrow, hof⟩
  obtain ⟨s1, s2⟩ := hmore q hq e1 e2 r (mem_dropDup_first.1 hr) e
  apply (C141_elastic h hv hS hl hsp hel).1 s1
  show r.volume < m.originalLhs .fcas xl (n + i)
  rw [originalLhs_fcas hw ht1 ht2 hne hf xl hr']
  exact s2

end

/-- Requirement for regulation in both regions together, and a smaller one in NSW that is exceeded. -/
def exceededReqs : List FcasReq :=
  [{ set := "both", service := .raiseReg, region := "NSW", volume := 30, ctype := .ge },
    { set := "both", service := .raiseReg, region := "VIC", volume := 30, ctype := .ge },
    { set := "six", service := .raise6s, region := "NSW", volume := 10, ctype := .ge }]

/-- The unit pays to provide the service: it is enabled beyond the requirement. -/
def exceededCase : Case where
  regions := ["NSW", "VIC"]
  units := [{ unit := "A", region := "NSW" }, { unit := "V", region := "VIC" }]
  hist := [.volumeBids [{ unit := "A", service := .raiseReg, bands := [("1", 20)] }, { unit := "V", service := .raiseReg, bands := [("1", 50)] },
      { unit := "A", service := .raise6s, bands := [("1", 40)] }],
    .priceBids [{ unit := "A", service := .raiseReg, bands := [("1", 5)] }, { unit := "V", service := .raiseReg, bands := [("1", 8)] },
      { unit := "A", service := .raise6s, bands := [("1", -1)] }],
    .fcasReq exceededReqs none]
  sol := [20, 40, 10]

theorem exceededCase_noLosses {m : Market} (h : exceededCase.final = some m) : LossFunctions [] m := by
  left
  refine ⟨rfl, ?_⟩
  unfold Case.final at h
  cases hm : Market.init exceededCase.regions exceededCase.units exceededCase.di with
  | error e => rw [hm] at h; cases h
  | ok m0 =>
    rw [hm] at h
    simp only at h
    split at h
    · rename_i hb
      injection h with h
      exact ⟨_, _, _, m0, exceededCase.hist, hm, benignB_iff.1 hb, by decide, h.symm⟩
    · cases h

/-- instance of C141: `six` is exceeded and has no price, `both` is met exactly and has one -/
example : ∃ m lp o S, InForce (.fcasReq exceededReqs none) m ∧ (∀ r ∈ exceededReqs, r.service ≠ .energy) ∧ LossFunctions [] m ∧
    m.dispatch S none = .ok o ∧ m.assemble = .ok lp ∧ ShadowPrices (m.linear S o.x lp) exceededCase.x o.price ∧
    m.fcasPrices o.price = .ok [(("NSW", .raiseReg), 8), (("VIC", .raiseReg), 8), (("NSW", .raise6s), 0)] ∧
    m.hasSupply "NSW" .raise6s ∧ m.hasSupply "NSW" .raiseReg ∧
    m.setSupply exceededCase.x exceededReqs "six" + m.linked exceededCase.x "six" = 40 ∧
    m.setSupply exceededCase.x exceededReqs "both" + m.linked exceededCase.x "both" = 30 := by
  have h : exceededCase.shadow [8, 0] (fun m => decide (
      m.fcasPrices (fun c => [8, 0].getD c 0) = .ok [(("NSW", .raiseReg), 8), (("VIC", .raiseReg), 8), (("NSW", .raise6s), 0)] ∧
      m.hasSupply "NSW" .raise6s ∧ m.hasSupply "NSW" .raiseReg ∧
      m.setSupply exceededCase.x exceededReqs "six" + m.linked exceededCase.x "six" = 40 ∧
      m.setSupply exceededCase.x exceededReqs "both" + m.linked exceededCase.x "both" = 30)) = true := by decide +kernel
  obtain ⟨m, lp, o, h0, h1, h2, h3, h4, h5, h6⟩ := Case.shadow_spec h
  obtain ⟨k1, k2, k3, k4, k5⟩ := of_decide_eq_true h6
  exact ⟨m, lp, o, _, InForceKeeping.inForce (Case.inForce (s := exceededCase) (i := 2) (keep := []) h0 rfl (by decide +kernel)), by decide,
    exceededCase_noLosses h0, h2, h1, h5, h4 ▸ k1, k2, k3, k4, k5⟩

/-- The requirement `six` with a violation price. -/
def exceededElasticCase : Case where
  regions := ["NSW", "VIC"]
  units := [{ unit := "A", region := "NSW" }, { unit := "V", region := "VIC" }]
  hist := [.volumeBids [{ unit := "A", service := .raiseReg, bands := [("1", 20)] }, { unit := "V", service := .raiseReg, bands := [("1", 50)] },
      { unit := "A", service := .raise6s, bands := [("1", 40)] }],
    .priceBids [{ unit := "A", service := .raiseReg, bands := [("1", 5)] }, { unit := "V", service := .raiseReg, bands := [("1", 8)] },
      { unit := "A", service := .raise6s, bands := [("1", -1)] }],
    .fcasReq exceededReqs (some (.num 1000))]
  sol := [20, 40, 10, 0, 0]

/-- instance of C141_elastic and C141_fcas_elastic -/
example : ∃ m lp o S r, FcasSet exceededReqs m ∧ InForce (.elastic .fcas (.num 1000)) m ∧ (VCost.num 1000).proper ∧ S.sorts ∧
    m.dispatch S none = .ok o ∧ m.assemble = .ok lp ∧
    ShadowPrices (m.linear S o.x lp) exceededElasticCase.x o.price ∧ r ∈ m.elasticRows .fcas (.num 1000) ∧ r.ctype = .ge ∧
    r.rhs < m.originalLhs .fcas exceededElasticCase.x r.cid := by
  have h : exceededElasticCase.shadow [8, 0] (fun m => (m.elasticRows .fcas (.num 1000)).any (fun r =>
      decide (r.ctype = .ge ∧ r.rhs < m.originalLhs .fcas exceededElasticCase.x r.cid))) = true := by decide +kernel
  obtain ⟨m, lp, o, h0, h1, h2, h3, h4, h5, h6⟩ := Case.shadow_spec h
  obtain ⟨r, k1, k2⟩ := List.any_eq_true.1 h6
  obtain ⟨k2, k3⟩ := of_decide_eq_true k2
  have hf := InForceKeeping.inForce (Case.inForce (s := exceededElasticCase) (op := .fcasReq exceededReqs (some (.num 1000))) (i := 2) (keep := []) h0 rfl (by decide +kernel))
  exact ⟨m, lp, o, _, r, hf.fcasSet, apart_inForce rfl hf (by simp), trivial, Case.solver_sorts _ _, h2, h1, h5, k1, k2, k3⟩

end Verif
