import Verif.Props.PriceCap
import Verif.Props.Equilibrium
import Verif.Props.Comparative

/-!
# C119: a shortage sets the price
-/

namespace Verif

theorem ownTerms_reg {m : Market} (hw : WF m) {k : CKey} (hk : k.isMarket = true) {t : List Row × List ConReg}
    (h1 : m.mktRhs.get? k = some t.1) (h2 : m.regCon.get? k = some t.2) :
    m.ownTerms k = ((m.deficits.get? k).elim [] (·.2)) ++ m.genericTermsFor (setIds (if k = .fcas then t.1 else [])) ++
      createLhsReg t.2 m.regVars := by
  have h5 : m.unitCon.get? k = none := by
    apply get?_none_of_keys
    rintro e he rfl
    have := hw.key.1 e he
    have h' := isUnit_not_market this
    rw [hk] at h'; cases h'
  have n1 : k ≠ .interpWeights := by rintro rfl; simp [CKey.isMarket] at hk
  have n2 : k ≠ .tieBreak := by rintro rfl; simp [CKey.isMarket] at hk
  have n3 : k ≠ .generic := by rintro rfl; simp [CKey.isMarket] at hk
  unfold Market.ownTerms Market.genericRows
  rw [if_neg n1, if_neg n2, if_neg n3, h5, h2]
  by_cases h4 : k = .fcas
  · subst h4
    rw [if_pos rfl, if_pos rfl, h1]
    simp [createLhsUnit]
  · rw [if_neg h4, if_neg h4]
    simp [createLhsUnit]

/-- the left hand side of a regional constraint before it was made elastic -/
theorem originalLhs_reg {m : Market} (hw : WF m) {k : CKey} (hk : k.isMarket = true) {t : List Row × List ConReg}
    (h1 : m.mktRhs.get? k = some t.1) (h2 : m.regCon.get? k = some t.2) {r : Row} (hr : r ∈ t.1) (x : Nat → ℚ) :
    m.originalLhs k x r.cid =
      rowVal (m.genericTermsFor (setIds (if k = .fcas then t.1 else []))) x r.cid + m.regLhs x t.2 r.cid := by
  have hin : InTab m k r.cid := Or.inr (Or.inr (Or.inr (Or.inl ⟨t.1, Dict.mem_of_get? h1, r, hr, rfl⟩)))
  have h := rowVal_own hw.con hin x
  rw [ownTerms_reg hw hk h1 h2, rowVal_append, rowVal_append, rowVal_createLhsReg] at h
  rw [originalLhs_eq]
  cases hd : m.deficits.get? k with
  | none =>
    have e : m.inelastic k = m := by
      unfold Market.inelastic
      rw [Dict.erase_none hd]
    rw [e, h, hd]
    simp [rowVal_nil, Market.regLhs]
  | some d =>
    rw [rowVal_split hw hd, hd] at h
    simp only [Option.elim_some] at h
    rw [Market.regLhs]
    linarith

theorem originalLhs_demand {ds : List Demand} {m : Market} (h : DemandSet ds m) (hw : WF m) {n : Nat}
    (h1 : m.mktRhs.get? .demand = some (energyConstraints ds n).1) (h2 : m.regCon.get? .demand = some (energyConstraints ds n).2)
    {fs : List LossFn} (hf : LossFunctions fs m) (hp : m.properLinks fs) (x : Nat → ℚ) {i : Nat} {d : Demand} (hd : ds[i]? = some d) :
    m.originalLhs .demand x (n + i) = m.balance x fs d.region := by
  have hf1 : (energyConstraints ds n).2.filter (fun k => decide (k.cid = n + i)) = [⟨n + i, d.region, .energy, 1⟩] :=
    filter_saveIndex ds n (fun i (d : Demand) => ({ cid := i, region := d.region, service := .energy, coef := 1 } : ConReg))
      ConReg.cid (fun _ _ => rfl) hd
  have e := originalLhs_reg hw rfl h1 h2 (energy_mem hd) x
  dsimp only at e
  simp only [reduceCtorEq, if_false, setIds, List.filterMap_nil, genericTermsFor_nil] at e
  rw [e, Market.regLhs, hf1, Market.balance, ← regSum_energy hw hf hp]
  simp [rowVal_nil]

theorem originalLhs_fcas {rs : List FcasReq} {m : Market} (hw : WF m) {n : Nat}
    (h1 : m.mktRhs.get? .fcas = some (fcasConstraints rs n).1) (h2 : m.regCon.get? .fcas = some (fcasConstraints rs n).2)
    (hs : ∀ r ∈ rs, r.service ≠ .energy) {fs : List LossFn} (hf : LossFunctions fs m) (x : Nat → ℚ) {i : Nat} {d : FcasReq}
    (hd : (dropDup (·.set) rs)[i]? = some d) :
    m.originalLhs .fcas x (n + i) = m.setSupply x rs d.set + m.linked x d.set := by
  have hnd : ((fcasConstraints rs n).1.map Row.cid).Nodup := rows_nodup hw.con (k := .fcas) (by unfold Market.rowsOf; rw [h1])
  have hle : ∀ v ∈ m.lossReg.getD [], v.service = .energy := fun v hv => (lossReg_link hw hf hv).2
  have hmap := fcas_map n hd
  have hsum : ∀ q ∈ rs, regSum m.regVars x q.region q.service = m.supply x q.region q.service := by
    intro q hq
    rw [Market.regVars, regSum_append, regSum_append, supply_eq hw, imports_fcas _ _ (hs q hq)]
    have : regSum (m.lossReg.getD []) x q.region q.service = 0 := by
      rw [regSum, List.filter_eq_nil_iff.2]
      · rfl
      · intro v hv h'
        have h' := (of_decide_eq_true h').2
        exact hs q hq (h'.symm.trans (hle v hv))
    rw [this]; ring
  have e := originalLhs_reg hw rfl h1 h2 (fcas_mem hd) x
  rw [if_pos rfl, rowVal_genericTermsFor hw hnd (fcas_mem hd) rfl] at e
  dsimp only at e
  rw [e, Market.regLhs, hmap, List.map_map, Market.setSupply, add_comm]
  congr 1
  apply sum_map_congr
  intro q hq
  simp only [Function.comp, one_mul]
  exact hsum q (List.mem_of_mem_filter hq)

/-- a violation variable in use sets the price -/
theorem slot_price {m : Market} {k : CKey} {vc : VCost} {n : Nat} (E : ElasticSet m k vc n) (hreach : Reached m) {S : Solver}
    (hS : S.sorts) {x : Nat → ℚ} {lp : Lp} (hl : m.assemble = .ok lp) {xl p : Nat → ℚ} (hs : ShadowPrices (m.linear S x lp) xl p)
    {s : Slot} (hs' : s ∈ slots (m.costed k vc) n) (h0 : 0 < xl s.vid) : p s.row.cid * s.sg = s.cost := by
  have h1 := slot_step E hreach hS hl hs hs' (δ := 1) (by linarith)
  have h2 := slot_step E hreach hS hl hs hs' (δ := -xl s.vid) (by linarith)
  have h3 : xl s.vid * s.cost ≤ xl s.vid * (p s.row.cid * s.sg) := by linarith
  have h4 := le_of_mul_le_mul_left h3 h0
  linarith

/-- **C119** A constraint that is violated at its violation price `c` has this price as its shadow price: `c` where the left hand
side falls short of the right hand side, `-c` where it exceeds it. -/
theorem C119_shadow_price {k : CKey} {vc : VCost} {m : Market} (h : InForce (.elastic k vc) m) (hp : vc.proper) {S : Solver}
    (hS : S.sorts) {o : Outcome} {lp : Lp} (hl : m.assemble = .ok lp)
    {xl : Nat → ℚ} (hs : ShadowPrices (m.linear S o.x lp) xl o.price) {r : Row} (hr : r ∈ m.elasticRows k vc) {c : ℚ}
    (hc : vc.of r = some c) :
    ((r.ctype = .ge ∨ r.ctype = .eq) → m.originalLhs k xl r.cid < r.rhs → o.price r.cid = c) ∧
    ((r.ctype = .le ∨ r.ctype = .eq) → r.rhs < m.originalLhs k xl r.cid → o.price r.cid = -c) := by
  obtain ⟨n, E⟩ := elasticSet_of h hp (List.ne_nil_of_mem hr)
  have hreach : Reached m := h.reached
  have hco : (r, c) ∈ m.costed k vc := by
    have := ElasticSet.costed_mem hr
    rwa [hc] at this
  have hmem : ∀ s, s ∈ (slots (m.costed k vc) n).filter (fun s => decide (s.row.cid = r.cid)) → s ∈ slots (m.costed k vc) n :=
    fun s h => List.mem_of_mem_filter h
  have nonneg : ∀ s, s ∈ slots (m.costed k vc) n → 0 ≤ xl s.vid := fun s h => slot_nonneg E hreach hS hl hs.feasible h
  have hold : ∀ s, s ∈ slots (m.costed k vc) n → s.row = r → r.ctype.holds (m.originalLhs k xl r.cid +
      (((slots (m.costed k vc) n).filter (fun s => decide (s.row.cid = r.cid))).map (fun s => s.sg * xl s.vid)).sum) r.rhs := by
    intro s hs' e
    obtain ⟨q, hq, e'⟩ := E.reaches hl hr hs' (by rw [e])
    exact (E.row_iff hl hq hr e' xl).1 (hs.feasible.rows q (by rw [linear_rows]; exact hq))
  have price := fun (s : Slot) (h : s ∈ slots (m.costed k vc) n) h0 => slot_price E hreach hS hl hs h h0
  rcases slots_row E.nodup n hco with ⟨i, ⟨ht, hf⟩ | ⟨ht, hf⟩⟩ | ⟨i, j, ht, hf⟩ | ⟨ht, -⟩ <;> dsimp only at ht
  · dsimp only at hf
    have hin := hmem ⟨i, r, c, 1⟩ (by rw [hf]; simp)
    have h1 := hold _ hin rfl
    have h2 := price _ hin
    have h3 := nonneg _ hin
    rw [hf, ht] at h1
    simp only [CType.holds, List.map_cons, List.map_nil, List.sum_cons, List.sum_nil] at h1 h2 h3
    rw [ht]
    refine ⟨fun _ hlt => ?_, by simp⟩
    have := h2 (by linarith)
    linarith
  · dsimp only at hf
    have hin := hmem ⟨i, r, c, -1⟩ (by rw [hf]; simp)
    have h1 := hold _ hin rfl
    have h2 := price _ hin
    have h3 := nonneg _ hin
    rw [hf, ht] at h1
    simp only [CType.holds, List.map_cons, List.map_nil, List.sum_cons, List.sum_nil] at h1 h2 h3
    rw [ht]
    refine ⟨by simp, fun _ hlt => ?_⟩
    have := h2 (by linarith)
    linarith
  · dsimp only at hf
    have hin := hmem ⟨i, r, c, -1⟩ (by rw [hf]; simp)
    have hjn := hmem ⟨j, r, c, 1⟩ (by rw [hf]; simp)
    have h1 := hold _ hin rfl
    have h2 := price _ hin
    have h3 := nonneg _ hin
    have h2' := price _ hjn
    have h3' := nonneg _ hjn
    rw [hf, ht] at h1
    simp only [CType.holds, List.map_cons, List.map_nil, List.sum_cons, List.sum_nil] at h1 h2 h3 h2' h3'
    refine ⟨fun _ hlt => ?_, fun _ hlt => ?_⟩
    · have := h2' (by linarith)
      linarith
    · have := h2 (by linarith)
      linarith
  · rw [ht]
    simp

/-- **C119, energy.**  If the demand constraints have the violation price `c`, then the energy price of a region with unserved
energy is `c`, and that of a region with more energy than its demand is `-c`. -/
theorem C119_energy_price {ds : List Demand} {c : ℚ} {m : Market} (hds : DemandSet ds m) (h : InForce (.elastic .demand (.num c)) m)
    {fs : List LossFn} (hf : LossFunctions fs m) (hp : m.properLinks fs)
    {S : Solver} (hS : S.sorts) {o : Outcome} {lp : Lp} (hl : m.assemble = .ok lp) {xl : Nat → ℚ}
    (hs : ShadowPrices (m.linear S o.x lp) xl o.price) {prices : List (String × ℚ)} (hpr : m.energyPrices o.price = .ok prices)
    {d : Demand} (hd : d ∈ ds) {p : ℚ} (hpp : (d.region, p) ∈ prices) :
    (m.balance xl fs d.region < d.demand → p = c) ∧ (d.demand < m.balance xl fs d.region → p = -c) := by
  obtain ⟨hnd, n, ht1, ht2⟩ := hds.tables
  have hw := h.reached.wf
  unfold Market.energyPrices at hpr
  rw [ht1] at hpr
  injection hpr with hpr
  subst hpr
  obtain ⟨r, hr, e⟩ := List.mem_filterMap.1 hpp
  obtain ⟨i, d', hd', rfl⟩ := mem_saveIndex.1 hr
  simp only [Option.map_some, Option.some.injEq, Prod.mk.injEq] at e
  have hdd : d' = d := List.inj_on_of_nodup_map hnd (List.mem_of_getElem? hd') hd e.1
  subst hdd
  have hel : ({ cid := n + i, ctype := .eq, rhs := d'.demand, region := some d'.region } : Row) ∈ m.elasticRows .demand (.num c) := by
    unfold Market.elasticRows Market.rowsOf
    rw [ht1]
    exact List.mem_filter.2 ⟨hr, rfl⟩
  have h3 := C119_shadow_price h trivial hS hl hs hel rfl
  rw [show ({ cid := n + i, ctype := .eq, rhs := d'.demand, region := some d'.region } : Row).cid = n + i from rfl,
    originalLhs_demand hds hw ht1 ht2 hf hp xl hd', e.2] at h3
  exact ⟨h3.1 (Or.inr rfl), h3.2 (Or.inr rfl)⟩

/-- **C119, energy below the cap.**  A region with a price strictly between the cap and the floor gets exactly its demand. -/
theorem C119_served {ds : List Demand} {c : ℚ} {m : Market} (hds : DemandSet ds m) (h : InForce (.elastic .demand (.num c)) m)
    {fs : List LossFn} (hf : LossFunctions fs m) (hp : m.properLinks fs)
    {S : Solver} (hS : S.sorts) {o : Outcome} {lp : Lp} (hl : m.assemble = .ok lp) {xl : Nat → ℚ}
    (hs : ShadowPrices (m.linear S o.x lp) xl o.price) {prices : List (String × ℚ)} (hpr : m.energyPrices o.price = .ok prices)
    {d : Demand} (hd : d ∈ ds) {p : ℚ} (hpp : (d.region, p) ∈ prices) (h1 : p < c) (h2 : -c < p) :
    m.balance xl fs d.region = d.demand := by
  have h3 := C119_energy_price hds h hf hp hS hl hs hpr hd hpp
  rcases lt_trichotomy (m.balance xl fs d.region) d.demand with h4 | h4 | h4
  · exact absurd (h3.1 h4) (ne_of_lt h1)
  · exact h4
  · exact absurd (h3.2 h4) (ne_of_gt h2)

/-- **C119, FCAS.**  If all requirement sets in which a region provides a service are `≥` constraints that are not met, then the
FCAS price is the sum of their violation prices. -/
theorem C119_fcas_price {rs : List FcasReq} {vc : VCost} {m : Market} (hrs : FcasSet rs m) (h : InForce (.elastic .fcas vc) m)
    (hv : vc.proper) (hne : ∀ r ∈ rs, r.service ≠ .energy) {fs : List LossFn} (hf : LossFunctions fs m)
    {S : Solver} (hS : S.sorts) {o : Outcome} {lp : Lp} (hl : m.assemble = .ok lp) {xl : Nat → ℚ}
    (hs : ShadowPrices (m.linear S o.x lp) xl o.price) {prices : List ((String × Service) × ℚ)}
    (hpr : m.fcasPrices o.price = .ok prices) {g : String} {s : Service} {p : ℚ}
    (hp : ((g, s), p) ∈ prices) {cost : String → ℚ}
    (hc : ∀ r ∈ rs, r.region = g → r.service = s → vc.forSet r.set = some (cost r.set))
    (hshort : ∀ q ∈ rs, q.region = g → q.service = s → ∀ r, FirstOfSet rs r → r.set = q.set →
      r.ctype = .ge ∧ m.setSupply xl rs r.set + m.linked xl r.set < r.volume) :
    p = ((rs.filter (fun r => decide (r.region = g ∧ r.service = s))).map (fun r => cost r.set)).sum := by
  obtain ⟨-, -, n, ht1, ht2⟩ := hrs.tables
  have hw := h.reached.wf
  rw [fcas_price_sum hrs ht1 ht2 hpr hp]
  apply sum_map_congr
  intro q hq
  have hq' := List.mem_filter.1 hq
  obtain ⟨e1, e2⟩ : q.region = g ∧ q.service = s := by simpa using hq'.2
  have hq := hq'.1
  obtain ⟨r, hr, e⟩ := exists_dropDup (key := FcasReq.set) hq
  obtain ⟨i, hr'⟩ := List.mem_iff_getElem?.1 hr
  have hrow : ({ cid := n + i, ctype := r.ctype, rhs := r.volume, set := some r.set } : Row) ∈ (fcasConstraints rs n).1 :=
    mem_saveIndex.2 ⟨i, r, hr', rfl⟩
  have hsets : ((fcasConstraints rs n).1.map Row.set).Nodup := by
    have := (dropDup_sets rs).map (f := some) (fun a b h => by injection h)
    show ((fcasRows rs n).map Row.set).Nodup
    rw [fcasRows, map_saveIndex]
    rw [show (fun (i : Nat) (a : FcasReq) => Row.set { cid := i, ctype := a.ctype, rhs := a.volume, set := some a.set }) =
      fun (_ : Nat) (a : FcasReq) => some a.set from rfl, saveIndex_vals]
    rw [List.map_map] at this
    exact this
  have hone := filter_key_unique (key := Row.set) hsets hrow
  dsimp only at hone
  rw [show q.set = r.set from e.symm, hone]
  simp only [List.map_cons, List.map_nil, List.sum_cons, List.sum_nil, add_zero]
  have hof : vc.of ({ cid := n + i, ctype := r.ctype, rhs := r.volume, set := some r.set } : Row) = some (cost r.set) := by
    rw [show r.set = q.set from e, ← hc q hq e1 e2]
    cases vc with
    | num c => rfl
    | table t =>
      simp only [VCost.of, VCost.forSet]
      congr 2
      funext c
      simp [eq_comm]
  have hel : ({ cid := n + i, ctype := r.ctype, rhs := r.volume, set := some r.set } : Row) ∈ m.elasticRows .fcas vc := by
    unfold Market.elasticRows Market.rowsOf
    rw [ht1]
    exact List.mem_filter.2 ⟨hrow, by rw [hof]; rfl⟩
  obtain ⟨s1, s2⟩ := hshort q hq e1 e2 r (mem_dropDup_first.1 hr) e
  have h3 := (C119_shadow_price h hv hS hl hs hel hof).1 (Or.inl s1)
  apply h3
  show m.originalLhs .fcas xl (n + i) < r.volume
  rw [originalLhs_fcas hw ht1 ht2 hne hf xl hr']
  exact s2

/-- **C119, of a dispatch.**  Where the linear model did not find a cheaper solution by mixing segments or directions that the
dispatch excludes (`xl` is feasible for the mixed integer program, which is always so without interconnectors), the claim holds of
the dispatch itself: if the solver's dispatch is optimal and the dual values it reports are shadow prices, then a region with
unserved energy has the violation price as its energy price, and one with more energy than its demand the negative of this price. -/
theorem C119_dispatch {ds : List Demand} {c : ℚ} {m : Market} (h : InForce (.demand ds (some (.num c))) m)
    {fs : List LossFn} (hf : LossFunctions fs m) (hp : m.properLinks fs)
    {S : Solver} (hS : S.sorts) {o : Outcome} (ho : m.dispatch S none = .ok o) {lp : Lp} (hl : m.assemble = .ok lp) (hopt : Optimal lp o.x)
    (hlin : Feasible (m.linear S o.x lp) o.x)
    {xl : Nat → ℚ} (hs : ShadowPrices (m.linear S o.x lp) xl (S.dual (m.linear S o.x lp))) (hx : Feasible lp xl) :
    ∃ prices, m.energyPrices o.price = .ok prices ∧ ∀ d ∈ ds, ∃ p, (d.region, p) ∈ prices ∧
      (m.balance o.x fs d.region < d.demand → p = c) ∧ (d.demand < m.balance o.x fs d.region → p = -c) := by
  rw [← C30_of_linear_model ho hl] at hs
  have hs' := C103_at_dispatch hs hopt hlin hx
  obtain ⟨prices, h1, h2⟩ := energyPrices_regions h.demandSet o.price
  refine ⟨prices, h1, fun d hd => ?_⟩
  have : d.region ∈ prices.map Prod.fst := by rw [h2]; exact List.mem_map_of_mem hd
  obtain ⟨⟨g, p⟩, hpp, e⟩ := List.mem_map.1 this
  dsimp only at e
  subst e
  exact ⟨p, hpp, C119_energy_price h.demandSet (apart_inForce rfl h (by simp)) hf hp hS hl hs' h1 hd hpp⟩

/-- **C105, with unserved energy.**  When the demand constraints have the violation price `c`, then at the reported prices the demand
of the regions costs what the units and the interconnectors earn plus the violation price of all unserved (or excess) energy. -/
theorem C105_with_shortage {ds : List Demand} {c : ℚ} {m : Market} (hds : DemandSet ds m) (h : InForce (.elastic .demand (.num c)) m)
    {fs : List LossFn} (hf : LossFunctions fs m) (hp : m.properLinks fs)
    {S : Solver} (hS : S.sorts) {o : Outcome} {lp : Lp} (hl : m.assemble = .ok lp) {xl : Nat → ℚ}
    (hs : ShadowPrices (m.linear S o.x lp) xl o.price) {energy : List (String × ℚ)} (he : m.energyPrices o.price = .ok energy) :
    energyPayment energy ds = m.energyRevenue energy xl (m.units.map UnitInfo.unit) + m.residue energy fs xl +
      c * (ds.map (fun d => |d.demand - m.balance xl fs d.region|)).sum := by
  obtain ⟨hnd, n, ht1, ht2⟩ := hds.tables
  have key := fun (d : Demand) (hd : d ∈ ds) (p : ℚ) hpp => C119_energy_price hds h hf hp hS hl hs he hd (p := p) hpp
  have he' := he
  unfold Market.energyPrices at he'
  rw [ht1] at he'
  injection he' with he'
  rw [saveIndex_filterMap] at he'
  have hval : ∀ (i : Nat) (d : Demand), ds[i]? = some d →
      o.price (n + i) * (d.demand - m.balance xl fs d.region) = c * |d.demand - m.balance xl fs d.region| := by
    intro i d hd
    have hk := key d (List.mem_of_getElem? hd) (o.price (n + i)) (by rw [← he']; exact mem_saveIndex.2 ⟨i, d, hd, rfl⟩)
    rcases lt_trichotomy (m.balance xl fs d.region) d.demand with h4 | h4 | h4
    · rw [hk.1 h4, abs_of_pos (by linarith)]
    · rw [h4]; simp
    · rw [hk.2 h4, abs_of_neg (by linarith)]; ring
  have hA : energyPayment energy ds = (saveIndex ds n (fun i d => o.price i * d.demand)).sum := by
    unfold energyPayment
    rw [sum_comm', ← he', map_saveIndex]
    congr 1
    apply saveIndex_congr
    intro i d hd
    dsimp only
    rw [filter_key_unique (key := Demand.region) hnd (List.mem_of_getElem? hd)]
    simp
  have hB : m.energyRevenue energy xl (m.units.map UnitInfo.unit) + m.residue energy fs xl =
      (saveIndex ds n (fun i d => o.price i * m.balance xl fs d.region)).sum := by
    rw [revenue_all]
    unfold Market.residue
    rw [← sum_map_add, ← he', map_saveIndex]
    congr 1
    apply saveIndex_congr
    intro i d hd
    unfold Market.balance
    ring
  have hC : c * (ds.map (fun d => |d.demand - m.balance xl fs d.region|)).sum =
      (saveIndex ds n (fun i d => o.price i * (d.demand - m.balance xl fs d.region))).sum := by
    rw [← sum_map_mul_left, ← saveIndex_vals ds n (fun d => c * |d.demand - m.balance xl fs d.region|)]
    congr 1
    apply saveIndex_congr
    intro i d hd
    exact (hval i d hd).symm
  rw [hA, hB, hC]
  clear hA hB hC hval key he he' ht1 ht2 hds hnd
  induction ds generalizing n with
  | nil => simp [saveIndex]
  | cons d ds ih =>
    simp only [saveIndex, List.sum_cons]
    rw [ih]
    ring

/-- instance of C119: the region of `capCase` is 50 MW short of energy and 10 MW short of the service -/
example : ∃ m lp o S, InForce (.demand [{ region := "NSW", demand := 100 }] (some (.num 1000))) m ∧
    FcasSet capReqs m ∧ LossFunctions [] m ∧ m.properLinks [] ∧
    InForce (.elastic .fcas (.table [("R", 500)])) m ∧ (VCost.table [("R", 500)]).proper ∧ S.sorts ∧ m.dispatch S none = .ok o ∧
    m.assemble = .ok lp ∧ Optimal lp o.x ∧ Feasible (m.linear S o.x lp) o.x ∧ ShadowPrices (m.linear S o.x lp) o.x o.price ∧
    m.energyPrices o.price = .ok [("NSW", 1000)] ∧
    m.fcasPrices o.price = .ok [(("NSW", .raise6s), 500)] ∧ m.balance o.x [] "NSW" = 50 ∧
    m.setSupply o.x capReqs "R" + m.linked o.x "R" = 20 := by
  have h : capCase.shadow [1000, 500] (fun m => decide (
      m.energyPrices (fun c => [1000, 500].getD c 0) = .ok [("NSW", 1000)] ∧
      m.fcasPrices (fun c => [1000, 500].getD c 0) = .ok [(("NSW", .raise6s), 500)] ∧ m.balance capCase.x [] "NSW" = 50 ∧
      m.setSupply capCase.x capReqs "R" + m.linked capCase.x "R" = 20 ∧ m.losses = none ∧ m.sos1Groups = [] ∧ m.sos2Groups = [])) = true := by
    decide +kernel
  obtain ⟨m, lp, o, h0, h1, h2, h3, h4, h5, h6⟩ := Case.shadow_spec h
  obtain ⟨k1, k2, k3, k4, k5, k6, k7⟩ := of_decide_eq_true h6
  have hf := InForceKeeping.inForce (Case.inForce (s := capCase) (op := .fcasReq capReqs (some (.table [("R", 500)]))) (i := 3) (keep := []) h0 rfl (by decide +kernel))
  have hopt : Optimal lp o.x := by
    rw [h3] at h5 ⊢
    obtain ⟨-, -, p3, p4, -⟩ := assemble_parts h1
    have hlv : (m.linear (capCase.solver [1000, 500]) capCase.x lp).vars = lp.vars := by
      unfold Market.linear
      rw [k5]
      rfl
    have hfe : ∀ y, Feasible (m.linear (capCase.solver [1000, 500]) capCase.x lp) y ↔ Feasible lp y := by
      intro y
      constructor
      · intro hy
        exact ⟨by rw [← hlv]; exact hy.vars, by have := hy.rows; rwa [linear_rows] at this, by rw [p3, k7]; simp, by rw [p4, k6]; simp⟩
      · intro hy
        exact ⟨by rw [hlv]; exact hy.vars, by rw [linear_rows]; exact hy.rows, by unfold Market.linear; rw [k5]; simp,
          by unfold Market.linear; rw [k5]; simp⟩
    refine ⟨(hfe _).1 h5.feasible, ?_⟩
    intro y hy
    have hb := h5.bound y ((hfe y).2 hy).vars
    rw [linear_cost, linear_cost] at hb
    have : 0 ≤ ((m.linear (capCase.solver [1000, 500]) capCase.x lp).rows.map (fun r => o.price r.cid * (linVal y r.coefs - r.rhs.eval y))).sum := by
      apply sum_map_nonneg
      intro r hr
      exact CType.pays (h5.ge r hr) (h5.le r hr) (((hfe y).2 hy).rows r hr)
    linarith
  refine ⟨m, lp, o, _, InForceKeeping.inForce (Case.inForce (i := 2) (keep := []) h0 rfl (by decide +kernel)), hf.fcasSet,
    Or.inl ⟨rfl, Case.noLosses h0 (by decide +kernel)⟩, by (intro _ _ f hf; cases hf),
    apart_inForce rfl hf (by simp), by simp [VCost.proper], Case.solver_sorts _ _, h2, h1, hopt, ?_, ?_, h4 ▸ k1, h4 ▸ k2, h3 ▸ k3, h3 ▸ k4⟩
  · have := h5.feasible
    rwa [h3] at this ⊢
  · rwa [h3] at h5 ⊢

end Verif
