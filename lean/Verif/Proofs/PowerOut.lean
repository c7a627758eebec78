import Verif.Proofs.PowerLp

/-! Results and prices in another unit of power. -/

namespace Verif

/-- a sorting of rows for distances in another unit -/
def Solver.pw (c : ℚ) (S : Solver) : Solver :=
  { S with sort := fun l => (S.sort (l.map (fun d => (c⁻¹ * d.1, d.2)))).map (fun d => (c * d.1, d.2)) }

theorem map_mul_inv {c : ℚ} (hc : 0 < c) (l : List (ℚ × Nat)) :
    (l.map (fun d => (c⁻¹ * d.1, d.2))).map (fun d => (c * d.1, d.2)) = l := by
  rw [List.map_map]
  refine (List.map_congr_left fun d _ => ?_).trans (List.map_id _)
  simp only [Function.comp, ← mul_assoc, mul_inv_cancel₀ hc.ne', one_mul, id]

theorem Solver.pw_sorts {c : ℚ} (hc : 0 < c) {S : Solver} (h : S.sorts) : (S.pw c).sorts := by
  intro l
  have := h (l.map (fun d => (c⁻¹ * d.1, d.2)))
  refine ⟨?_, ?_⟩
  · have h1 := this.1.map (fun d : ℚ × Nat => (c * d.1, d.2))
    rw [map_mul_inv hc] at h1
    exact h1
  · simp only [Solver.pw, List.pairwise_map]
    exact this.2.imp fun h => mul_le_mul_of_nonneg_left h hc.le

theorem Solver.pw_inv {c : ℚ} (hc : 0 < c) (S : Solver) : ((S.pw c⁻¹).pw c).sort = S.sort := by
  funext l
  have h := map_mul_inv hc
  simp only [Solver.pw, inv_inv, h]

section
variable {c : ℚ} {m : Market} {r : Nat → ℚ}

theorem distances_pw (hc : 0 < c) (hm : Reached m) (x : Nat → ℚ) {v : InterVar} (hv : v ∈ m.inters.getD []) :
    (m.pw c).distances (fun i => m.sv c i * x i) (v.pw c) = (m.distances x v).map (fun d => (c * d.1, d.2)) := by
  have e4 : (m.pw c).weights.getD [] = (m.weights.getD []).map (WeightVar.pw c) := getD_map_map _ _
  unfold Market.distances
  rw [e4, List.filter_map, List.map_map, List.map_map]
  have hf : ((fun w : WeightVar => decide (w.inter = (v.pw c).inter ∧ w.link = (v.pw c).link)) ∘ WeightVar.pw c) =
      fun w => decide (w.inter = v.inter ∧ w.link = v.link) := rfl
  rw [hf]
  apply List.map_congr_left
  intro w _
  simp only [Function.comp, InterVar.pw, WeightVar.pw, sv_plain hm.pow hm.refs c (inters_plain hv), Prod.mk.injEq, and_true]
  rw [← mul_sub, abs_mul, abs_of_pos hc]

theorem unusedWeights_pw (hc : 0 < c) (hm : Reached m) (S : Solver) (x : Nat → ℚ) :
    (m.pw c).unusedWeights (S.pw c) (fun i => m.sv c i * x i) = m.unusedWeights S x := by
  have e2 : (m.pw c).inters.getD [] = (m.inters.getD []).map (InterVar.pw c) := getD_map_map _ _
  unfold Market.unusedWeights
  rw [e2, List.flatMap_map]
  refine List.flatMap_congr fun v hv => ?_
  rw [distances_pw hc hm x hv]
  have e : ((m.distances x v).map (fun d => (c * d.1, d.2))).map (fun d => (c⁻¹ * d.1, d.2)) = m.distances x v := by
    rw [List.map_map]
    refine (List.map_congr_left fun d _ => ?_).trans (List.map_id _)
    simp only [Function.comp, ← mul_assoc, inv_mul_cancel₀ hc.ne', one_mul, id]
  simp only [Solver.pw, e, List.map_drop, List.map_map]
  rfl

theorem unusedLinks_pw (hc : 0 < c) (m : Market) (x : Nat → ℚ) :
    (m.pw c).unusedLinks (fun i => m.sv c i * x i) = m.unusedLinks x := by
  have e2 : (m.pw c).inters.getD [] = (m.inters.getD []).map (InterVar.pw c) := getD_map_map _ _
  unfold Market.unusedLinks
  rw [e2, List.filter_map, List.map_map]
  have : ((fun v : InterVar => decide (v.inter ≠ v.link ∧ m.sv c v.vid * x v.vid = 0)) ∘ InterVar.pw c) =
      fun v => decide (v.inter ≠ v.link ∧ x v.vid = 0) := by
    funext v
    simp only [Function.comp, InterVar.pw, mul_eq_zero, (sv_pos hc m v.vid).ne', false_or]
  rw [this]
  rfl

theorem disable_resc (c : ℚ) (s r : Nat → ℚ) (lp : Lp) (vs : List Nat) : (lp.resc c s r).disable vs = (lp.disable vs).resc c s r := by
  simp only [Lp.disable, Lp.resc, List.map_map, Lp.mk.injEq, true_and, and_true]
  apply List.map_congr_left
  intro v _
  simp only [Function.comp]
  split <;> simp

theorem linear_pw (hc : 0 < c) (hm : Reached m) (S : Solver) (x : Nat → ℚ) (lp : Lp) :
    (m.pw c).linear (S.pw c) (fun i => m.sv c i * x i) (lp.resc c (m.sv c) r) = (m.linear S x lp).resc c (m.sv c) r := by
  have e3 : (m.pw c).losses.isSome = m.losses.isSome := by simp only [Market.pw, Market.pwWith, Option.isSome_map]
  unfold Market.linear
  dsimp only
  rw [e3, unusedWeights_pw hc hm, unusedLinks_pw hc]
  split
  · rw [← disable_resc]; rfl
  · rfl

theorem linear_rows' (m : Market) (S : Solver) (x : Nat → ℚ) (lp : Lp) : (m.linear S x lp).rows = lp.rows := by
  unfold Market.linear
  dsimp only
  split <;> rfl

theorem linear_sort {S T : Solver} (h : S.sort = T.sort) (m : Market) (x : Nat → ℚ) (lp : Lp) : m.linear S x lp = m.linear T x lp := by
  unfold Market.linear Market.unusedWeights
  rw [h]

theorem mktRhs_pw (c : ℚ) (m : Market) {k : CKey} (hk : k.isShare = false) :
    (m.pw c).mktRhs.get? k = (m.mktRhs.get? k).map (List.map (Row.pw c)) := by
  have := Dict.get?_mapkv (fun (k : CKey) (rows : List Row) => rows.map (Row.pw (rf c k))) m.mktRhs k
  rw [rf_plain c hk] at this
  exact this

theorem energyPrices_pw (hc : 0 < c) (hr : RowFactor c m r) (p : Nat → ℚ) :
    (m.pw c).energyPrices (fun i => c * p i / r i) = m.energyPrices p := by
  unfold Market.energyPrices
  rw [mktRhs_pw c m rfl]
  cases hd : m.mktRhs.get? .demand with
  | none => rfl
  | some rows =>
    simp only [Option.map_some, Except.ok.injEq, List.filterMap_map]
    apply List.filterMap_congr
    intro t ht
    have h1 : r t.cid = c := hr.mkt _ (Dict.mem_of_get? hd) t ht
    simp only [Function.comp, Row.pw, h1, mul_div_cancel_left₀ _ hc.ne']

theorem groupSum_congr' {α κ : Type} [DecidableEq κ] {key : α → κ} {f g : α → ℚ} {l : List α} (h : ∀ a ∈ l, f a = g a) :
    groupSum key f l = groupSum key g l := by
  unfold groupSum
  apply List.map_congr_left
  intro k _
  have : (l.filter (fun a => decide (key a = k))).map f = (l.filter (fun a => decide (key a = k))).map g :=
    List.map_congr_left fun a ha => h a (List.mem_filter.1 ha).1
  rw [this]

theorem groupSum_map' {α β κ : Type} [DecidableEq κ] (h : α → β) (key : β → κ) (f : β → ℚ) (l : List α) :
    groupSum key f (l.map h) = groupSum (fun a => key (h a)) (fun a => f (h a)) l := by
  simp only [groupSum, List.map_map, List.filter_map]
  rfl

theorem fcasPrices_pw (hc : 0 < c) (hr : RowFactor c m r) (p : Nat → ℚ) :
    (m.pw c).fcasPrices (fun i => c * p i / r i) = m.fcasPrices p := by
  unfold Market.fcasPrices
  have h' : (m.pw c).regCon = m.regCon := rfl
  rw [mktRhs_pw c m rfl, h']
  cases m.regCon.get? .fcas with
  | none => rfl
  | some cs =>
    cases hd : m.mktRhs.get? .fcas with
    | none => rfl
    | some rows =>
      simp only [Option.map_some, Except.ok.injEq]
      have e : (cs.flatMap (fun a => ((rows.map (Row.pw c)).filter (fun r => decide (r.cid = a.cid))).map (fun r => (a, r)))) =
          (cs.flatMap (fun a => (rows.filter (fun r => decide (r.cid = a.cid))).map (fun r => (a, r)))).map
            (fun e : ConReg × Row => (e.1, e.2.pw c)) := by
        rw [List.map_flatMap]
        refine List.flatMap_congr fun a _ => ?_
        rw [List.filter_map, List.map_map, List.map_map]
        rfl
      rw [e, groupSum_map']
      refine groupSum_congr' fun e he => ?_
      simp only [List.mem_flatMap, List.mem_map] at he
      obtain ⟨a, _, t, ht, rfl⟩ := he
      have h1 : r t.cid = c := hr.mkt _ (Dict.mem_of_get? hd) t (List.mem_filter.1 ht).1
      simp only [Row.pw, h1, mul_div_cancel_left₀ _ hc.ne']

/-! ### Results -/

def pairSc (c : ℚ) (e : String × ℚ) : String × ℚ := (e.1, c * e.2)

theorem groupSum_pairs (c : ℚ) (l : List (String × ℚ)) : groupSum Prod.fst Prod.snd (l.map (pairSc c)) = (groupSum Prod.fst Prod.snd l).map (pairSc c) := by
  rw [groupSum_map']
  exact groupSum_scale c Prod.fst Prod.snd l

theorem unitDispatch_pw (hm : Reached m) (c : ℚ) (x : Nat → ℚ) :
    (m.pw c).unitDispatch (fun i => m.sv c i * x i) = (m.unitDispatch x).map (List.map (DispatchRow.inPower c)) := by
  have e : (m.pw c).bids = m.bids.map (List.map (BidVar.pw c)) := rfl
  unfold Market.unitDispatch
  rw [e]
  cases hb : m.bids with
  | none => rfl
  | some bs =>
    simp only [Option.map_some, Except.map, Except.ok.injEq, groupSum_map', List.map_map]
    have h1 : groupSum (fun b : BidVar => ((b.pw c).unit, (b.pw c).dtype, (b.pw c).service)) (fun b => m.sv c (b.pw c).vid * x (b.pw c).vid) bs =
        (groupSum (fun b : BidVar => (b.unit, b.dtype, b.service)) (fun b => x b.vid) bs).map (fun e => (e.1, c * e.2)) := by
      rw [← groupSum_scale]
      refine groupSum_congr' fun b hb' => ?_
      have : m.sv c b.vid = c := sv_plain hm.pow hm.refs c (bids_plain (by rw [hb]; exact hb'))
      simp only [BidVar.pw, this]
    rw [h1, List.map_map]
    rfl

theorem interFlows_pw (hm : Reached m) (c : ℚ) (x : Nat → ℚ) :
    (m.pw c).interFlows (fun i => m.sv c i * x i) = (m.interFlows x).map (List.map (FlowRow.inPower c)) := by
  have e : (m.pw c).inters = m.inters.map (List.map (InterVar.pw c)) := rfl
  have e3 : (m.pw c).losses.getD [] = (m.losses.getD []).map (LossVar.pw c) := getD_map_map _ _
  unfold Market.interFlows
  rw [e, e3]
  cases hi : m.inters with
  | none => rfl
  | some vs =>
    simp only [Option.map_some, Except.map, Except.ok.injEq, List.flatMap_map, List.map_flatMap]
    refine List.flatMap_congr fun v hv => ?_
    have h1 : m.sv c v.vid = c := sv_plain hm.pow hm.refs c (inters_plain (by rw [hi]; exact hv))
    have h2 : ((m.losses.getD []).map (LossVar.pw c)).filter (fun l => decide (l.inter = (v.pw c).inter ∧ l.link = (v.pw c).link)) =
        ((m.losses.getD []).filter (fun l => decide (l.inter = v.inter ∧ l.link = v.link))).map (LossVar.pw c) := by
      rw [List.filter_map]; rfl
    rw [h2]
    have h3 : ∀ l ∈ (m.losses.getD []).filter (fun l => decide (l.inter = v.inter ∧ l.link = v.link)), m.sv c l.vid = c :=
      fun l hl => sv_plain hm.pow hm.refs c (losses_plain (List.mem_filter.1 hl).1)
    revert h3
    generalize (m.losses.getD []).filter (fun l => decide (l.inter = v.inter ∧ l.link = v.link)) = ls
    intro h3
    cases ls with
    | nil => simp only [List.map_nil, List.map_cons, FlowRow.inPower, InterVar.pw, h1, Option.map_none]
    | cons l ls =>
      simp only [List.map_cons, List.map_map]
      congr 1
      · simp only [FlowRow.inPower, InterVar.pw, LossVar.pw, h1, h3 l List.mem_cons_self, Option.map_some]
      · apply List.map_congr_left
        intro a ha
        simp only [Function.comp, FlowRow.inPower, InterVar.pw, LossVar.pw, h1, h3 a (List.mem_cons_of_mem _ ha), Option.map_some]

theorem net_pw (m : Market) (c : ℚ) (rows : List DispatchRow) :
    (m.pw c).netByRegion (rows.map (DispatchRow.inPower c)) = (m.netByRegion rows).map (pairSc c) := by
  unfold Market.netByRegion
  rw [← groupSum_pairs]
  congr 1
  have e : (m.pw c).units = m.units := rfl
  rw [e, List.filter_map, List.flatMap_map, List.map_flatMap]
  refine List.flatMap_congr fun a _ => ?_
  simp only [List.map_map]
  apply List.map_congr_left
  intro u _
  simp only [Function.comp, DispatchRow.inPower, pairSc]
  by_cases h : a.dtype = .load
  · simp only [h, if_true, Prod.mk.injEq, true_and]; ring
  · simp only [h, if_false]

theorem inflow_pw (c : ℚ) (ds : List InterDef) (fl : List FlowRow) :
    inflowByRegion (ds.map (InterDef.inPower c)) (fl.map (FlowRow.inPower c)) = (inflowByRegion ds fl).map (pairSc c) := by
  unfold inflowByRegion
  rw [← groupSum_pairs]
  congr 1
  rw [List.map_map, List.map_map, List.map_flatMap]
  refine List.flatMap_congr fun a _ => ?_
  rw [List.filter_map, List.map_map, List.map_map]
  apply List.map_congr_left
  intro f _
  simp only [Function.comp, FlowRow.inPower, pairSc, mul_assoc]

theorem transmissionLoss_pw (hc : 0 < c) (b : Bool) (f l : ℚ) : transmissionLoss b (c * f) l = c * transmissionLoss b f l := by
  unfold transmissionLoss
  have h1 : c * f ≥ 0 ↔ f ≥ 0 := mul_nonneg_iff_of_pos_left hc
  have h2 : c * f ≤ 0 ↔ f ≤ 0 := by
    constructor
    · intro h; by_contra hn; push Not at hn; have := mul_pos hc hn; linarith
    · intro h; exact mul_nonpos_of_nonneg_of_nonpos hc.le h
  simp only [h1, h2]
  split
  · ring
  · rw [abs_mul, abs_of_pos hc]; ring

theorem transmission_pw (hc : 0 < c) (ds : List InterDef) (fl : List FlowRow) :
    transmissionByRegion (ds.map (InterDef.inPower c)) (fl.map (FlowRow.inPower c)) = (transmissionByRegion ds fl).map (pairSc c) := by
  unfold transmissionByRegion
  rw [← groupSum_pairs]
  congr 1
  rw [List.map_flatMap, List.flatMap_map]
  refine List.flatMap_congr fun f _ => ?_
  rw [List.filter_map, List.flatMap_map, List.map_flatMap]
  refine List.flatMap_congr fun d _ => ?_
  simp only [FlowRow.inPower, InterDef.inPower, transmissionLoss_pw hc, List.map_cons, List.map_nil, pairSc]

theorem losses_pw (c : ℚ) (sh : List (String × String × ℚ)) (ds : List InterDef) (fl : List FlowRow) :
    lossesByRegion sh (ds.map (InterDef.inPower c)) (fl.map (FlowRow.inPower c)) = (lossesByRegion sh ds fl).map (pairSc c) := by
  unfold lossesByRegion
  have e1 : ∀ (g : String × String × ℚ → InterDef → String × String × String × ℚ), (∀ s d, g s (d.inPower c) = g s d) →
      sh.flatMap (fun s => ((ds.map (InterDef.inPower c)).filter (fun d => decide (d.inter = s.1 ∧ d.link = s.2.1))).map (g s)) =
      sh.flatMap (fun s => (ds.filter (fun d => decide (d.inter = s.1 ∧ d.link = s.2.1))).map (g s)) := by
    intro g hg
    refine List.flatMap_congr fun s _ => ?_
    rw [List.filter_map, List.map_map]
    apply List.map_congr_left
    intro d _
    exact hg s d
  rw [e1 (fun s d => (s.1, s.2.1, d.fromR, s.2.2)) (fun _ _ => rfl), e1 (fun s d => (s.1, s.2.1, d.toR, 1 - s.2.2)) (fun _ _ => rfl)]
  dsimp only
  rw [← groupSum_pairs]
  congr 1
  rw [List.map_flatMap, List.flatMap_map]
  refine List.flatMap_congr fun f _ => ?_
  rw [List.map_map]
  apply List.map_congr_left
  intro s _
  simp only [Function.comp, FlowRow.inPower, pairSc]
  cases f.losses with
  | none => simp
  | some l => simp only [Option.map_some, Option.getD_some, mul_assoc]

theorem joinRegion_pw (c : ℚ) (rows : List SummaryRow) (t : List (String × ℚ)) (f : SummaryRow → ℚ → SummaryRow)
    (hf : ∀ r q, f (r.inPower c) (c * q) = (f r q).inPower c) :
    joinRegion (rows.map (SummaryRow.inPower c)) (t.map (pairSc c)) f = (joinRegion rows t f).map (SummaryRow.inPower c) := by
  unfold joinRegion
  rw [List.map_flatMap, List.flatMap_map]
  refine List.flatMap_congr fun r _ => ?_
  rw [List.filter_map, List.map_map, List.map_map]
  apply List.map_congr_left
  intro e _
  exact hf r e.2

theorem sum_pairSc (c : ℚ) (l : List (String × ℚ)) (g : String) :
    (((l.map (pairSc c)).filter (fun e => decide (e.1 = g))).map Prod.snd).sum =
    c * (((l.filter (fun e => decide (e.1 = g))).map Prod.snd).sum) := by
  rw [← sum_map_mul_left, List.filter_map, List.map_map]
  rfl

theorem regionSummary_pw (hc : 0 < c) (hm : Reached m) (x : Nat → ℚ) :
    (m.pw c).regionSummary (fun i => m.sv c i * x i) = (m.regionSummary x).map (List.map (SummaryRow.inPower c)) := by
  have e1 : (m.pw c).dirs = m.dirs.map (List.map (InterDef.inPower c)) := rfl
  have e2 : (m.pw c).lossShares = m.lossShares := rfl
  have e3 : (m.pw c).losses.isNone = m.losses.isNone := by simp only [Market.pw, Market.pwWith, Option.isNone_map]
  unfold Market.regionSummary
  rw [unitDispatch_pw hm, interFlows_pw hm, e1, e2, e3]
  cases m.unitDispatch x with
  | error e => rfl
  | ok rows =>
    simp only [Except.map, net_pw]
    cases m.dirs with
    | none =>
      simp only [Option.map_none, List.map_map]
      rfl
    | some ds =>
      simp only [Option.map_some]
      cases m.interFlows x with
      | error e => rfl
      | ok fl =>
        simp only [List.isEmpty_map, inflow_pw, transmission_pw hc, losses_pw]
        split
        · rfl
        have h1 : ∀ l : List (String × ℚ), (l.map (pairSc c)).map Prod.fst = l.map Prod.fst := by
          intro l; rw [List.map_map]; rfl
        rw [h1, h1]
        have h2 : ((m.netByRegion rows).map Prod.fst ++ (inflowByRegion ds fl).map Prod.fst).dedup.map (fun g =>
            ({ region := g, dispatch := ((((m.netByRegion rows).map (pairSc c)).filter (fun e => decide (e.1 = g))).map Prod.snd).sum,
               inflow := some ((((inflowByRegion ds fl).map (pairSc c)).filter (fun e => decide (e.1 = g))).map Prod.snd).sum } : SummaryRow)) =
            (((m.netByRegion rows).map Prod.fst ++ (inflowByRegion ds fl).map Prod.fst).dedup.map (fun g =>
            ({ region := g, dispatch := (((m.netByRegion rows).filter (fun e => decide (e.1 = g))).map Prod.snd).sum,
               inflow := some (((inflowByRegion ds fl).filter (fun e => decide (e.1 = g))).map Prod.snd).sum } : SummaryRow))).map
            (SummaryRow.inPower c) := by
          rw [List.map_map]
          apply List.map_congr_left
          intro g _
          simp only [sum_pairSc, Function.comp, SummaryRow.inPower, Option.map_some, Option.map_none]
        rw [h2, joinRegion_pw c _ _ _ (by intro r q; rfl)]
        cases m.lossShares with
        | none => rfl
        | some sh =>
          dsimp only
          split
          · rfl
          · rw [joinRegion_pw c _ _ _ (by intro r q; rfl)]

theorem violation_pw (hm : Reached m) (c : ℚ) (x : Nat → ℚ) (k : CKey) :
    (m.pw c).violationDegree (fun i => m.sv c i * x i) k = if k.isShare then m.violationDegree x k else c * m.violationDegree x k := by
  have e : (m.pw c).deficits.get? k = (m.deficits.get? k).map (defSc (cf c k)) :=
    Dict.get?_mapkv (fun (k : CKey) (d : List DefVar × List Term) => defSc (cf c k) d) _ _
  unfold Market.violationDegree
  rw [e]
  cases hd : m.deficits.get? k with
  | none => simp
  | some d =>
    simp only [Option.map_some, defSc, List.map_map]
    have h1 : d.1.map ((fun v : DefVar => m.sv c v.vid * x v.vid) ∘ DefVar.sc (cf c k)) = d.1.map (fun v => rf c k * x v.vid) := by
      apply List.map_congr_left
      intro v hv
      have : m.sv c v.vid = rf c k := sv_def hm.refs hm.wf.var c (Dict.mem_of_get? hd) (List.mem_map_of_mem hv)
      simp only [Function.comp, DefVar.sc, this]
    rw [h1, sum_map_mul_left]
    unfold rf
    split
    · rw [one_mul]
    · rfl

theorem report_pw (hc : 0 < c) (hm : Reached m) {lp : Lp} (h : Factors c (m.sv c) r lp) (x : Nat → ℚ) :
    (m.pw c).report (lp.resc c (m.sv c) r) (fun i => m.sv c i * x i) = (m.report lp x).inPower c := by
  simp only [Market.report, Report.inPower, Report.mk.injEq]
  exact ⟨cost_resc h x, unitDispatch_pw hm c x, interFlows_pw hm c x, regionSummary_pw hc hm x, funext fun k => violation_pw hm c x k⟩

end

theorem except_map_inj {α β ε : Type} {f : α → β} (hf : ∀ a b, f a = f b → a = b) {x y : Except ε α} (h : x.map f = y.map f) : x = y := by
  cases x with
  | error a =>
    cases y with
    | error b => simpa [Except.map] using h
    | ok b => simp [Except.map] at h
  | ok a =>
    cases y with
    | error b => simp [Except.map] at h
    | ok b =>
      simp only [Except.map, Except.ok.injEq] at h
      rw [hf _ _ h]

theorem Report.inPower_inj {c : ℚ} (hc : c ≠ 0) {a b : Report} (h : a.inPower c = b.inPower c) : a = b := by
  have ho : ∀ x y : Option ℚ, x.map (c * ·) = y.map (c * ·) → x = y := by
    intro x y e
    cases x <;> cases y <;> simp_all
  have h1 : ∀ x y : DispatchRow, x.inPower c = y.inPower c → x = y := by
    rintro ⟨⟩ ⟨⟩ e
    simp only [DispatchRow.inPower, DispatchRow.mk.injEq] at e ⊢
    exact ⟨e.1, e.2.1, e.2.2.1, mul_left_cancel₀ hc e.2.2.2⟩
  have h2 : ∀ x y : FlowRow, x.inPower c = y.inPower c → x = y := by
    rintro ⟨⟩ ⟨⟩ e
    simp only [FlowRow.inPower, FlowRow.mk.injEq] at e ⊢
    exact ⟨e.1, e.2.1, mul_left_cancel₀ hc e.2.2.1, ho _ _ e.2.2.2⟩
  have h3 : ∀ x y : SummaryRow, x.inPower c = y.inPower c → x = y := by
    rintro ⟨⟩ ⟨⟩ e
    simp only [SummaryRow.inPower, SummaryRow.mk.injEq] at e ⊢
    exact ⟨e.1, mul_left_cancel₀ hc e.2.1, ho _ _ e.2.2.1, ho _ _ e.2.2.2.1, ho _ _ e.2.2.2.2⟩
  obtain ⟨a1, a2, a3, a4, a5⟩ := a
  obtain ⟨b1, b2, b3, b4, b5⟩ := b
  simp only [Report.inPower, Report.mk.injEq] at h ⊢
  obtain ⟨e1, e2, e3, e4, e5⟩ := h
  refine ⟨mul_left_cancel₀ hc e1, except_map_inj (fun _ _ e => List.map_injective_iff.2 h1 e) e2, except_map_inj (fun _ _ e => List.map_injective_iff.2 h2 e) e3, except_map_inj (fun _ _ e => List.map_injective_iff.2 h3 e) e4, ?_⟩
  funext k
  have := congrFun e5 k
  split at this
  · exact this
  · exact mul_left_cancel₀ hc this

end Verif
