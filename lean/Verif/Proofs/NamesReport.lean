import Verif.Proofs.NamesRun
import Verif.Proofs.ShuffleReport

/-! The program, the reports and the prices of the market with other names. -/

namespace Verif

section
variable (ρ : Names) (m : Market)

/-! ### The program -/

theorem concat_named {α : Type} (r : α → α) (d : Dict CKey (List α)) :
    Dict.concat (d.map (fun e => (e.1, e.2.map r)) : Dict CKey (List α)) = d.concat.map r := by
  unfold Dict.concat
  exact flatMap_named (fun e => by rfl) d

theorem allVars_named : (m.named ρ).allVars = m.allVars := by
  unfold Market.allVars
  have h1 : ((m.named ρ).bids.getD []).map (fun v => ({ vid := v.vid, lb := 0, ub := some v.ub } : LVar)) =
      (m.bids.getD []).map (fun v => { vid := v.vid, lb := 0, ub := some v.ub }) := by
    show ((m.bids.map (List.map (BidVar.named ρ))).getD []).map _ = _
    rw [getD_named]; exact map_same (fun _ => by rfl) _
  have h2 : ((m.named ρ).inters.getD []).map (fun v => ({ vid := v.vid, lb := v.lb, ub := some v.ub } : LVar)) =
      (m.inters.getD []).map (fun v => { vid := v.vid, lb := v.lb, ub := some v.ub }) := by
    show ((m.inters.map (List.map (InterVar.named ρ))).getD []).map _ = _
    rw [getD_named]; exact map_same (fun _ => by rfl) _
  have h3 : ((m.named ρ).losses.getD []).map (fun v => ({ vid := v.vid, lb := v.lb, ub := some v.ub } : LVar)) =
      (m.losses.getD []).map (fun v => { vid := v.vid, lb := v.lb, ub := some v.ub }) := by
    show ((m.losses.map (List.map (LossVar.named ρ))).getD []).map _ = _
    rw [getD_named]; exact map_same (fun _ => by rfl) _
  have h4 : ((m.named ρ).weights.getD []).map (fun v => ({ vid := v.vid, lb := 0, ub := some 1 } : LVar)) =
      (m.weights.getD []).map (fun v => { vid := v.vid, lb := 0, ub := some 1 }) := by
    show ((m.weights.map (List.map (WeightVar.named ρ))).getD []).map _ = _
    rw [getD_named]; exact map_same (fun _ => by rfl) _
  rw [h1, h2, h3, h4]
  rfl

theorem objective_named : (m.named ρ).objective = m.objective := by
  unfold Market.objective
  have h1 : ((m.named ρ).bidCost.getD []).map (fun c => (c.vid, c.cost)) = (m.bidCost.getD []).map (fun c => (c.vid, c.cost)) := by
    show ((m.bidCost.map (List.map (BidCost.named ρ))).getD []).map _ = _
    rw [getD_named]; exact map_same (fun _ => by rfl) _
  rw [h1]
  rfl

theorem allRows_named : (m.named ρ).allRows = m.allRows := by
  unfold Market.allRows
  have h1 : (m.named ρ).conRhs.concat = m.conRhs.concat.map (Row.named ρ) := concat_named _ _
  have h2 : (m.named ρ).mktRhs.concat = m.mktRhs.concat.map (Row.named ρ) := concat_named _ _
  rw [h1, h2, map_same (G := fun r : Row => (r.cid, r.ctype, Rhs.const r.rhs)) (fun _ => by rfl),
    map_same (G := fun r : Row => (r.cid, r.ctype, Rhs.const r.rhs)) (fun _ => by rfl)]
  rfl

theorem lhsReg_named (cs : List ConReg) (vs : List VarReg) :
    createLhsReg (cs.map (ConReg.named ρ)) (vs.map (VarReg.named ρ)) = createLhsReg cs vs := by
  refine flatMap_same (fun c => ?_) _
  rw [filter_named (q := fun v : VarReg => decide (v.region = c.region ∧ v.service = c.service)) (fun v => by
    rw [decide_eq_decide]; exact and_congr (region_eq ρ) Iff.rfl)]
  exact map_same (fun _ => by rfl) _

theorem lhsUnit_named (cs : List ConUnit) (vs : List VarUnit) :
    createLhsUnit (cs.map (ConUnit.named ρ)) (vs.map (VarUnit.named ρ)) = createLhsUnit cs vs := by
  refine flatMap_same (fun c => ?_) _
  rw [filter_named (q := fun v : VarUnit => decide (v.unit = c.unit ∧ v.service = c.service ∧ v.dtype = c.dtype)) (fun v => by
    rw [decide_eq_decide]; exact and_congr (unit_eq ρ) Iff.rfl)]
  exact map_same (fun _ => by rfl) _

theorem regVars_named : (m.named ρ).regVars = m.regVars.map (VarReg.named ρ) := by
  unfold Market.regVars
  have h1 : (m.named ρ).bidReg.getD [] = (m.bidReg.getD []).map (VarReg.named ρ) := getD_named _ _
  have h2 : (m.named ρ).interReg.getD [] = (m.interReg.getD []).map (InterMap.named ρ) := getD_named _ _
  have h3 : (m.named ρ).lossReg.getD [] = (m.lossReg.getD []).map (VarReg.named ρ) := getD_named _ _
  rw [h1, h2, h3, List.map_append, List.map_append]
  congr 2
  exact map_named (fun _ => by rfl) _

theorem setIds_named (l : List Row) : setIds (l.map (Row.named ρ)) = (setIds l).map (fun i => (i.1, ρ.set i.2)) := by
  unfold setIds
  rw [List.filterMap_map, List.map_filterMap]
  apply List.filterMap_congr
  intro r _
  show (r.set.map ρ.set).map _ = _
  cases r.set <;> rfl

theorem genericIds_named : (m.named ρ).genericIds = m.genericIds.map (List.map (fun i => (i.1, ρ.set i.2))) := by
  unfold Market.genericIds
  have e1 : (m.named ρ).conRhs.get? .generic = (m.conRhs.get? .generic).map (List.map (Row.named ρ)) := Dict.get?_mapv _ _ _
  have e2 : (m.named ρ).mktRhs.get? .fcas = (m.mktRhs.get? .fcas).map (List.map (Row.named ρ)) := Dict.get?_mapv _ _ _
  rw [e1, e2]
  cases m.conRhs.get? .generic <;> cases m.mktRhs.get? .fcas
  · rfl
  all_goals
    simp only [Option.map_none, Option.map_some, Option.getD_none, Option.getD_some, List.map_append, setIds_named]
    try rfl

theorem idsFilter_named (ids : List (Nat × String)) (s : String) :
    (ids.map (fun i => (i.1, ρ.set i.2))).filter (fun i => decide (i.2 = ρ.set s)) =
      (ids.filter (fun i => decide (i.2 = s))).map (fun i => (i.1, ρ.set i.2)) :=
  filter_named (fun i => by rw [decide_eq_decide]; exact set_eq ρ) _

theorem gUnit_named (gs : List GUnit) (ids : List (Nat × String)) (vs : List VarUnit) :
    genericUnitLhs (gs.map (GUnit.named ρ)) (ids.map (fun i => (i.1, ρ.set i.2))) (vs.map (VarUnit.named ρ)) = genericUnitLhs gs ids vs := by
  refine flatMap_same (fun g => ?_) _
  rw [filter_named (q := fun v : VarUnit => decide (v.unit = g.unit ∧ v.service = g.service)) (fun v => by
    rw [decide_eq_decide]; exact and_congr (unit_eq ρ) Iff.rfl)]
  refine flatMap_same (fun v => ?_) _
  have := idsFilter_named ρ ids g.set
  exact (congrArg _ this).trans (map_same (fun _ => by rfl) _)

theorem gRegion_named (gs : List GRegion) (ids : List (Nat × String)) (vs : List VarReg) :
    genericRegionLhs (gs.map (GRegion.named ρ)) (ids.map (fun i => (i.1, ρ.set i.2))) (vs.map (VarReg.named ρ)) = genericRegionLhs gs ids vs := by
  refine flatMap_same (fun g => ?_) _
  rw [filter_named (q := fun v : VarReg => decide (v.region = g.region ∧ v.service = g.service)) (fun v => by
    rw [decide_eq_decide]; exact and_congr (region_eq ρ) Iff.rfl)]
  refine flatMap_same (fun v => ?_) _
  have := idsFilter_named ρ ids g.set
  exact (congrArg _ this).trans (map_same (fun _ => by rfl) _)

theorem gInter_named (gs : List GInter) (ids : List (Nat × String)) (vs : List InterVar) :
    genericInterLhs (gs.map (GInter.named ρ)) (ids.map (fun i => (i.1, ρ.set i.2))) (vs.map (InterVar.named ρ)) = genericInterLhs gs ids vs := by
  refine flatMap_same (fun g => ?_) _
  rw [filter_named (q := fun v : InterVar => decide (v.inter = g.inter)) (fun v => by
    rw [decide_eq_decide]; exact inter_eq ρ)]
  refine flatMap_same (fun v => ?_) _
  have := idsFilter_named ρ ids g.set
  exact (congrArg _ this).trans (map_same (fun _ => by rfl) _)

theorem genericFor_named (ids : List (Nat × String)) :
    (m.named ρ).genericTermsFor (ids.map (fun i => (i.1, ρ.set i.2))) = m.genericTermsFor ids := by
  unfold Market.genericTermsFor
  have e1 : (m.named ρ).gUnit = m.gUnit.map (List.map (GUnit.named ρ)) := rfl
  have e2 : (m.named ρ).gRegion = m.gRegion.map (List.map (GRegion.named ρ)) := rfl
  have e3 : (m.named ρ).gInter = m.gInter.map (List.map (GInter.named ρ)) := rfl
  have e4 : (m.named ρ).bidUnit = m.bidUnit.map (List.map (VarUnit.named ρ)) := rfl
  have e5 : (m.named ρ).bidReg = m.bidReg.map (List.map (VarReg.named ρ)) := rfl
  have e6 : (m.named ρ).inters = m.inters.map (List.map (InterVar.named ρ)) := rfl
  rw [e1, e2, e3, e4, e5, e6]
  refine congrArg₂ _ (congrArg₂ _ ?_ ?_) ?_
  · cases m.gUnit <;> cases m.bidUnit <;> first | rfl | exact gUnit_named ρ _ _ _
  · cases m.gRegion <;> cases m.bidReg <;> first | rfl | exact gRegion_named ρ _ _ _
  · cases m.gInter <;> cases m.inters <;> first | rfl | exact gInter_named ρ _ _ _

theorem genericTerms_named : (m.named ρ).genericTerms = m.genericTerms := by
  unfold Market.genericTerms
  rw [genericIds_named]
  cases m.genericIds with
  | none => rfl
  | some ids => exact genericFor_named ρ m ids

theorem terms_named : (m.named ρ).terms = m.terms := by
  unfold Market.terms
  have e1 : (m.named ρ).regTerms = m.regTerms := by
    unfold Market.regTerms
    have : (m.named ρ).regCon.concat = m.regCon.concat.map (ConReg.named ρ) := concat_named _ _
    rw [this, regVars_named, lhsReg_named]
  have e2 : (m.named ρ).unitTerms = m.unitTerms := by
    unfold Market.unitTerms
    have : (m.named ρ).unitCon.concat = m.unitCon.concat.map (ConUnit.named ρ) := concat_named _ _
    have h : (m.named ρ).bidUnit.getD [] = (m.bidUnit.getD []).map (VarUnit.named ρ) := getD_named _ _
    rw [this, h, lhsUnit_named]
  rw [e1, e2, genericTerms_named]
  rfl

theorem sos2_named : (m.named ρ).sos2Groups = m.sos2Groups := by
  unfold Market.sos2Groups
  have h : (m.named ρ).weights.getD [] = (m.weights.getD []).map (WeightVar.named ρ) := getD_named _ _
  rw [h, groupBy_named (key := fun w : WeightVar => (w.inter, w.link)) (pair_inj ρ.inter_inj ρ.inter_inj) (fun _ => by rfl)]
  exact map_same (fun l => by exact map_same (fun _ => by rfl) l) _

theorem sos1_named : (m.named ρ).sos1Groups = m.sos1Groups := by
  unfold Market.sos1Groups
  have h : (m.named ρ).inters.getD [] = (m.inters.getD []).map (InterVar.named ρ) := getD_named _ _
  rw [h, filter_named (q := fun v : InterVar => decide (v.inter ≠ v.link)) (fun v => by
    rw [decide_eq_decide]; exact not_congr (inter_eq ρ)),
    groupBy_named (key := fun w : InterVar => w.inter) ρ.inter_inj (fun _ => by rfl)]
  exact map_same (fun l => by exact map_same (fun _ => by rfl) l) _

theorem assemble_named : (m.named ρ).assemble = m.assemble := by
  have h1 : (m.named ρ).regCon.isEmpty = m.regCon.isEmpty := List.isEmpty_map
  have h2 : (m.named ρ).unitCon.isEmpty = m.unitCon.isEmpty := List.isEmpty_map
  have h3 : (m.named ρ).conRhs.isEmpty = m.conRhs.isEmpty := List.isEmpty_map
  have h4 : (m.named ρ).mktRhs.isEmpty = m.mktRhs.isEmpty := List.isEmpty_map
  have i1 : (m.named ρ).bidReg.isNone = m.bidReg.isNone := Option.isNone_map
  have i2 : (m.named ρ).interReg.isNone = m.interReg.isNone := Option.isNone_map
  have i3 : (m.named ρ).lossReg.isNone = m.lossReg.isNone := Option.isNone_map
  have i4 : (m.named ρ).bidUnit.isNone = m.bidUnit.isNone := Option.isNone_map
  have i5 : (m.named ρ).bids.isNone = m.bids.isNone := Option.isNone_map
  have i6 : (m.named ρ).inters.isNone = m.inters.isNone := Option.isNone_map
  have i7 : (m.named ρ).losses.isNone = m.losses.isNone := Option.isNone_map
  have i8 : (m.named ρ).weights.isNone = m.weights.isNone := Option.isNone_map
  have n : (m.named ρ).noVars = m.noVars := by
    unfold Market.noVars
    rw [i5, i6, i7, i8]
    rfl
  have l : (m.named ρ).lpRows = m.lpRows := by
    unfold Market.lpRows
    rw [h3, h4, terms_named, allVars_named, allRows_named]
    rfl
  unfold Market.assemble
  rw [h1, h2, i1, i2, i3, i4, n, l, objective_named, allVars_named, sos1_named, sos2_named]
  rfl

/-! ### The program for prices -/

theorem distances_named (x : Nat → ℚ) (v : InterVar) : (m.named ρ).distances x (v.named ρ) = m.distances x v := by
  unfold Market.distances
  have h : (m.named ρ).weights.getD [] = (m.weights.getD []).map (WeightVar.named ρ) := getD_named _ _
  rw [h, filter_named (q := fun w : WeightVar => decide (w.inter = v.inter ∧ w.link = v.link)) (fun v => by
    rw [decide_eq_decide]; exact link_eq ρ)]
  exact map_same (fun _ => by rfl) _

theorem linear_named (S : Solver) (x : Nat → ℚ) (lp : Lp) : (m.named ρ).linear S x lp = m.linear S x lp := by
  have h : (m.named ρ).inters.getD [] = (m.inters.getD []).map (InterVar.named ρ) := getD_named _ _
  have e1 : (m.named ρ).unusedWeights S x = m.unusedWeights S x := by
    unfold Market.unusedWeights
    rw [h]
    exact flatMap_same (fun v => by rw [distances_named]) _
  have e2 : (m.named ρ).unusedLinks x = m.unusedLinks x := by
    unfold Market.unusedLinks
    rw [h, filter_named (q := fun v : InterVar => decide (v.inter ≠ v.link ∧ x v.vid = 0)) (fun v => by
      rw [decide_eq_decide]; exact and_congr (not_congr (inter_eq ρ)) Iff.rfl)]
    exact map_same (fun _ => by rfl) _
  have e3 : (m.named ρ).losses.isSome = m.losses.isSome := Option.isSome_map
  unfold Market.linear
  rw [e1, e2, e3]

/-! ### Reports -/

theorem unitDispatch_named (x : Nat → ℚ) : (m.named ρ).unitDispatch x = (m.unitDispatch x).map (List.map (DispatchRow.named ρ)) := by
  unfold Market.unitDispatch
  have e : (m.named ρ).bids = m.bids.map (List.map (BidVar.named ρ)) := rfl
  rw [e]
  cases m.bids with
  | none => rfl
  | some bs =>
    simp only [Option.map_some, Except.map]
    rw [groupSum_named (key := fun b : BidVar => (b.unit, b.dtype, b.service)) (val := fun b => x b.vid) (fst_inj ρ.unit_inj) (fun _ => by rfl)
      (fun _ => by rfl)]
    exact congrArg Except.ok (map_named (fun _ => by rfl) _)

theorem interFlows_named (x : Nat → ℚ) : (m.named ρ).interFlows x = (m.interFlows x).map (List.map (FlowRow.named ρ)) := by
  unfold Market.interFlows
  have e : (m.named ρ).inters = m.inters.map (List.map (InterVar.named ρ)) := rfl
  have h : (m.named ρ).losses.getD [] = (m.losses.getD []).map (LossVar.named ρ) := getD_named _ _
  rw [e, h]
  cases m.inters with
  | none => rfl
  | some vs =>
    refine congrArg Except.ok (flatMap_named (fun v => ?_) _)
    rw [filter_named (q := fun l : LossVar => decide (l.inter = v.inter ∧ l.link = v.link)) (fun v => by
      rw [decide_eq_decide]; exact link_eq ρ)]
    cases (m.losses.getD []).filter (fun l => decide (l.inter = v.inter ∧ l.link = v.link)) with
    | nil => rfl
    | cons a l =>
      simp only [List.map_cons, List.map_map]
      rfl

/-- sums by region with other names of the regions -/
def byRegion (e : String × ℚ) : String × ℚ := (ρ.region e.1, e.2)

theorem sumRegion_named {l : List (String × ℚ)} : groupSum Prod.fst Prod.snd (l.map (byRegion ρ)) = (groupSum Prod.fst Prod.snd l).map (byRegion ρ) :=
  groupSum_named (key := Prod.fst) (val := Prod.snd) ρ.region_inj (fun _ => by rfl) (fun _ => by rfl) l

theorem net_named (rows : List DispatchRow) :
    (m.named ρ).netByRegion (rows.map (DispatchRow.named ρ)) = (m.netByRegion rows).map (byRegion ρ) := by
  unfold Market.netByRegion
  rw [← sumRegion_named]
  congr 1
  rw [filter_named (q := fun r : DispatchRow => decide (r.service = .energy)) (fun _ => by rfl)]
  refine flatMap_named (fun r => ?_) _
  have e : (m.named ρ).units = m.units.map (UnitInfo.named ρ) := rfl
  rw [e, filter_named (q := fun u : UnitInfo => decide (u.unit = r.unit ∧ u.dtype = r.dtype)) (fun v => by
    rw [decide_eq_decide]; exact and_congr (unit_eq ρ) Iff.rfl)]
  exact map_named (fun _ => by rfl) _

theorem inflow_named (ds : List InterDef) (fl : List FlowRow) :
    inflowByRegion (ds.map (InterDef.named ρ)) (fl.map (FlowRow.named ρ)) = (inflowByRegion ds fl).map (byRegion ρ) := by
  unfold inflowByRegion
  rw [← sumRegion_named]
  congr 1
  have e : (ds.map (InterDef.named ρ)).map (fun d => (d.inter, d.link, d.toR, (1 : ℚ))) ++
      (ds.map (InterDef.named ρ)).map (fun d => (d.inter, d.link, d.fromR, (-1 : ℚ))) =
      (ds.map (fun d => (d.inter, d.link, d.toR, (1 : ℚ))) ++ ds.map (fun d => (d.inter, d.link, d.fromR, (-1 : ℚ)))).map
        (fun c => (ρ.inter c.1, ρ.inter c.2.1, ρ.region c.2.2.1, c.2.2.2)) := by
    simp only [List.map_append, List.map_map]
    rfl
  rw [e]
  refine flatMap_named (fun c => ?_) _
  rw [filter_named (q := fun f : FlowRow => decide (f.inter = c.1 ∧ f.link = c.2.1)) (fun v => by
    rw [decide_eq_decide]; exact link_eq ρ)]
  exact map_named (fun _ => by rfl) _

theorem transmission_named (ds : List InterDef) (fl : List FlowRow) :
    transmissionByRegion (ds.map (InterDef.named ρ)) (fl.map (FlowRow.named ρ)) = (transmissionByRegion ds fl).map (byRegion ρ) := by
  unfold transmissionByRegion
  rw [← sumRegion_named]
  congr 1
  refine flatMap_named (fun f => ?_) _
  rw [filter_named (q := fun d : InterDef => decide (d.inter = f.inter ∧ d.link = f.link)) (fun v => by
    rw [decide_eq_decide]; exact link_eq ρ)]
  exact flatMap_named (fun _ => by rfl) _

theorem lossesBy_named (sh : List (String × String × ℚ)) (ds : List InterDef) (fl : List FlowRow) :
    lossesByRegion (sh.map (shareNamed ρ)) (ds.map (InterDef.named ρ)) (fl.map (FlowRow.named ρ)) =
      (lossesByRegion sh ds fl).map (byRegion ρ) := by
  unfold lossesByRegion
  dsimp only
  rw [← sumRegion_named]
  congr 1
  have e : ∀ (pick : InterDef → String) (pick' : InterDef → String) (s : ℚ → ℚ), (∀ d, pick' (d.named ρ) = ρ.region (pick d)) →
      (sh.map (shareNamed ρ)).flatMap (fun s' => ((ds.map (InterDef.named ρ)).filter (fun d => decide (d.inter = s'.1 ∧ d.link = s'.2.1))).map
        (fun d => (s'.1, s'.2.1, pick' d, s s'.2.2))) =
      (sh.flatMap (fun s' => (ds.filter (fun d => decide (d.inter = s'.1 ∧ d.link = s'.2.1))).map
        (fun d => (s'.1, s'.2.1, pick d, s s'.2.2)))).map (fun c => (ρ.inter c.1, ρ.inter c.2.1, ρ.region c.2.2.1, c.2.2.2)) := by
    intro pick pick' s hp
    refine flatMap_named (fun s' => ?_) _
    rw [filter_named (q := fun d : InterDef => decide (d.inter = s'.1 ∧ d.link = s'.2.1)) (fun v => by
      rw [decide_eq_decide]; exact link_eq ρ)]
    exact map_named (fun d => by rw [hp]; rfl) _
  have a1 := e (fun d => d.fromR) (fun d => d.fromR) (fun q => q) (fun _ => rfl)
  have a2 := e (fun d => d.toR) (fun d => d.toR) (fun q => 1 - q) (fun _ => rfl)
  rw [a1, a2, ← List.map_append]
  refine flatMap_named (fun f => ?_) _
  rw [filter_named (q := fun s : String × String × String × ℚ => decide (s.1 = f.inter ∧ s.2.1 = f.link)) (fun v => by
    rw [decide_eq_decide]; exact link_eq ρ)]
  exact map_named (fun _ => by rfl) _

theorem join_named (rows : List SummaryRow) (t : List (String × ℚ)) (F : SummaryRow → ℚ → SummaryRow)
    (hF : ∀ r q, F (r.named ρ) q = (F r q).named ρ) :
    joinRegion (rows.map (SummaryRow.named ρ)) (t.map (byRegion ρ)) F = (joinRegion rows t F).map (SummaryRow.named ρ) := by
  refine flatMap_named (fun r => ?_) _
  rw [filter_named (q := fun e : String × ℚ => decide (e.1 = r.region)) (fun v => by
    rw [decide_eq_decide]; exact region_eq ρ)]
  exact map_named (fun e => by exact hF r e.2) _

theorem outer_named (n i : List (String × ℚ)) :
    ((n.map (byRegion ρ)).map Prod.fst ++ (i.map (byRegion ρ)).map Prod.fst).dedup.map (fun g =>
      ({ region := g, dispatch := (((n.map (byRegion ρ)).filter (fun e => decide (e.1 = g))).map Prod.snd).sum,
         inflow := some (((i.map (byRegion ρ)).filter (fun e => decide (e.1 = g))).map Prod.snd).sum } : SummaryRow)) =
    ((n.map Prod.fst ++ i.map Prod.fst).dedup.map (fun g =>
      ({ region := g, dispatch := ((n.filter (fun e => decide (e.1 = g))).map Prod.snd).sum,
         inflow := some ((i.filter (fun e => decide (e.1 = g))).map Prod.snd).sum } : SummaryRow))).map (SummaryRow.named ρ) := by
  have e : ∀ l : List (String × ℚ), (l.map (byRegion ρ)).map Prod.fst = (l.map Prod.fst).map ρ.region := fun l => map_named (fun _ => by rfl) l
  rw [e, e, ← List.map_append, List.dedup_map_of_injective ρ.region_inj]
  refine map_named (fun g => ?_) _
  have h : ∀ l : List (String × ℚ), ((l.map (byRegion ρ)).filter (fun e => decide (e.1 = ρ.region g))).map Prod.snd =
      (l.filter (fun e => decide (e.1 = g))).map Prod.snd := fun l => by
    rw [filter_named (q := fun e : String × ℚ => decide (e.1 = g)) (fun v => by rw [decide_eq_decide]; exact region_eq ρ)]
    exact map_same (fun _ => by rfl) _
  rw [h, h]
  rfl

theorem summary_named (x : Nat → ℚ) : (m.named ρ).regionSummary x = (m.regionSummary x).map (List.map (SummaryRow.named ρ)) := by
  unfold Market.regionSummary
  rw [unitDispatch_named, interFlows_named]
  have e1 : (m.named ρ).dirs = m.dirs.map (List.map (InterDef.named ρ)) := rfl
  have e2 : (m.named ρ).lossShares = m.lossShares.map (List.map (shareNamed ρ)) := rfl
  have e3 : (m.named ρ).losses.isNone = m.losses.isNone := Option.isNone_map
  rw [e1, e2, e3]
  cases m.unitDispatch x with
  | error e => rfl
  | ok rows =>
    simp only [Except.map, net_named]
    cases m.dirs with
    | none => exact congrArg Except.ok (map_named (fun _ => by rfl) _)
    | some ds =>
      simp only [Option.map_some]
      cases m.interFlows x with
      | error e => rfl
      | ok fl =>
        simp only [List.isEmpty_map, inflow_named, transmission_named, outer_named]
        by_cases h : ds.isEmpty = true
        · rw [if_pos h, if_pos h]
        rw [if_neg h, if_neg h]
        cases m.lossShares with
        | none => exact congrArg Except.ok (join_named ρ _ _ _ (fun _ _ => rfl))
        | some sh =>
          simp only [Option.map_some, lossesBy_named]
          by_cases h : m.losses.isNone = true
          · rw [if_pos h, if_pos h]
          rw [if_neg h, if_neg h]
          refine congrArg Except.ok ?_
          rw [join_named ρ _ _ _ (fun _ _ => rfl), join_named ρ _ _ _ (fun _ _ => rfl)]

theorem report_named (lp : Lp) (x : Nat → ℚ) : (m.named ρ).report lp x = (m.report lp x).named ρ := by
  unfold Market.report Report.named
  rw [unitDispatch_named, interFlows_named, summary_named]
  rfl

/-! ### Prices -/

theorem energy_prices_named (p : Nat → ℚ) : (m.named ρ).energyPrices p = energyNamed ρ (m.energyPrices p) := by
  unfold Market.energyPrices
  have e : (m.named ρ).mktRhs.get? .demand = (m.mktRhs.get? .demand).map (List.map (Row.named ρ)) := Dict.get?_mapv _ _ _
  rw [e]
  cases m.mktRhs.get? .demand with
  | none => rfl
  | some rows =>
    refine congrArg Except.ok ?_
    rw [List.filterMap_map, List.map_filterMap]
    apply List.filterMap_congr
    intro r _
    show (r.region.map ρ.region).map _ = _
    cases r.region <;> rfl

theorem fcas_prices_named (p : Nat → ℚ) : (m.named ρ).fcasPrices p = fcasNamed ρ (m.fcasPrices p) := by
  unfold Market.fcasPrices
  have e1 : (m.named ρ).mktRhs.get? .fcas = (m.mktRhs.get? .fcas).map (List.map (Row.named ρ)) := Dict.get?_mapv _ _ _
  have e2 : (m.named ρ).regCon.get? .fcas = (m.regCon.get? .fcas).map (List.map (ConReg.named ρ)) := Dict.get?_mapv _ _ _
  rw [e1, e2]
  cases m.regCon.get? .fcas with
  | none => rfl
  | some cs =>
    cases m.mktRhs.get? .fcas with
    | none => rfl
    | some rows =>
      refine congrArg Except.ok ?_
      refine Eq.trans (congrArg (groupSum _ _) ?_) (groupSum_named (r := fun q : ConReg × Row => (q.1.named ρ, q.2.named ρ))
        (key := fun p : ConReg × Row => (p.1.region, p.1.service)) (val := fun q => p q.2.cid)
        (fst_inj ρ.region_inj) (fun _ => by rfl) (fun _ => by rfl) _)
      refine flatMap_named (fun c => ?_) _
      rw [filter_named (q := fun r : Row => decide (r.cid = c.cid)) (fun _ => by rfl)]
      exact map_named (fun _ => by rfl) _

theorem canPrice_named {r : Report} {ep : Except Err (List (String × ℚ))} {fp : Except Err (List ((String × Service) × ℚ))}
    (h : m.canPrice r ep fp) : (m.named ρ).canPrice (r.named ρ) (energyNamed ρ ep) (fcasNamed ρ fp) := by
  obtain ⟨lp, x, S, z, p, e, hx, hS, hp, rfl, rfl, rfl⟩ := h
  exact ⟨lp, x, S, z, p, by rw [assemble_named]; exact e, hx, hS, by rw [linear_named]; exact hp, report_named ρ m lp x,
    energy_prices_named ρ m p, fcas_prices_named ρ m p⟩

theorem canPrice_back {r' : Report} {ep' : Except Err (List (String × ℚ))} {fp' : Except Err (List ((String × Service) × ℚ))}
    (h : (m.named ρ).canPrice r' ep' fp') : ∃ r ep fp, m.canPrice r ep fp ∧ r' = r.named ρ ∧ ep' = energyNamed ρ ep ∧ fp' = fcasNamed ρ fp := by
  obtain ⟨lp, x, S, z, p, e, hx, hS, hp, rfl, rfl, rfl⟩ := h
  rw [assemble_named] at e
  rw [linear_named] at hp
  exact ⟨_, _, _, ⟨lp, x, S, z, p, e, hx, hS, hp, rfl, rfl, rfl⟩, report_named ρ m lp x, energy_prices_named ρ m p, fcas_prices_named ρ m p⟩

variable {m}

theorem sameButNames_of {M : Market} (h : SameDispatch (m.named ρ) M) : SameButNames ρ m M := by
  obtain ⟨⟨b1, f1, o1, p1⟩, ⟨b2, f2, o2, p2⟩⟩ := h
  have e := assemble_named ρ m
  refine ⟨⟨fun hb => b1 (by rw [e]; exact hb), fun hb => by have := b2 hb; rwa [e] at this⟩, ?_, ?_, ?_, ?_, ?_, ?_⟩
  · intro lp x el hx
    obtain ⟨LP, X, h1, h2, h3⟩ := f1 lp x (by rw [e]; exact el) hx
    exact ⟨LP, X, h1, h2, by rw [← report_named]; exact h3⟩
  · intro lp x el hx
    obtain ⟨LP, X, h1, h2, h3⟩ := f2 lp x el hx
    exact ⟨LP, X, by rw [← e]; exact h1, h2, by rw [← report_named]; exact h3.symm⟩
  · intro lp x el hx
    obtain ⟨LP, X, h1, h2, h3⟩ := o1 lp x (by rw [e]; exact el) hx
    exact ⟨LP, X, h1, h2, by rw [← report_named]; exact h3⟩
  · intro lp x el hx
    obtain ⟨LP, X, h1, h2, h3⟩ := o2 lp x el hx
    exact ⟨LP, X, by rw [← e]; exact h1, h2, by rw [← report_named]; exact h3.symm⟩
  · intro r ep fp hp
    obtain ⟨r', ep', fp', h1, h2, h3, h4⟩ := p1 _ _ _ (canPrice_named ρ m hp)
    exact ⟨r', ep', fp', h1, h2, h3, h4⟩
  · intro r' ep' fp' hp
    obtain ⟨_, _, _, h1, h2, h3, h4⟩ := p2 _ _ _ hp
    obtain ⟨r, ep, fp, h5, rfl, rfl, rfl⟩ := canPrice_back ρ m h1
    exact ⟨r, ep, fp, h5, h2.symm, h3.symm, h4.symm⟩

end

end Verif
