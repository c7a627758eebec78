import Verif.Proofs.NamesBuild

/-! Giving other names commutes with every call except that for volume bids, which sorts by the names of units, and that for
tie-break constraints. -/

namespace Verif

section
variable (ρ : Names)

theorem checks_named {α : Type} {κ κ' : Type} [DecidableEq κ] [DecidableEq κ'] {r : α → α} {p P : α → Bool} (h : ∀ a, P (r a) = p a)
    {key : α → κ} {key' : α → κ'} {q : κ → κ'} (hq : Function.Injective q) (hk : ∀ a, key' (r a) = q (key a)) (l : List α) :
    ((l.map r).all P && decide ((l.map r).map key').Nodup) = (l.all p && decide (l.map key).Nodup) := by
  rw [all_named h, nodup_named hq hk]

theorem setPriceBids_named (m : Market) (b : List BidRow) :
    (m.named ρ).setPriceBids (b.map (BidRow.named ρ)) = Res.named ρ (m.setPriceBids b) := by
  unfold Market.setPriceBids
  have e0 : (m.named ρ).bids = m.bids.map (List.map (BidVar.named ρ)) := rfl
  rw [e0]
  cases m.bids with
  | none => rfl
  | some vs =>
    have e1 : (m.named ρ).priceBidsOk (b.map (BidRow.named ρ)) = m.priceBidsOk b :=
      checks_named (key := fun b : BidRow => (b.unit, b.service, b.dtype)) (fun a => by exact knows_named ρ m a.unit)
        (fst_inj ρ.unit_inj) (fun _ => by rfl) b
    have e2 := biInputs_named ρ (mem_bidi_named ρ m) (energyUnits b)
    rw [← energyUnits_named] at e2
    have e3 : (m.named ρ).units = m.units.map (UnitInfo.named ρ) := rfl
    simp only [Option.map_some, e1, e2, e3, bidCosts_named, scale_named]
    split
    · rfl
    split <;> rfl

theorem limsOk_named (m : Market) (l : List Lim) : (m.named ρ).limsOk (l.map (Lim.named ρ)) = m.limsOk l :=
  checks_named (key := fun b : Lim => (b.unit, b.service, b.dtype)) (fun a => by exact knows_named ρ m a.unit)
    (fst_inj ρ.unit_inj) (fun _ => by rfl) l

theorem setCapacity_named (m : Market) (l : List Lim) (vc : Option VCost) :
    (m.named ρ).setCapacity (l.map (Lim.named ρ)) (vc.map (VCost.named ρ)) = Res.named ρ (m.setCapacity l vc) := by
  unfold Market.setCapacity
  have e0 : (m.named ρ).bids.isNone = m.bids.isNone := Option.isNone_map
  rw [e0, limsOk_named, all_named (q := fun l : Lim => decide (l.service = .energy)) (fun _ => by rfl)]
  split
  · rfl
  split
  · rfl
  exact andThen_named ρ (addUnitSet_named ρ m _ (capacity_named ρ l _ (mem_bidi_named ρ m))) (fun m => elasticOpt_named ρ m _ vc)

theorem setUigf_named (m : Market) (l : List Lim) (vc : Option VCost) :
    (m.named ρ).setUigf (l.map (Lim.named ρ)) (vc.map (VCost.named ρ)) = Res.named ρ (m.setUigf l vc) := by
  unfold Market.setUigf
  have e0 : (m.named ρ).bids.isNone = m.bids.isNone := Option.isNone_map
  rw [e0, limsOk_named, all_named (q := fun l : Lim => decide (l.service = .energy ∧ l.dtype = .generator)) (fun _ => by rfl)]
  split
  · rfl
  split
  · rfl
  exact andThen_named ρ (addUnitSet_named ρ m _ (create_named ρ l _ _)) (fun m => elasticOpt_named ρ m _ vc)

theorem setFcasMaxAvail_named (m : Market) (l : List Lim) (vc : Option VCost) :
    (m.named ρ).setFcasMaxAvail (l.map (Lim.named ρ)) (vc.map (VCost.named ρ)) = Res.named ρ (m.setFcasMaxAvail l vc) := by
  unfold Market.setFcasMaxAvail
  rw [limsOk_named, all_named (q := fun l : Lim => decide (l.service ≠ .energy) && decide (0 ≤ l.val)) (fun _ => by rfl)]
  split
  · rfl
  exact andThen_named ρ (addUnitSet_named ρ m _ (create_named ρ l _ _)) (fun m => elasticOpt_named ρ m _ vc)

theorem rampsOk_named (m : Market) (l : List RampRow) : (m.named ρ).rampsOk (l.map (RampRow.named ρ)) = m.rampsOk l :=
  checks_named (key := fun b : RampRow => (b.unit, b.dtype)) (fun a => by exact knows_named ρ m a.unit) (fst_inj ρ.unit_inj) (fun _ => by rfl) l

theorem scadaOptOk_named (m : Market) (l : Option (List Scada)) :
    (m.named ρ).scadaOptOk (l.map (List.map (Scada.named ρ))) = m.scadaOptOk l := by
  cases l with
  | none => rfl
  | some l => exact checks_named (key := fun b : Scada => b.unit) (fun a => by exact knows_named ρ m a.unit) ρ.unit_inj (fun _ => by rfl) l

theorem fsProfilesOk_named (m : Market) (rt : RunType) (l : Option (List FsRamp)) :
    (m.named ρ).fsProfilesOk rt (l.map (List.map (FsRamp.named ρ))) = m.fsProfilesOk rt l := by
  have h : ∀ l : List FsRamp, (m.named ρ).fsRampOk (l.map (FsRamp.named ρ)) = m.fsRampOk l := fun l =>
    checks_named (key := fun b : FsRamp => b.unit) (fun a => by
      show ((m.named ρ).knows (ρ.unit a.unit) && _ && _) = _
      rw [knows_named]; rfl) ρ.unit_inj (fun _ => by rfl) l
  cases rt <;> cases l <;> first | rfl | exact h _

theorem elasticRamps_named (m : Market) (vc : Option VCost) :
    (m.named ρ).elasticRamps (vc.map (VCost.named ρ)) = Res.named ρ (m.elasticRamps vc) := by
  cases vc with
  | none => rfl
  | some c =>
    simp only [Option.map_some, Market.elasticRamps]
    refine andThen_named ρ (makeElastic_named ρ m _ c) (fun m => ?_)
    refine andThen_named ρ (makeElastic_named ρ m _ c) (fun m => ?_)
    exact andThen_named ρ (elasticIfPresent_named ρ m _ c) (fun m => elasticIfPresent_named ρ m _ c)

theorem elasticJr_named (m : Market) (vc : Option VCost) : (m.named ρ).elasticJr (vc.map (VCost.named ρ)) = Res.named ρ (m.elasticJr vc) := by
  cases vc with
  | none => rfl
  | some c =>
    simp only [Option.map_some, Market.elasticJr]
    refine andThen_named ρ (makeElastic_named ρ m _ c) (fun m => ?_)
    refine andThen_named ρ (makeElastic_named ρ m _ c) (fun m => ?_)
    exact andThen_named ρ (elasticIfPresent_named ρ m _ c) (fun m => elasticIfPresent_named ρ m _ c)

theorem addBiRamps_named (m : Market) (b : List BiRamp) : (m.named ρ).addBiRamps (b.map (BiRamp.named ρ)) = Res.named ρ (m.addBiRamps b) := by
  unfold Market.addBiRamps
  rw [List.isEmpty_map]
  split
  · rfl
  exact andThen_named ρ (addUnitSet_named ρ m _ (biRamp_named ρ b _ _ _)) (fun m => addUnitSet_named ρ m _ (biRamp_named ρ b _ _ _))

theorem setRampRates_named (m : Market) (r : List RampRow) (sc : Option (List Scada)) (ps : Option (List FsRamp)) (rt : RunType) (vc : Option VCost) :
    (m.named ρ).setRampRates (r.map (RampRow.named ρ)) (sc.map (List.map (Scada.named ρ))) (ps.map (List.map (FsRamp.named ρ))) rt
      (vc.map (VCost.named ρ)) = Res.named ρ (m.setRampRates r sc ps rt vc) := by
  unfold Market.setRampRates
  have e1 : (r.map (RampRow.named ρ)).map (·.unit) = (r.map (·.unit)).map ρ.unit := map_named (fun _ => by rfl) _
  have e2 : (m.named ρ).di = m.di := rfl
  rw [rampsOk_named, e1, biInputs_named ρ (mem_bidi_named ρ m), fsProfilesOk_named, scadaOptOk_named, e2, composite_named ρ r m.di (mem_bidi_named ρ m)]
  split
  · rfl
  split
  · rfl
  split
  · rfl
  split
  · rfl
  dsimp only
  rw [scadaOpt_named ρ (adjustScada_named ρ), scadaOpt_named ρ (adjustScadaBi_named ρ), adjustFast_named]
  cases adjustForFastStart (scadaOpt adjustForScada (compositeRampRates r m.di m.bidi).1 sc) rt ps m.di with
  | error e => rfl
  | ok ord =>
    simp only [Except.map]
    exact andThen_named ρ (addUnitSet_named ρ m _ (rampUp_named ρ ord _ _)) (fun m' => andThen_named ρ
      (addUnitSet_named ρ m' _ (rampDown_named ρ ord _ _)) (fun m' => andThen_named ρ (addBiRamps_named ρ m' _) (fun m' => elasticRamps_named ρ m' vc)))

theorem setFastStart_named (m : Market) (p : List FsInput) (vc : Option VCost) :
    (m.named ρ).setFastStart (p.map (FsInput.named ρ)) (vc.map (VCost.named ρ)) = Res.named ρ (m.setFastStart p vc) := by
  unfold Market.setFastStart
  have e1 : (m.named ρ).fsInputsOk (p.map (FsInput.named ρ)) = m.fsInputsOk p :=
    checks_named (key := fun b : FsInput => b.unit) (fun a => by
      show ((m.named ρ).knows (ρ.unit a.unit) && _ && _ && _ && _) = _
      rw [knows_named]; rfl) ρ.unit_inj (fun _ => by rfl) p
  have e2 : fastStartConstraints (mergeFsProfiles (m.named ρ).units (p.map (FsInput.named ρ))) (m.named ρ).nextCon =
      consNamed ρ (fastStartConstraints (mergeFsProfiles m.units p) m.nextCon) := by
    rw [← fastStart_named, ← mergeFs_named]; rfl
  have e3 : (consNamed ρ (fastStartConstraints (mergeFsProfiles m.units p) m.nextCon)).1.isEmpty =
      (fastStartConstraints (mergeFsProfiles m.units p) m.nextCon).1.isEmpty := List.isEmpty_map
  rw [e1]
  dsimp only
  rw [e2, e3]
  split
  · rfl
  split
  · rfl
  exact andThen_named ρ (addUnitSet_named ρ m _ rfl) (fun m => elasticOpt_named ρ m _ vc)

theorem removeFastStart_named (m : Market) : (m.named ρ).removeFastStart = Res.named ρ m.removeFastStart := by
  unfold Market.removeFastStart
  have e1 : (m.named ρ).conRhs.has .fastStart = m.conRhs.has .fastStart := Dict.has_mapv _ _ _
  have e2 : (m.named ρ).conRhs.erase .fastStart = (m.conRhs.erase .fastStart).map (fun e => (e.1, e.2.map (Row.named ρ))) := Dict.erase_mapv _ _ _
  have e3 : (m.named ρ).unitCon.erase .fastStart = (m.unitCon.erase .fastStart).map (fun e => (e.1, e.2.map (ConUnit.named ρ))) := Dict.erase_mapv _ _ _
  have e4 : (m.named ρ).deficits = m.deficits := rfl
  simp only [e1, e2, e3]
  by_cases h1 : m.conRhs.has .fastStart = true <;> by_cases h2 : m.deficits.has .fastStart = true <;>
    simp only [h1, h2, if_true, if_false, e4, Bool.false_eq_true] <;> rfl

theorem setDemand_named (m : Market) (d : List Demand) (vc : Option VCost) :
    (m.named ρ).setDemand (d.map (Demand.named ρ)) (vc.map (VCost.named ρ)) = Res.named ρ (m.setDemand d vc) := by
  unfold Market.setDemand
  rw [checks_named (p := fun d : Demand => decide (d.region ∈ m.regions)) (key := fun d : Demand => d.region)
    (fun a => by rw [decide_eq_decide]; exact region_named ρ m a.region) ρ.region_inj (fun _ => by rfl)]
  split
  · rfl
  exact andThen_named ρ (addRegSet_named ρ m _ (energy_named ρ d _)) (fun m => elasticOpt_named ρ m _ vc)

theorem setFcasReq_named (m : Market) (r : List FcasReq) (vc : Option VCost) :
    (m.named ρ).setFcasReq (r.map (FcasReq.named ρ)) (vc.map (VCost.named ρ)) = Res.named ρ (m.setFcasReq r vc) := by
  unfold Market.setFcasReq
  rw [checks_named (p := fun r : FcasReq => decide (r.region ∈ m.regions) && decide (r.ctype ≠ .other)) (key := fun r : FcasReq => (r.set, r.region, r.service))
    (fun a => by congr 1; rw [decide_eq_decide]; exact region_named ρ m a.region) (pair_inj ρ.set_inj (fst_inj ρ.region_inj)) (fun _ => by rfl)]
  split
  · rfl
  exact andThen_named ρ (addRegSet_named ρ m _ (fcas_named ρ r _)) (fun m => elasticOpt_named ρ m _ vc)

theorem setJointRamping_named (m : Market) (r : List RampRow) (ps : Option (List FsRamp)) (rt : RunType) (vc : Option VCost) :
    (m.named ρ).setJointRamping (r.map (RampRow.named ρ)) (ps.map (List.map (FsRamp.named ρ))) rt (vc.map (VCost.named ρ)) =
      Res.named ρ (m.setJointRamping r ps rt vc) := by
  unfold Market.setJointRamping
  rw [checks_named (p := fun r : RampRow => m.knows r.unit) (key := fun r : RampRow => r.unit) (fun a => by exact knows_named ρ m a.unit) ρ.unit_inj
    (fun _ => by rfl), fsProfilesOk_named]
  split
  · rfl
  split
  · rfl
  have e0 : (m.named ρ).bids = m.bids.map (List.map (BidVar.named ρ)) := rfl
  have e2 : (m.named ρ).di = m.di := rfl
  rw [e0, e2]
  cases m.bids with
  | none => rfl
  | some vs =>
    simp only [Option.map_some, adjustFast_named]
    cases adjustForFastStart r rt ps m.di with
    | error e => rfl
    | ok rs =>
      simp only [Except.map]
      have ord : ∀ l : List RegRate, (l.map (RegRate.named ρ)).filter (fun r => decide (r.unit ∉ (m.named ρ).bidi)) =
          (l.filter (fun r => decide (r.unit ∉ m.bidi))).map (RegRate.named ρ) := fun l =>
        filter_named (fun a => by rw [decide_eq_decide, not_iff_not]; exact mem_bidi_named ρ m a.unit) l
      have bdu : ∀ l : List RegRate, (l.map (RegRate.named ρ)).filter (fun r => decide (r.unit ∈ (m.named ρ).bidi)) =
          (l.filter (fun r => decide (r.unit ∈ m.bidi))).map (RegRate.named ρ) := fun l =>
        filter_named (fun a => by rw [decide_eq_decide]; exact mem_bidi_named ρ m a.unit) l
      rw [regRates_named ρ vs .raiseReg rs (·.up) (·.up) (fun _ => rfl), regRates_named ρ vs .lowerReg rs (·.down) (·.down) (fun _ => rfl),
        ord, ord, bdu, bdu]
      exact andThen_named ρ (addUnitSetIf_named ρ m _ (by rw [List.isEmpty_map]) (jr_named ρ _ _ _ _ _)) (fun m' =>
        andThen_named ρ (addUnitSetIf_named ρ m' _ (by rw [List.isEmpty_map]) (jrBdu_named ρ _ _ _ _ _)) (fun m' =>
        andThen_named ρ (addUnitSetIf_named ρ m' _ (by rw [List.isEmpty_map]) (jr_named ρ _ _ _ _ _)) (fun m' =>
        andThen_named ρ (addUnitSetIf_named ρ m' _ (by rw [List.isEmpty_map]) (jrBdu_named ρ _ _ _ _ _)) (fun m' => elasticJr_named ρ m' vc))))

theorem trapsOk_named (m : Market) (t : List Trap) (s : Service → Bool) : (m.named ρ).trapsOk (t.map (Trap.named ρ)) s = m.trapsOk t s :=
  checks_named (key := fun b : Trap => (b.unit, b.service, b.dtype)) (fun a => by
      show ((m.named ρ).knows (ρ.unit a.unit) && _ && _) = _
      rw [knows_named]; rfl) (fst_inj ρ.unit_inj) (fun _ => by rfl) t

theorem setJointCapacity_named (m : Market) (t : List Trap) (vc : Option VCost) :
    (m.named ρ).setJointCapacity (t.map (Trap.named ρ)) (vc.map (VCost.named ρ)) = Res.named ρ (m.setJointCapacity t vc) := by
  unfold Market.setJointCapacity
  rw [trapsOk_named, List.isEmpty_map]
  split
  · rfl
  split
  · rfl
  exact andThen_named ρ (addUnitSet_named ρ m _ (jointCapacity_named ρ t (mem_bidi_named ρ m) _)) (fun m => elasticOpt_named ρ m _ vc)

theorem setEnergyReg_named (m : Market) (t : List Trap) (vc : Option VCost) :
    (m.named ρ).setEnergyReg (t.map (Trap.named ρ)) (vc.map (VCost.named ρ)) = Res.named ρ (m.setEnergyReg t vc) := by
  unfold Market.setEnergyReg
  rw [trapsOk_named, List.isEmpty_map]
  split
  · rfl
  split
  · rfl
  exact andThen_named ρ (addUnitSet_named ρ m _ (energyReg_named ρ t _)) (fun m => elasticOpt_named ρ m _ vc)

theorem interDefsOk_named (m : Market) (d : List InterDef) : (m.named ρ).interDefsOk (d.map (InterDef.named ρ)) = m.interDefsOk d :=
  checks_named (key := fun d : InterDef => (d.inter, d.link)) (fun a => by
    have e1 : decide ((a.named ρ).toR ∈ (m.named ρ).regions) = decide (a.toR ∈ m.regions) := by rw [decide_eq_decide]; exact region_named ρ m a.toR
    have e2 : decide ((a.named ρ).fromR ∈ (m.named ρ).regions) = decide (a.fromR ∈ m.regions) := by rw [decide_eq_decide]; exact region_named ρ m a.fromR
    rw [e1, e2]; rfl) (pair_inj ρ.inter_inj ρ.inter_inj) (fun _ => by rfl) d

theorem setInterconnectors_named (m : Market) (d : List InterDef) :
    (m.named ρ).setInterconnectors (d.map (InterDef.named ρ)) = Res.named ρ (m.setInterconnectors d) := by
  unfold Market.setInterconnectors
  have e0 : (m.named ρ).nextVar = m.nextVar := rfl
  have e1 : ((interVariables d m.nextVar).map (InterVar.named ρ)).map InterVar.vid = (interVariables d m.nextVar).map InterVar.vid := map_same (fun _ => by rfl) _
  rw [interDefsOk_named]
  simp only [e0, interVars_named, interMap_named, List.isEmpty_map, e1]
  split
  · rfl
  split <;> rfl

theorem setLosses_named (m : Market) (f : List LossFn) (b : List BreakPt) :
    (m.named ρ).setLosses (f.map (LossFn.named ρ)) (b.map (BreakPt.named ρ)) = Res.named ρ (m.setLosses f b) := by
  unfold Market.setLosses
  have e0 : lossInputsOk (f.map (LossFn.named ρ)) (b.map (BreakPt.named ρ)) = lossInputsOk f b := by
    unfold lossInputsOk
    rw [checks_named (p := fun f : LossFn => decide (0 ≤ f.share)) (key := fun f : LossFn => (f.inter, f.link)) (fun _ => by rfl)
      (pair_inj ρ.inter_inj ρ.inter_inj) (fun _ => by rfl),
      nodup_named (key := fun b : BreakPt => (b.inter, b.link, b.seg)) (pair_inj ρ.inter_inj (fst_inj ρ.inter_inj)) (fun _ => by rfl)]
  have e1 : (f.map (LossFn.named ρ)).map (fun f => (f.inter, f.link, f.share)) = (f.map (fun f => (f.inter, f.link, f.share))).map (shareNamed ρ) :=
    map_named (fun _ => by rfl) _
  have d1 : (m.named ρ).dirs = m.dirs.map (List.map (InterDef.named ρ)) := rfl
  have d2 : (m.named ρ).inters = m.inters.map (List.map (InterVar.named ρ)) := rfl
  have d3 : (m.named ρ).interReg = m.interReg.map (List.map (InterMap.named ρ)) := rfl
  rw [e0, e1, d1, d2, d3]
  split
  · rfl
  cases m.dirs with
  | none => rfl
  | some ds =>
    cases m.inters with
    | none => rfl
    | some vs =>
      cases m.interReg with
      | none => rfl
      | some im =>
        have n1 : (m.named ρ).nextVar = m.nextVar := rfl
        have n2 : (m.named ρ).nextCon = m.nextCon := rfl
        have v1 : ∀ l : List LossVar, (l.map (LossVar.named ρ)).map LossVar.vid = l.map LossVar.vid := fun l => map_same (fun _ => by rfl) _
        have v2 : ∀ l : List WeightVar, (l.map (WeightVar.named ρ)).map WeightVar.vid = l.map WeightVar.vid := fun l => map_same (fun _ => by rfl) _
        have c1 : ∀ l : List Row, Dict.set (m.named ρ).conRhs .interpWeights (l.map (Row.named ρ)) =
            (Dict.set m.conRhs .interpWeights l).map (fun e => (e.1, e.2.map (Row.named ρ))) := fun l => Dict.set_mapv _ _ _ _
        simp only [Option.map_some, n1, n2, mergeFrom_named, lossVars_named, lossMap_named, weights_named, v1, v2, sumToOne_named, ids_named,
          linkLoss_named, linkFlow_named, c1]
        split <;> rfl

theorem setGeneric_named (m : Market) (g : List GenericRow) (vc : Option VCost) :
    (m.named ρ).setGeneric (g.map (GenericRow.named ρ)) (vc.map (VCost.named ρ)) = Res.named ρ (m.setGeneric g vc) := by
  unfold Market.setGeneric
  have e0 : saveIndex (g.map (GenericRow.named ρ)) (m.named ρ).nextCon (fun i g => ({ cid := i, ctype := g.ctype, rhs := g.rhs, set := some g.set } : Row)) =
      (saveIndex g m.nextCon (fun i g => ({ cid := i, ctype := g.ctype, rhs := g.rhs, set := some g.set } : Row))).map (Row.named ρ) :=
    saveIndex_named (fun _ _ => by rfl) _ _
  have c1 : ∀ l : List Row, Dict.set (m.named ρ).conRhs .generic (l.map (Row.named ρ)) =
      (Dict.set m.conRhs .generic l).map (fun e => (e.1, e.2.map (Row.named ρ))) := fun l => Dict.set_mapv _ _ _ _
  rw [nodup_named (key := fun g : GenericRow => g.set) ρ.set_inj (fun _ => by rfl)]
  dsimp only
  rw [e0, c1, ids_named, List.isEmpty_map]
  split
  · rfl
  rw [← elasticOpt_named]
  congr 1
  split <;> rfl

theorem linkUnits_named (m : Market) (g : List GUnit) : (m.named ρ).linkUnits (g.map (GUnit.named ρ)) = Res.named ρ (m.linkUnits g) := by
  unfold Market.linkUnits
  rw [checks_named (p := fun g : GUnit => m.knows g.unit) (key := fun g : GUnit => (g.set, g.unit, g.service)) (fun a => by exact knows_named ρ m a.unit)
    (pair_inj ρ.set_inj (fst_inj ρ.unit_inj)) (fun _ => by rfl)]
  split <;> rfl

theorem linkRegions_named (m : Market) (g : List GRegion) : (m.named ρ).linkRegions (g.map (GRegion.named ρ)) = Res.named ρ (m.linkRegions g) := by
  unfold Market.linkRegions
  rw [checks_named (p := fun g : GRegion => decide (g.region ∈ m.regions)) (key := fun g : GRegion => (g.set, g.region, g.service))
    (fun a => by rw [decide_eq_decide]; exact region_named ρ m a.region) (pair_inj ρ.set_inj (fst_inj ρ.region_inj)) (fun _ => by rfl)]
  split <;> rfl

theorem linkInters_named (m : Market) (g : List GInter) : (m.named ρ).linkInters (g.map (GInter.named ρ)) = Res.named ρ (m.linkInters g) := by
  unfold Market.linkInters
  rw [nodup_named (key := fun g : GInter => (g.set, g.inter)) (pair_inj ρ.set_inj ρ.inter_inj) (fun _ => by rfl)]
  split <;> rfl

/-- calls that do not sort by names -/
def Op.plain : Op → Prop
  | .volumeBids _ => False
  | .tieBreak _ => False
  | _ => True

theorem step_named (m : Market) (op : Op) (h : op.plain) : (m.named ρ).step (op.named ρ) = Res.named ρ (m.step op) := by
  unfold Market.step
  have e : (m.named ρ).nanCon = m.nanCon := rfl
  rw [e]
  split
  · rfl
  cases op <;> first | exact h.elim | skip
  · exact setPriceBids_named ρ m _
  · exact setCapacity_named ρ m _ _
  · exact setUigf_named ρ m _ _
  · exact setRampRates_named ρ m _ _ _ _ _
  · exact setFastStart_named ρ m _ _
  · exact removeFastStart_named ρ m
  · exact setDemand_named ρ m _ _
  · exact setFcasReq_named ρ m _ _
  · exact setFcasMaxAvail_named ρ m _ _
  · exact setJointRamping_named ρ m _ _ _ _
  · exact setJointCapacity_named ρ m _ _
  · exact setEnergyReg_named ρ m _ _
  · exact setInterconnectors_named ρ m _
  · exact setLosses_named ρ m _ _
  · exact setGeneric_named ρ m _ _
  · exact linkUnits_named ρ m _
  · exact linkRegions_named ρ m _
  · exact linkInters_named ρ m _
  · exact makeElastic_named ρ m _ _

end

end Verif
