import Verif.Proofs.Frames

/-!
# C133: calls refuse exactly the tables their schemas refuse

C127 says which data frames pass the checks of a call.  Here a list of rows is written out as the data frame a user passes
(`Spec/Frames`), and the call of the market raises a validation error exactly if the checks reject that data frame.  Violation costs are
numbers.
-/

namespace Verif

open Validator

/-- a call that does not end with a validation error -/
def Res.Valid (r : Res) : Prop := r.2 ≠ some .validation

theorem Res.Valid.andThen {r : Res} {f : Market → Res} (h : r.Valid) (hf : ∀ m, (f m).Valid) : (r.andThen f).Valid := by
  unfold Res.andThen
  split
  · exact hf _
  · rename_i e he
    intro h'
    exact h (he.trans h')

theorem makeElastic_valid (m : Market) (k : CKey) (c : ℚ) : (m.makeElastic k (.num c)).Valid := by
  unfold Market.makeElastic Res.Valid
  cases m.rowsOf k with
  | none => simp
  | some rows =>
    simp only [costRows]
    split
    · simp
    · split <;> simp

theorem elasticOpt_valid (m : Market) (k : CKey) (vc : Option ℚ) : (m.elasticOpt k (vc.map .num)).Valid := by
  cases vc with
  | none => simp [Market.elasticOpt, Res.Valid]
  | some c => exact makeElastic_valid m k c

theorem elasticIfPresent_valid (m : Market) (k : CKey) (c : ℚ) : (m.elasticIfPresent k (.num c)).Valid := by
  unfold Market.elasticIfPresent
  split
  · exact makeElastic_valid m k c
  · simp [Res.Valid]

theorem addUnitSet_valid (m : Market) (k : CKey) (t : List Row × List ConUnit) : (m.addUnitSet k t).Valid := by
  simp only [Market.addUnitSet, Res.Valid]
  split <;> simp

theorem addUnitSetIf_valid (m : Market) (k : CKey) (b : Bool) (t : List Row × List ConUnit) : (m.addUnitSetIf k b t).Valid := by
  unfold Market.addUnitSetIf
  split
  · exact addUnitSet_valid m k t
  · simp [Res.Valid]

theorem addRegSet_valid (m : Market) (k : CKey) (t : List Row × List ConReg) : (m.addRegSet k t).Valid := by
  simp only [Market.addRegSet, Res.Valid]
  split <;> simp

theorem addBiRamps_valid (m : Market) (bi : List BiRamp) : (m.addBiRamps bi).Valid := by
  unfold Market.addBiRamps
  split
  · simp [Res.Valid]
  · exact (addUnitSet_valid _ _ _).andThen (fun _ => addUnitSet_valid _ _ _)

theorem elasticRamps_valid (m : Market) (vc : Option ℚ) : (m.elasticRamps (vc.map .num)).Valid := by
  cases vc with
  | none => simp [Market.elasticRamps, Res.Valid]
  | some c =>
    exact (makeElastic_valid _ _ c).andThen (fun _ => (makeElastic_valid _ _ c).andThen (fun _ =>
      (elasticIfPresent_valid _ _ c).andThen (fun _ => elasticIfPresent_valid _ _ c)))

theorem elasticJr_valid (m : Market) (vc : Option ℚ) : (m.elasticJr (vc.map .num)).Valid := by
  cases vc with
  | none => simp [Market.elasticJr, Res.Valid]
  | some c =>
    exact (makeElastic_valid _ _ c).andThen (fun _ => (makeElastic_valid _ _ c).andThen (fun _ =>
      (elasticIfPresent_valid _ _ c).andThen (fun _ => elasticIfPresent_valid _ _ c)))

theorem adjustForFastStart_valid {rs : List RampRow} {rt : RunType} {ps : Option (List FsRamp)} {di : ℚ} {e : Err}
    (h : adjustForFastStart rs rt ps di = .error e) : e ≠ .validation := by
  rintro rfl
  cases rt <;> cases ps <;> simp [adjustForFastStart] at h

/-- a call that checks first -/
theorem refused_of {ok : Bool} {P : Prop} {r s : Res} (hr : r.2 = some .validation) (hs : s.Valid) (h : ok = true ↔ P) :
    (if !ok then r else s).2 = some .validation ↔ ¬ P := by
  cases ok with
  | false => simpa [hr] using h
  | true => simp at h; simp [h]; exact hs

theorem refused_or {ok : Bool} {P : Prop} {r s : Res} (hr : r.2 = some .validation) (h : ok = true ↔ P) :
    (if !ok then r else s).2 = some .validation ↔ ¬ P ∨ s.2 = some .validation := by
  cases ok with
  | false => simp at h; simp [hr, h]
  | true => simp at h; simp [h]

variable {m : Market}

theorem knows_iff (u : String) : m.knows u = true ↔ u ∈ m.units.map (·.unit) := by simp [Market.knows]

/-- **C133** Construction of a market. -/
theorem C133_market (regions : List String) (us : List UnitInfo) (di : ℚ) :
    (Market.init regions us di = .error .validation ↔ (unitInfoSchema regions).validate (unitInfoFrame us) ≠ none) ∧
    ((unitInfoSchema regions).validate (unitInfoFrame us) = none →
      Market.init regions us di = .ok { regions := regions, units := us, di := di }) := by
  rw [Ne, unitInfo_accepts]
  unfold Market.init
  have : (us.all (fun u => decide (u.region ∈ regions) && decide (0 ≤ u.lf)) && decide ((us.map (fun u => (u.unit, u.dtype))).Nodup)) = true ↔
      (∀ u ∈ us, u.region ∈ regions ∧ 0 ≤ u.lf) ∧ (us.map (fun u => (u.unit, u.dtype))).Nodup := by simp
  rw [← this]
  split <;> simp_all

/-- **C133** Demand. -/
theorem C133_demand (hm : m.nanCon = false) (ds : List Demand) (vc : Option ℚ) :
    (m.step (.demand ds (vc.map .num))).2 = some .validation ↔ (demandSchema m.regions).validate (demandFrame ds) ≠ none := by
  rw [Ne, demand_accepts]
  simp only [Market.step, hm, Bool.false_eq_true, if_false, Market.setDemand]
  exact refused_of rfl ((addRegSet_valid _ _ _).andThen (fun _ => elasticOpt_valid _ _ _)) (by simp)

/-- **C133** FCAS requirements. -/
theorem C133_fcas_requirements (hm : m.nanCon = false) (rs : List FcasReq) (vc : Option ℚ) :
    (m.step (.fcasReq rs (vc.map .num))).2 = some .validation ↔ (fcasSchema m.regions).validate (fcasFrame rs) ≠ none := by
  rw [Ne, fcas_accepts]
  simp only [Market.step, hm, Bool.false_eq_true, if_false, Market.setFcasReq]
  exact refused_of rfl ((addRegSet_valid _ _ _).andThen (fun _ => elasticOpt_valid _ _ _)) (by simp)

/-- **C133** Capacities. -/
theorem C133_capacities (hm : m.nanCon = false) (hb : m.bids.isSome) (dispatch : Bool) (ls : List Lim) (hs : ∀ l ∈ ls, l.service = .energy)
    (hd : dispatch = true ∨ ∀ l ∈ ls, l.dtype = .generator) (vc : Option ℚ) :
    (m.step (.capacity ls (vc.map .num))).2 = some .validation ↔
      (unitLimitsSchema (m.units.map (·.unit)) dispatch).validate (capacitiesFrame dispatch ls) ≠ none := by
  rw [Ne, capacities_accepts]
  have hn : m.bids.isNone = false := by simpa using hb
  have ha : ls.all (fun l => decide (l.service = .energy)) = true := by simpa using hs
  have hk : (ls.map (fun l => (l.unit, l.service, l.dtype))).Nodup ↔ (ls.map (fun l => (l.unit, if dispatch then l.dtype else .generator))).Nodup := by
    have : ls.map (fun l => (l.unit, if dispatch then l.dtype else .generator)) = ls.map (fun l => (l.unit, l.dtype)) :=
      List.map_congr_left (fun l hl => by
        rcases hd with rfl | h
        · rfl
        · rw [h l hl]; simp)
    rw [this]
    have : ls.map (fun l => (l.unit, l.service, l.dtype)) = (ls.map (fun l => (l.unit, l.dtype))).map (fun p => (p.1, Service.energy, p.2)) := by
      rw [List.map_map]
      exact List.map_congr_left (fun l hl => by simp [hs l hl])
    rw [this, List.nodup_map_iff (fun a b h => by simpa [Prod.ext_iff] using h)]
  simp only [Market.step, hm, Bool.false_eq_true, if_false, Market.setCapacity, hn, ha, Bool.not_true, Bool.or_false]
  exact refused_of rfl ((addUnitSet_valid _ _ _).andThen (fun _ => elasticOpt_valid _ _ _))
    (by simp only [Market.limsOk, Bool.and_eq_true, List.all_eq_true, knows_iff, decide_eq_true_eq, hk])

/-- **C133** Forecasts of intermittent generation. -/
theorem C133_forecasts (hm : m.nanCon = false) (hb : m.bids.isSome) (ls : List Lim) (hs : ∀ l ∈ ls, l.service = .energy ∧ l.dtype = .generator)
    (vc : Option ℚ) :
    (m.step (.uigf ls (vc.map .num))).2 = some .validation ↔ (uigfSchema (m.units.map (·.unit))).validate (forecastsFrame ls) ≠ none := by
  rw [Ne, forecasts_accepts]
  have hn : m.bids.isNone = false := by simpa using hb
  have ha : ls.all (fun l => decide (l.service = .energy ∧ l.dtype = .generator)) = true := by simpa using hs
  have hk : (ls.map (fun l => (l.unit, l.service, l.dtype))).Nodup ↔ (ls.map (·.unit)).Nodup := by
    have : ls.map (fun l => (l.unit, l.service, l.dtype)) = (ls.map (·.unit)).map (fun p => (p, Service.energy, DType.generator)) := by
      rw [List.map_map]
      exact List.map_congr_left (fun l hl => by simp [hs l hl])
    rw [this, List.nodup_map_iff (fun a b h => by simpa [Prod.ext_iff] using h)]
  simp only [Market.step, hm, Bool.false_eq_true, if_false, Market.setUigf, hn, ha, Bool.not_true, Bool.or_false]
  exact refused_of rfl ((addUnitSet_valid _ _ _).andThen (fun _ => elasticOpt_valid _ _ _))
    (by simp only [Market.limsOk, Bool.and_eq_true, List.all_eq_true, knows_iff, decide_eq_true_eq, hk])

/-- **C133** Availabilities for FCAS. -/
theorem C133_availabilities (hm : m.nanCon = false) (ls : List Lim) (vc : Option ℚ) :
    (m.step (.fcasMaxAvail ls (vc.map .num))).2 = some .validation ↔
      (fcasMaxSchema (m.units.map (·.unit))).validate (availabilitiesFrame ls) ≠ none := by
  rw [Ne, availabilities_accepts]
  simp only [Market.step, hm, Bool.false_eq_true, if_false, Market.setFcasMaxAvail, ← Bool.not_and]
  refine refused_of rfl ((addUnitSet_valid _ _ _).andThen (fun _ => elasticOpt_valid _ _ _)) ?_
  simp only [Market.limsOk, Bool.and_eq_true, List.all_eq_true, knows_iff, decide_eq_true_eq]
  exact ⟨fun h => ⟨fun l hl => ⟨h.1.1 l hl, h.2 l hl⟩, h.1.2⟩, fun h => ⟨⟨fun l hl => (h.1 l hl).1, h.2⟩, fun l hl => (h.1 l hl).2⟩⟩

/-- **C133** Trapeziums of contingency services. -/
theorem C133_contingency_trapeziums (hm : m.nanCon = false) (ts : List Trap) (vc : Option ℚ) :
    (m.step (.jointCapacity ts (vc.map .num))).2 = some .validation ↔
      (contingencySchema (m.units.map (·.unit))).validate (trapeziumsFrame ts) ≠ none := by
  rw [Ne, contingency_accepts]
  simp only [Market.step, hm, Bool.false_eq_true, if_false, Market.setJointCapacity]
  refine refused_of rfl ?_ ?_
  · split
    · simp [Res.Valid]
    · exact (addUnitSet_valid _ _ _).andThen (fun _ => elasticOpt_valid _ _ _)
  · simp only [Market.trapsOk, Bool.and_eq_true, List.all_eq_true, knows_iff, decide_eq_true_eq]
    refine and_congr_left' (forall₂_congr (fun t _ => ?_))
    tauto

/-- **C133** Trapeziums of regulation services. -/
theorem C133_regulation_trapeziums (hm : m.nanCon = false) (ts : List Trap) (vc : Option ℚ) :
    (m.step (.energyReg ts (vc.map .num))).2 = some .validation ↔
      (regulationSchema (m.units.map (·.unit))).validate (trapeziumsFrame ts) ≠ none := by
  rw [Ne, regulation_accepts]
  simp only [Market.step, hm, Bool.false_eq_true, if_false, Market.setEnergyReg]
  refine refused_of rfl ?_ ?_
  · split
    · simp [Res.Valid]
    · exact (addUnitSet_valid _ _ _).andThen (fun _ => elasticOpt_valid _ _ _)
  · simp only [Market.trapsOk, Bool.and_eq_true, List.all_eq_true, knows_iff, decide_eq_true_eq]
    refine and_congr_left' (forall₂_congr (fun t _ => ?_))
    tauto

/-- **C133** Fast start profiles. -/
theorem C133_fast_start_profiles (hm : m.nanCon = false) (ps : List FsInput) (vc : Option ℚ) :
    (m.step (.fastStart ps (vc.map .num))).2 = some .validation ↔ (fsSchema (m.units.map (·.unit))).validate (fastStartFrame ps) ≠ none := by
  rw [Ne, fastStart_accepts]
  simp only [Market.step, hm, Bool.false_eq_true, if_false, Market.setFastStart]
  refine refused_of rfl ?_ ?_
  · split
    · simp [Res.Valid]
    · exact (addUnitSet_valid _ _ _).andThen (fun _ => elasticOpt_valid _ _ _)
  · simp only [Market.fsInputsOk, Bool.and_eq_true, List.all_eq_true, knows_iff, decide_eq_true_eq, and_assoc]

/-- **C133** Interconnectors. -/
theorem C133_interconnectors (hm : m.nanCon = false) (ds : List InterDef) :
    (m.step (.interconnectors ds)).2 = some .validation ↔ (interSchema m.regions).validate (interconnectorsFrame ds) ≠ none := by
  rw [Ne, interconnectors_accepts]
  simp only [Market.step, hm, Bool.false_eq_true, if_false, Market.setInterconnectors]
  refine refused_of rfl ?_ ?_
  · unfold Res.Valid; split <;> simp
  · simp only [Market.interDefsOk, Bool.and_eq_true, List.all_eq_true, decide_eq_true_eq, and_assoc]

/-- **C133** Losses: the tables of loss functions and of break points. -/
theorem C133_losses (hm : m.nanCon = false) (fs : List LossFn) (bs : List BreakPt) :
    (m.step (.losses fs bs)).2 = some .validation ↔
      lossSchema.validate (lossFunctionsFrame fs) ≠ none ∨ breakPointSchema.validate (breakPointsFrame bs) ≠ none := by
  rw [Ne, Ne, lossFunctions_accepts, breakPoints_accepts, ← not_and_or]
  simp only [Market.step, hm, Bool.false_eq_true, if_false, Market.setLosses]
  refine refused_of rfl ?_ ?_
  · unfold Res.Valid
    split
    · split <;> simp
    · simp
  · simp only [lossInputsOk, Bool.and_eq_true, List.all_eq_true, decide_eq_true_eq, true_and]

/-- **C133** Generic constraints. -/
theorem C133_generic_constraints (hm : m.nanCon = false) (gs : List GenericRow) (vc : Option ℚ) :
    (m.step (.generic gs (vc.map .num))).2 = some .validation ↔ genericSchema.validate (genericFrame gs) ≠ none := by
  rw [Ne, generic_accepts, true_and]
  simp only [Market.step, hm, Bool.false_eq_true, if_false, Market.setGeneric]
  exact refused_of rfl (elasticOpt_valid _ _ _) (by simp)

/-- **C133** Units of generic constraints. -/
theorem C133_unit_coefficients (hm : m.nanCon = false) (gs : List GUnit) :
    (m.step (.linkUnits gs)).2 = some .validation ↔ (unitCoefSchema (m.units.map (·.unit))).validate (unitCoefficientsFrame gs) ≠ none := by
  rw [Ne, unitCoefficients_accepts]
  simp only [Market.step, hm, Bool.false_eq_true, if_false, Market.linkUnits]
  exact refused_of rfl (by simp [Res.Valid]) (by simp only [Bool.and_eq_true, List.all_eq_true, knows_iff, decide_eq_true_eq])

/-- **C133** Regions of generic constraints. -/
theorem C133_region_coefficients (hm : m.nanCon = false) (gs : List GRegion) :
    (m.step (.linkRegions gs)).2 = some .validation ↔ (regionCoefSchema m.regions).validate (regionCoefficientsFrame gs) ≠ none := by
  rw [Ne, regionCoefficients_accepts]
  simp only [Market.step, hm, Bool.false_eq_true, if_false, Market.linkRegions]
  exact refused_of rfl (by simp [Res.Valid]) (by simp only [Bool.and_eq_true, List.all_eq_true, decide_eq_true_eq])

/-- **C133** Interconnectors of generic constraints. -/
theorem C133_interconnector_coefficients (hm : m.nanCon = false) (gs : List GInter) :
    (m.step (.linkInters gs)).2 = some .validation ↔ interCoefSchema.validate (interconnectorCoefficientsFrame gs) ≠ none := by
  rw [Ne, interconnectorCoefficients_accepts, true_and]
  simp only [Market.step, hm, Bool.false_eq_true, if_false, Market.linkInters]
  exact refused_of rfl (by simp [Res.Valid]) (by simp)

/-- **C133** A table of violation costs for a constraint set that exists. -/
theorem C133_violation_costs (hm : m.nanCon = false) {k : CKey} {rows : List Row} (hk : m.rowsOf k = some rows) (t : List (String × ℚ)) :
    (m.step (.elastic k (.table t))).2 = some .validation ↔ costSchema.validate (violationCostsFrame t) ≠ none := by
  rw [Ne, violationCosts_accepts, true_and, List.map_id]
  simp only [Market.step, hm, Bool.false_eq_true, if_false, Market.makeElastic, hk, costRows]
  by_cases h : t.Nodup
  · simp only [h, not_true, if_false]
    cases k.hasSetColumn with
    | false => simp
    | true =>
      simp only [Bool.not_true, Bool.false_eq_true, if_false]
      split
      · simp
      · split <;> simp
  · simp [h]

theorem bandOf_of_mem {b : BidRow} (h : (b.bands.map (·.1)).Nodup) {x : String × ℚ} (hx : x ∈ b.bands) : bandOf x.1 b = x.2 := by
  unfold bandOf
  generalize b.bands = l at *
  induction l with
  | nil => cases hx
  | cons y l ih =>
    rw [List.map_cons, List.nodup_cons] at h
    rw [List.find?_cons]
    rcases List.mem_cons.1 hx with rfl | hx
    · simp
    · have : y.1 ≠ x.1 := fun e => h.1 (e ▸ List.mem_map_of_mem hx)
      simp only [this, decide_false]
      exact ih h.2 hx

theorem bands_nonneg {bands : List String} {bs : List BidRow} (h : SameBands bands bs) {b : BidRow} (hb : b ∈ bs) :
    (∀ x ∈ b.bands, 0 ≤ x.2) ↔ ∀ n ∈ bands, 0 ≤ bandOf n b := by
  have hr := h.rows b hb
  have hn : (b.bands.map (·.1)).Nodup := hr ▸ h.apart
  constructor
  · intro hx n hn'
    rw [← hr] at hn'
    obtain ⟨x, hx', rfl⟩ := List.mem_map.1 hn'
    rw [bandOf_of_mem hn hx']
    exact hx x hx'
  · intro hx x hx'
    rw [← bandOf_of_mem hn hx']
    exact hx _ (hr ▸ List.mem_map_of_mem hx')

theorem bidKeys_nodup {bs : List BidRow} {dispatch : Bool} (hd : dispatch = true ∨ ∀ b ∈ bs, b.dtype = .generator) :
    (bs.map (fun b => (b.unit, b.service, if dispatch then b.dtype else .generator))) = bs.map (fun b => (b.unit, b.service, b.dtype)) :=
  List.map_congr_left (fun b hb => by
    rcases hd with rfl | h
    · rfl
    · rw [h b hb]; simp)

/-- **C133** Volume bids. -/
theorem C133_volume_bids (hm : m.nanCon = false) {bands : List String} {bs : List BidRow} (h : SameBands bands bs) (dispatch : Bool)
    (hd : dispatch = true ∨ ∀ b ∈ bs, b.dtype = .generator) :
    (m.step (.volumeBids bs)).2 = some .validation ↔
      (volumeBidsSchema (m.units.map (·.unit)) dispatch).validate (bidsFrame dispatch bands bs) ≠ none := by
  rw [Ne, volumeBids_accepts _ _ _ h.apart h.named h.first, bidKeys_nodup hd]
  simp only [Market.step, hm, Bool.false_eq_true, if_false, Market.setVolumeBids]
  refine refused_of rfl ?_ ?_
  · unfold Res.Valid
    split
    · simp
    · split <;> simp
  · simp only [Market.volumeBidsOk, Bool.and_eq_true, List.all_eq_true, knows_iff, decide_eq_true_eq]
    exact and_congr_left' (forall₂_congr (fun b hb => and_congr_right' (bands_nonneg h hb)))

/-- **C133** Price bids, once volumes are set. -/
theorem C133_price_bids (hm : m.nanCon = false) (hv : m.bids.isSome) {bands : List String} {bs : List BidRow} (h : SameBands bands bs)
    (dispatch : Bool) (hd : dispatch = true ∨ ∀ b ∈ bs, b.dtype = .generator) :
    (m.step (.priceBids bs)).2 = some .validation ↔
      (priceBidsSchema (m.units.map (·.unit)) dispatch).validate (bidsFrame dispatch bands bs) ≠ none := by
  rw [Ne, priceBids_accepts _ _ _ h.apart h.named h.first, bidKeys_nodup hd]
  obtain ⟨vars, hvars⟩ := Option.isSome_iff_exists.1 hv
  simp only [Market.step, hm, Bool.false_eq_true, if_false, Market.setPriceBids, hvars]
  refine refused_of rfl ?_ ?_
  · unfold Res.Valid
    split <;> simp
  · simp only [Market.priceBidsOk, Bool.and_eq_true, List.all_eq_true, knows_iff, decide_eq_true_eq]

theorem fsProfilesOk_iff {rt : RunType} {ps : Option (List FsRamp)} (h : PlainProfiles rt ps) :
    m.fsProfilesOk rt ps = true ↔ ¬ profilesRefused (m.units.map (·.unit)) rt ps := by
  cases ps with
  | none => cases rt <;> simp [Market.fsProfilesOk, profilesRefused]
  | some ps =>
    cases rt with
    | noFastStart => simp [Market.fsProfilesOk, profilesRefused]
    | other => exact absurd rfl h.1
    | first =>
      have h2 := h.2 rfl ps rfl
      simp only [Market.fsProfilesOk, profilesRefused, Ne, not_not, currentModes_accepts, Market.fsRampOk, Bool.and_eq_true, List.all_eq_true,
        knows_iff, decide_eq_true_eq]
      refine and_congr_left' (forall₂_congr (fun p hp => ?_))
      simp [(h2 p hp).1, (h2 p hp).2]
    | second =>
      simp only [Market.fsProfilesOk, profilesRefused, Ne, not_not, endModes_accepts, Market.fsRampOk, Bool.and_eq_true, List.all_eq_true,
        knows_iff, decide_eq_true_eq, and_assoc]

/-- **C133** Ramp rates with the optional tables of SCADA ramp rates and fast start profiles; each bidirectional unit has both rows. -/
theorem C133_ramp_rates (hm : m.nanCon = false) (dispatch : Bool) (rs : List RampRow) (hd : dispatch = true ∨ ∀ r ∈ rs, r.dtype = .generator)
    (hbi : biInputsOk m.bidi (rs.map (·.unit)) = true) (sc : Option (List Scada)) (ps : Option (List FsRamp)) {rt : RunType} (hp : PlainProfiles rt ps)
    (vc : Option ℚ) :
    (m.step (.rampRates rs sc ps rt (vc.map .num))).2 = some .validation ↔
      (rampSchema (m.units.map (·.unit)) dispatch).validate (rampRatesFrame dispatch rs) ≠ none ∨
      profilesRefused (m.units.map (·.unit)) rt ps ∨ ∃ l ∈ sc, (scadaSchema (m.units.map (·.unit))).validate (scadaFrame l) ≠ none := by
  have hk : rs.map (fun l => (l.unit, if dispatch then l.dtype else .generator)) = rs.map (fun l => (l.unit, l.dtype)) :=
    List.map_congr_left (fun r hr => by
      rcases hd with rfl | h
      · rfl
      · rw [h r hr]; simp)
  have hs : m.scadaOptOk sc = true ↔ ¬ ∃ l ∈ sc, (scadaSchema (m.units.map (·.unit))).validate (scadaFrame l) ≠ none := by
    cases sc with
    | none => simp [Market.scadaOptOk]
    | some l => simp [Market.scadaOptOk, scada_accepts, Market.scadaOk, knows_iff]
  have hr : m.rampsOk rs = true ↔ (rampSchema (m.units.map (·.unit)) dispatch).validate (rampRatesFrame dispatch rs) = none := by
    rw [rampRates_accepts, hk]
    simp only [Market.rampsOk, Bool.and_eq_true, List.all_eq_true, knows_iff, decide_eq_true_eq]
  have hf := fsProfilesOk_iff (m := m) hp
  simp only [Market.step, hm, Bool.false_eq_true, if_false, Market.setRampRates, hbi, Bool.not_true]
  rw [refused_or rfl hr, refused_or rfl hf, not_not, refused_of rfl ?_ hs, not_not]
  split
  · rename_i e he
    simpa [Res.Valid] using adjustForFastStart_valid he
  · exact (addUnitSet_valid _ _ _).andThen (fun _ => (addUnitSet_valid _ _ _).andThen (fun _ =>
      (addBiRamps_valid _ _).andThen (fun _ => elasticRamps_valid _ _)))

/-- **C133** Rates for joint ramping with the optional table of fast start profiles. -/
theorem C133_joint_ramping (hm : m.nanCon = false) (rs : List RampRow) (ps : Option (List FsRamp)) {rt : RunType} (hp : PlainProfiles rt ps)
    (vc : Option ℚ) :
    (m.step (.jointRamping rs ps rt (vc.map .num))).2 = some .validation ↔
      (scadaRegSchema (m.units.map (·.unit))).validate (jointRampingFrame rs) ≠ none ∨ profilesRefused (m.units.map (·.unit)) rt ps := by
  have hf := fsProfilesOk_iff (m := m) hp
  have hr : (rs.all (fun r => m.knows r.unit) && decide ((rs.map (·.unit)).Nodup)) = true ↔
      (scadaRegSchema (m.units.map (·.unit))).validate (jointRampingFrame rs) = none := by
    rw [jointRamping_accepts]
    simp only [Bool.and_eq_true, List.all_eq_true, knows_iff, decide_eq_true_eq]
  simp only [Market.step, hm, Bool.false_eq_true, if_false, Market.setJointRamping]
  rw [refused_or rfl hr, refused_of rfl ?_ hf, not_not]
  split
  · simp [Res.Valid]
  · split
    · rename_i e he
      simpa [Res.Valid] using adjustForFastStart_valid he
    · exact (addUnitSetIf_valid _ _ _ _).andThen (fun _ => (addUnitSetIf_valid _ _ _ _).andThen (fun _ =>
        (addUnitSetIf_valid _ _ _ _).andThen (fun _ => (addUnitSetIf_valid _ _ _ _).andThen (fun _ => elasticJr_valid _ _))))

/-- two generators that bid -/
def framesMarket : Market := (({ regions := ["X"], units := [{ unit := "A", region := "X" }, { unit := "B", region := "X" }], di := 5 } : Market).step
  (.volumeBids [{ unit := "A", bands := [("1", 20), ("2", 10)] }, { unit := "B", bands := [("1", 30), ("2", 0)] }])).1

/-- instances: tables that pass and tables that do not -/
example : framesMarket.nanCon = false ∧ framesMarket.bids.isSome ∧
    (demandSchema ["X"]).validate (demandFrame [⟨"X", 40⟩]) = none ∧ (demandSchema ["X"]).validate (demandFrame [⟨"X", 40⟩, ⟨"X", 30⟩]) ≠ none ∧
    (framesMarket.step (.demand [⟨"X", 40⟩] none)).2 = none ∧
    (framesMarket.step (.demand [⟨"X", 40⟩, ⟨"X", 30⟩] none)).2 = some .validation ∧
    SameBands ["1", "2"] [{ unit := "A", bands := [("1", 50), ("2", 60)] }, { unit := "B", bands := [("1", -5), ("2", 10)] }] ∧
    (framesMarket.step (.priceBids [{ unit := "A", bands := [("1", 50), ("2", 60)] }, { unit := "B", bands := [("1", -5), ("2", 10)] }])).2 = none ∧
    (framesMarket.step (.volumeBids [{ unit := "A", bands := [("1", 50), ("2", 60)] }, { unit := "B", bands := [("1", -5), ("2", 10)] }])).2 =
      some .validation ∧
    PlainProfiles .second (some [{ unit := "A", endMode := 3, minLoading := 10, since := some (-1) }]) ∧
    profilesRefused ["A", "B"] .second (some [{ unit := "A", endMode := 3, minLoading := 10, since := some (-1) }]) ∧
    biInputsOk framesMarket.bidi ["A", "B"] = true := by
  refine ⟨by decide +kernel, by decide +kernel, by decide +kernel, by decide +kernel, by decide +kernel, by decide +kernel,
    ⟨by decide, by decide, by decide, by decide⟩, by decide +kernel, by decide +kernel, ⟨by decide, by decide⟩, ?_, by decide +kernel⟩
  show (fsRampSchema ["A", "B"] .second).validate _ ≠ none
  decide +kernel

end Verif
