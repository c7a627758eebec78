import Verif.Spec.Currency
import Verif.Proofs.Steps
import Verif.Proofs.Alike

/-! Multiplying all amounts of money by a number commutes with every call. -/

namespace Verif

def DefVar.sc (c : ℚ) (v : DefVar) : DefVar := { v with cost := c * v.cost }
def BidCost.sc (c : ℚ) (v : BidCost) : BidCost := { v with cost := c * v.cost }
def TieBid.sc (c : ℚ) (v : TieBid) : TieBid := { v with cost := c * v.cost }
def defSc (c : ℚ) (d : List DefVar × List Term) : List DefVar × List Term := (d.1.map (DefVar.sc c), d.2)

/-- the market in another currency -/
def Market.sc (c : ℚ) (m : Market) : Market :=
  { m with bidCost := m.bidCost.map (List.map (BidCost.sc c)), deficits := m.deficits.map (fun d => (d.1, defSc c d.2)) }

def Res.sc (c : ℚ) (r : Res) : Res := (r.1.sc c, r.2)

section
variable {κ α β : Type} [DecidableEq κ]

theorem Dict.get?_mapv (h : α → β) (d : Dict κ α) (k : κ) :
    Dict.get? (d.map (fun e => (e.1, h e.2))) k = (Dict.get? d k).map h := by
  induction d with
  | nil => rfl
  | cons e d ih =>
    obtain ⟨k', v⟩ := e
    simp only [List.map_cons, Dict.get?, ih]
    split <;> rfl

theorem Dict.set_mapv (h : α → β) (d : Dict κ α) (k : κ) (v : α) :
    Dict.set (d.map (fun e => (e.1, h e.2))) k (h v) = (Dict.set d k v).map (fun e => (e.1, h e.2)) := by
  induction d with
  | nil => rfl
  | cons e d ih =>
    obtain ⟨k', w⟩ := e
    simp only [List.map_cons, Dict.set]
    split
    · rfl
    · rw [ih]; rfl

theorem Dict.erase_mapv (h : α → β) (d : Dict κ α) (k : κ) :
    Dict.erase (d.map (fun e => (e.1, h e.2))) k = (Dict.erase d k).map (fun e => (e.1, h e.2)) := by
  induction d with
  | nil => rfl
  | cons e d ih =>
    obtain ⟨k', w⟩ := e
    simp only [List.map_cons, Dict.erase]
    split
    · exact ih
    · rw [ih]; rfl

theorem Dict.has_mapv (h : α → β) (d : Dict κ α) (k : κ) :
    Dict.has (d.map (fun e => (e.1, h e.2))) k = Dict.has d k := by
  simp only [Dict.has, Dict.get?_mapv, Option.isSome_map]
end

theorem andThen_sc {c : ℚ} {r : Res} {f F : Market → Res} (h : ∀ m, F (m.sc c) = Res.sc c (f m)) :
    Res.andThen (Res.sc c r) F = Res.sc c (Res.andThen r f) := by
  obtain ⟨m, e⟩ := r
  cases e with
  | none => exact h m
  | some e => rfl

theorem andThen_sc' {c : ℚ} {r R : Res} {f F : Market → Res} (hr : R = Res.sc c r) (h : ∀ m, F (m.sc c) = Res.sc c (f m)) :
    Res.andThen R F = Res.sc c (Res.andThen r f) := by rw [hr]; exact andThen_sc h

theorem costRows_sc {c : ℚ} (hc : c ≠ 0) (k : CKey) (rows : List Row) (v : VCost) :
    costRows k rows (v.inCurrency c) = (costRows k rows v).map (List.map (fun r => (r.1, c * r.2))) := by
  cases v with
  | num q => simp [costRows, VCost.inCurrency, Except.map]
  | table t =>
    have hi : Function.Injective (fun e : String × ℚ => (e.1, c * e.2)) := by
      rintro ⟨a, x⟩ ⟨b, y⟩ e
      simp only [Prod.mk.injEq] at e
      rw [e.1, mul_left_cancel₀ hc e.2]
    simp only [costRows, VCost.inCurrency, List.nodup_map_iff hi]
    split
    · rfl
    split
    · rfl
    · simp only [Except.map, Except.ok.injEq, List.map_flatMap, List.map_map, List.filter_map]
      rfl

theorem deficit_sc (c : ℚ) (rs : List (Row × ℚ)) (n : Nat) :
    deficitVariables (rs.map (fun r => (r.1, c * r.2))) n = defSc c (deficitVariables rs n) := by
  have h1 : (rs.map (fun r : Row × ℚ => (r.1, c * r.2))).filter isIneq = (rs.filter isIneq).map (fun r => (r.1, c * r.2)) := by
    rw [List.filter_map]; rfl
  have h2 : (rs.map (fun r : Row × ℚ => (r.1, c * r.2))).filter isEqual = (rs.filter isEqual).map (fun r => (r.1, c * r.2)) := by
    rw [List.filter_map]; rfl
  unfold deficitVariables defSc
  simp only [h1, h2, saveIndex_map, List.map_append, map_saveIndex, List.length_map]
  rfl

theorem defSc_vids (c : ℚ) (d : List DefVar × List Term) : (defSc c d).1.map DefVar.vid = d.1.map DefVar.vid := by
  simp only [defSc, List.map_map]; rfl

theorem makeElastic_sc {c : ℚ} (hc : c ≠ 0) (m : Market) (k : CKey) (v : VCost) :
    (m.sc c).makeElastic k (v.inCurrency c) = Res.sc c (m.makeElastic k v) := by
  unfold Market.makeElastic
  have h0 : (m.sc c).rowsOf k = m.rowsOf k := rfl
  rw [h0]
  cases m.rowsOf k with
  | none => rfl
  | some rows =>
    dsimp only
    rw [costRows_sc hc]
    cases costRows k rows v with
    | error e => rfl
    | ok rs =>
      simp only [Except.map, List.isEmpty_map]
      have hn : (m.sc c).nextVar = m.nextVar := rfl
      rw [hn, deficit_sc]
      by_cases h1 : rs.isEmpty = true
      · rw [if_pos h1, if_pos h1]; rfl
      · rw [if_neg h1, if_neg h1]
        have h2 : (defSc c (deficitVariables rs m.nextVar)).1.isEmpty = (deficitVariables rs m.nextVar).1.isEmpty := by
          simp only [defSc, List.isEmpty_map]
        have h3 : Dict.set (m.sc c).deficits k (defSc c (deficitVariables rs m.nextVar)) =
            (m.deficits.set k (deficitVariables rs m.nextVar)).map (fun d => (d.1, defSc c d.2)) :=
          Dict.set_mapv (defSc c) m.deficits k _
        rw [h2, h3, defSc_vids]
        split <;> rfl

theorem makeElastic_sc' {c : ℚ} (hc : c ≠ 0) {M m : Market} (h : M = m.sc c) (k : CKey) (v : VCost) :
    M.makeElastic k (v.inCurrency c) = Res.sc c (m.makeElastic k v) := by
  rw [h]; exact makeElastic_sc hc m k v

theorem elasticOpt_sc {c : ℚ} (hc : c ≠ 0) (m : Market) (k : CKey) (v : Option VCost) :
    (m.sc c).elasticOpt k (v.map (VCost.inCurrency c)) = Res.sc c (m.elasticOpt k v) := by
  cases v with
  | none => rfl
  | some v => exact makeElastic_sc hc m k v

theorem elasticOpt_sc' {c : ℚ} (hc : c ≠ 0) {M m : Market} (h : M = m.sc c) (k : CKey) (v : Option VCost) :
    M.elasticOpt k (v.map (VCost.inCurrency c)) = Res.sc c (m.elasticOpt k v) := by
  rw [h]; exact elasticOpt_sc hc m k v

theorem addUnitSet_sc (c : ℚ) (m : Market) (k : CKey) (t : List Row × List ConUnit) :
    (m.sc c).addUnitSet k t = Res.sc c (m.addUnitSet k t) := by
  unfold Market.addUnitSet
  dsimp only
  split <;> rfl

theorem addRegSet_sc (c : ℚ) (m : Market) (k : CKey) (t : List Row × List ConReg) :
    (m.sc c).addRegSet k t = Res.sc c (m.addRegSet k t) := by
  unfold Market.addRegSet
  dsimp only
  split <;> rfl

theorem addUnitSetIf_sc (c : ℚ) (m : Market) (k : CKey) (b : Bool) (t : List Row × List ConUnit) :
    (m.sc c).addUnitSetIf k b t = Res.sc c (m.addUnitSetIf k b t) := by
  unfold Market.addUnitSetIf
  split
  · exact addUnitSet_sc c m k t
  · rfl

theorem elasticIfPresent_sc {c : ℚ} (hc : c ≠ 0) (m : Market) (k : CKey) (v : VCost) :
    (m.sc c).elasticIfPresent k (v.inCurrency c) = Res.sc c (m.elasticIfPresent k v) := by
  unfold Market.elasticIfPresent
  have : (m.sc c).unitCon = m.unitCon := rfl
  rw [this]
  split
  · exact makeElastic_sc hc m k v
  · rfl

theorem elasticRamps_sc {c : ℚ} (hc : c ≠ 0) (m : Market) (v : Option VCost) :
    (m.sc c).elasticRamps (v.map (VCost.inCurrency c)) = Res.sc c (m.elasticRamps v) := by
  cases v with
  | none => rfl
  | some v =>
    unfold Market.elasticRamps
    dsimp only [Option.map_some]
    refine andThen_sc' (makeElastic_sc hc m _ v) ?_
    intro m
    refine andThen_sc' (makeElastic_sc hc m _ v) ?_
    intro m
    refine andThen_sc' (elasticIfPresent_sc hc m _ v) ?_
    intro m
    exact elasticIfPresent_sc hc m _ v

theorem elasticJr_sc {c : ℚ} (hc : c ≠ 0) (m : Market) (v : Option VCost) :
    (m.sc c).elasticJr (v.map (VCost.inCurrency c)) = Res.sc c (m.elasticJr v) := by
  cases v with
  | none => rfl
  | some v =>
    unfold Market.elasticJr
    dsimp only [Option.map_some]
    refine andThen_sc' (makeElastic_sc hc m _ v) ?_
    intro m
    refine andThen_sc' (makeElastic_sc hc m _ v) ?_
    intro m
    refine andThen_sc' (elasticIfPresent_sc hc m _ v) ?_
    intro m
    exact elasticIfPresent_sc hc m _ v

theorem addBiRamps_sc (c : ℚ) (m : Market) (bi : List BiRamp) :
    (m.sc c).addBiRamps bi = Res.sc c (m.addBiRamps bi) := by
  unfold Market.addBiRamps
  split
  · rfl
  · exact andThen_sc' (addUnitSet_sc c m _ _) fun m => addUnitSet_sc c m _ _

theorem ite_sc {c : ℚ} {p : Prop} [Decidable p] {a b A B : Res} (ha : A = Res.sc c a) (hb : B = Res.sc c b) :
    (if p then A else B) = Res.sc c (if p then a else b) := by split <;> assumption

theorem setRampRates_sc {c : ℚ} (hc : c ≠ 0) (m : Market) (rs : List RampRow) (sc : Option (List Scada))
    (ps : Option (List FsRamp)) (rt : RunType) (v : Option VCost) :
    (m.sc c).setRampRates rs sc ps rt (v.map (VCost.inCurrency c)) = Res.sc c (m.setRampRates rs sc ps rt v) := by
  unfold Market.setRampRates
  refine ite_sc rfl (ite_sc rfl (ite_sc rfl (ite_sc rfl ?_)))
  have h1 : (m.sc c).di = m.di := rfl
  have h2 : (m.sc c).bidi = m.bidi := rfl
  dsimp only
  rw [h1, h2]
  cases adjustForFastStart (scadaOpt adjustForScada (compositeRampRates rs m.di m.bidi).1 sc) rt ps m.di with
  | error e => rfl
  | ok ord =>
    exact andThen_sc' (addUnitSet_sc c m _ _) fun m => andThen_sc' (addUnitSet_sc c m _ _) fun m =>
      andThen_sc' (addBiRamps_sc c m _) fun m => elasticRamps_sc hc m v

theorem setJointRamping_sc {c : ℚ} (hc : c ≠ 0) (m : Market) (rs : List RampRow) (ps : Option (List FsRamp)) (rt : RunType)
    (v : Option VCost) :
    (m.sc c).setJointRamping rs ps rt (v.map (VCost.inCurrency c)) = Res.sc c (m.setJointRamping rs ps rt v) := by
  unfold Market.setJointRamping
  refine ite_sc rfl (ite_sc rfl ?_)
  have h1 : (m.sc c).di = m.di := rfl
  have h2 : (m.sc c).bidi = m.bidi := rfl
  have h3 : (m.sc c).bids = m.bids := rfl
  rw [h1, h2, h3]
  cases m.bids with
  | none => rfl
  | some vars =>
    dsimp only
    cases adjustForFastStart rs rt ps m.di with
    | error e => rfl
    | ok ord =>
      exact andThen_sc' (addUnitSetIf_sc c m _ _ _) fun m => andThen_sc' (addUnitSetIf_sc c m _ _ _) fun m =>
        andThen_sc' (addUnitSetIf_sc c m _ _ _) fun m => andThen_sc' (addUnitSetIf_sc c m _ _ _) fun m => elasticJr_sc hc m v

theorem bidCosts_sc (c : ℚ) (vars : List BidVar) (ps : List BidRow) :
    bidCosts vars (ps.map (BidRow.inCurrency c)) = (bidCosts vars ps).map (BidCost.sc c) := by
  simp only [bidCosts, List.filter_map, List.flatMap_map, List.map_flatMap, List.map_map]
  congr 1
  funext v
  congr 1
  funext p
  simp only [BidRow.inCurrency, List.filter_map, List.map_map]
  congr 1
  funext b
  simp only [Function.comp, BidCost.sc]
  congr 1
  split <;> ring

theorem scale_sc (c : ℚ) (l : List BidCost) (us : List UnitInfo) :
    scaleByLossFactors (l.map (BidCost.sc c)) us = (scaleByLossFactors l us).map (BidCost.sc c) := by
  simp only [scaleByLossFactors, List.flatMap_map, List.map_flatMap, List.map_map]
  congr 1
  funext b
  congr 1
  funext u
  simp only [Function.comp, BidCost.sc]
  congr 1
  show (if b.service = .energy then c * b.cost / u.lf else c * b.cost) = c * (if b.service = .energy then b.cost / u.lf else b.cost)
  by_cases h : b.service = .energy
  · rw [if_pos h, if_pos h, mul_div_assoc]
  · rw [if_neg h, if_neg h]

theorem setPriceBids_sc (c : ℚ) (m : Market) (ps : List BidRow) :
    (m.sc c).setPriceBids (ps.map (BidRow.inCurrency c)) = Res.sc c (m.setPriceBids ps) := by
  unfold Market.setPriceBids
  have h3 : (m.sc c).bids = m.bids := rfl
  rw [h3]
  cases m.bids with
  | none => rfl
  | some vars =>
    dsimp only
    have h1 : (m.sc c).priceBidsOk (ps.map (BidRow.inCurrency c)) = m.priceBidsOk ps := by
      simp only [Market.priceBidsOk, List.all_map, List.map_map]
      rfl
    have h2 : energyUnits (ps.map (BidRow.inCurrency c)) = energyUnits ps := by
      simp only [energyUnits, List.filter_map, List.map_map]
      rfl
    have h4 : (m.sc c).bidi = m.bidi := rfl
    have h5 : (m.sc c).units = m.units := rfl
    rw [h1, h2, h4, h5, bidCosts_sc, scale_sc]
    exact ite_sc rfl (ite_sc rfl rfl)

theorem tieBids_sc (c : ℚ) (l : List BidCost) (vars : List BidVar) (us : List UnitInfo) :
    tieBids (l.map (BidCost.sc c)) vars us = (tieBids l vars us).map (TieBid.sc c) := by
  simp only [tieBids, List.filter_map, List.flatMap_map, List.map_flatMap, List.flatMap_assoc, List.map_map]
  rfl

theorem tiePairs_sc {c : ℚ} (hc : c ≠ 0) (l : List TieBid) :
    tiePairs (l.map (TieBid.sc c)) = (tiePairs l).map (fun p => (p.1.sc c, p.2.sc c)) := by
  have hd : ∀ l : List (TieBid × TieBid), dropDup (fun p => tieName p.1 p.2) (l.map (fun p => (p.1.sc c, p.2.sc c))) =
      (dropDup (fun p => tieName p.1 p.2) l).map (fun p => (p.1.sc c, p.2.sc c)) := by
    intro l
    induction l with
    | nil => rfl
    | cons a l ih =>
      simp only [List.map_cons, dropDup, ih, List.filter_map]
      rfl
  rw [tiePairs, tiePairs, ← hd]
  congr 1
  simp only [List.flatMap_map, List.map_flatMap, List.filter_map, List.map_map]
  congr 1
  funext a
  congr 1
  congr 1
  funext b
  simp only [Function.comp, TieBid.sc, mul_right_inj' hc]

theorem tieConstraints_sc (c : ℚ) (ps : List (TieBid × TieBid)) (n : Nat) :
    tieConstraints (ps.map (fun p => (p.1.sc c, p.2.sc c))) n = tieConstraints ps n := by
  simp only [tieConstraints, saveIndex_map]
  rfl

theorem setTieBreak_sc {c : ℚ} (hc : c ≠ 0) (m : Market) (v : ℚ) :
    (m.sc c).setTieBreak (c * v) = Res.sc c (m.setTieBreak v) := by
  unfold Market.setTieBreak
  have h3 : (m.sc c).bids = m.bids := rfl
  have h4 : (m.sc c).bidCost = m.bidCost.map (List.map (BidCost.sc c)) := rfl
  rw [h3, h4]
  cases hb : m.bidCost with
  | none => rfl
  | some costs =>
    cases hv : m.bids with
    | none => rfl
    | some vars =>
      dsimp only [Option.map_some]
      have h5 : (m.sc c).units = m.units := rfl
      have h6 : (m.sc c).nextCon = m.nextCon := rfl
      rw [h5, h6, tieBids_sc, tiePairs_sc hc, tieConstraints_sc, List.isEmpty_map]
      refine ite_sc rfl (makeElastic_sc' hc ?_ .tieBreak (.num v))
      simp only [Market.sc, hb, hv, Option.map_some]

theorem removeFastStart_sc (c : ℚ) (m : Market) : (m.sc c).removeFastStart = Res.sc c m.removeFastStart := by
  unfold Market.removeFastStart
  have h1 : (m.sc c).conRhs = m.conRhs := rfl
  have h2 : (m.sc c).deficits.has .fastStart = m.deficits.has .fastStart := Dict.has_mapv (defSc c) _ _
  have h3 : (m.sc c).deficits.erase .fastStart = (m.deficits.erase .fastStart).map (fun d => (d.1, defSc c d.2)) :=
    Dict.erase_mapv (defSc c) _ _
  rw [h1]
  by_cases a : m.conRhs.has .fastStart = true
  · simp only [if_pos a]
    rw [h2, h3]
    by_cases b : m.deficits.has .fastStart = true
    · simp only [if_pos b]; rfl
    · simp only [if_neg b]; rfl
  · simp only [if_neg a]
    rw [h2, h3]
    by_cases b : m.deficits.has .fastStart = true
    · simp only [if_pos b]; rfl
    · simp only [if_neg b]; rfl

theorem setGeneric_sc {c : ℚ} (hc : c ≠ 0) (m : Market) (gs : List GenericRow) (v : Option VCost) :
    (m.sc c).setGeneric gs (v.map (VCost.inCurrency c)) = Res.sc c (m.setGeneric gs v) := by
  unfold Market.setGeneric
  refine ite_sc rfl ?_
  have h6 : (m.sc c).nextCon = m.nextCon := rfl
  dsimp only
  rw [h6]
  split
  · refine elasticOpt_sc' hc ?_ .generic v; rfl
  · refine elasticOpt_sc' hc ?_ .generic v; rfl

theorem setFastStart_sc {c : ℚ} (hc : c ≠ 0) (m : Market) (ps : List FsInput) (v : Option VCost) :
    (m.sc c).setFastStart ps (v.map (VCost.inCurrency c)) = Res.sc c (m.setFastStart ps v) := by
  unfold Market.setFastStart
  refine ite_sc rfl ?_
  exact ite_sc rfl (andThen_sc' (addUnitSet_sc c m _ _) fun m => elasticOpt_sc hc m _ v)

theorem setLosses_sc (c : ℚ) (m : Market) (fs : List LossFn) (bs : List BreakPt) :
    (m.sc c).setLosses fs bs = Res.sc c (m.setLosses fs bs) := by
  unfold Market.setLosses
  refine ite_sc rfl ?_
  have h1 : (m.sc c).dirs = m.dirs := rfl
  have h2 : (m.sc c).inters = m.inters := rfl
  have h3 : (m.sc c).interReg = m.interReg := rfl
  have h4 : (m.sc c).nextVar = m.nextVar := rfl
  have h5 : (m.sc c).nextCon = m.nextCon := rfl
  dsimp only
  rw [h1, h2, h3, h4, h5]
  cases m.dirs with
  | none => rfl
  | some ds =>
    cases m.inters with
    | none => rfl
    | some vs =>
      cases m.interReg with
      | none => rfl
      | some im =>
        dsimp only
        exact ite_sc rfl rfl

theorem step_sc {c : ℚ} (hc : c ≠ 0) (m : Market) (op : Op) :
    (m.sc c).step (op.inCurrency c) = Res.sc c (m.step op) := by
  have hn : (m.sc c).nanCon = m.nanCon := rfl
  unfold Market.step
  rw [hn]
  refine ite_sc rfl ?_
  cases op with
  | volumeBids b => exact ite_sc rfl (ite_sc rfl (ite_sc rfl rfl))
  | priceBids b => exact setPriceBids_sc c m b
  | capacity l v => exact ite_sc rfl (ite_sc rfl (andThen_sc' (addUnitSet_sc c m _ _) fun m => elasticOpt_sc hc m _ v))
  | uigf l v => exact ite_sc rfl (ite_sc rfl (andThen_sc' (addUnitSet_sc c m _ _) fun m => elasticOpt_sc hc m _ v))
  | rampRates r sc ps rt v => exact setRampRates_sc hc m r sc ps rt v
  | fastStart p v => exact setFastStart_sc hc m p v
  | removeFastStart => exact removeFastStart_sc c m
  | demand d v => exact ite_sc rfl (andThen_sc' (addRegSet_sc c m _ _) fun m => elasticOpt_sc hc m _ v)
  | fcasReq r v => exact ite_sc rfl (andThen_sc' (addRegSet_sc c m _ _) fun m => elasticOpt_sc hc m _ v)
  | fcasMaxAvail l v => exact ite_sc rfl (andThen_sc' (addUnitSet_sc c m _ _) fun m => elasticOpt_sc hc m _ v)
  | jointRamping r ps rt v => exact setJointRamping_sc hc m r ps rt v
  | jointCapacity t v => exact ite_sc rfl (ite_sc rfl (andThen_sc' (addUnitSet_sc c m _ _) fun m => elasticOpt_sc hc m _ v))
  | energyReg t v => exact ite_sc rfl (ite_sc rfl (andThen_sc' (addUnitSet_sc c m _ _) fun m => elasticOpt_sc hc m _ v))
  | interconnectors d => exact ite_sc rfl (ite_sc rfl rfl)
  | losses f b => exact setLosses_sc c m f b
  | generic g v => exact setGeneric_sc hc m g v
  | linkUnits g => exact ite_sc rfl rfl
  | linkRegions g => exact ite_sc rfl rfl
  | linkInters g => exact ite_sc rfl rfl
  | elastic k v => exact makeElastic_sc hc m k v
  | tieBreak v => exact setTieBreak_sc hc m v

theorem run_sc {c : ℚ} (hc : c ≠ 0) (m : Market) (ops : List Op) :
    (m.sc c).run (ops.map (Op.inCurrency c)) = (m.run ops).sc c := by
  induction ops generalizing m with
  | nil => rfl
  | cons o ops ih =>
    show Market.run ((m.sc c).step (o.inCurrency c)).1 (ops.map (Op.inCurrency c)) = _
    rw [step_sc hc]
    exact ih _

theorem init_sc {regions : List String} {units : List UnitInfo} {di : ℚ} {m0 : Market}
    (h0 : Market.init regions units di = .ok m0) (c : ℚ) : m0.sc c = m0 := by
  unfold Market.init at h0
  split at h0
  · simp only [Except.ok.injEq] at h0
    subst h0; rfl
  · cases h0

/-! ### The program -/

def Lp.sc (c : ℚ) (lp : Lp) : Lp := { lp with obj := lp.obj.map (fun o => (o.1, c * o.2)) }

theorem allVars_sc (c : ℚ) (m : Market) : (m.sc c).allVars = m.allVars := by
  unfold Market.allVars
  congr 1
  simp only [Market.sc, List.flatMap_map, defSc, List.map_map]
  rfl

theorem fixedTerms_sc (c : ℚ) (m : Market) : (m.sc c).fixedTerms = m.fixedTerms := by
  unfold Market.fixedTerms
  congr 1
  simp only [Market.sc, List.flatMap_map, defSc]

theorem objective_sc (c : ℚ) (m : Market) : (m.sc c).objective = m.objective.map (fun o => (o.1, c * o.2)) := by
  unfold Market.objective
  rw [List.map_append]
  congr 1
  · simp only [Market.sc]
    cases m.bidCost with
    | none => rfl
    | some l => simp only [Option.map_some, Option.getD_some, List.map_map]; rfl
  · simp only [Market.sc, List.flatMap_map, defSc, List.map_map, List.map_flatMap]
    rfl

theorem terms_sc (c : ℚ) (m : Market) : (m.sc c).terms = m.terms := by
  unfold Market.terms
  rw [fixedTerms_sc]
  rfl

theorem lpRows_sc (c : ℚ) (m : Market) : (m.sc c).lpRows = m.lpRows := by
  unfold Market.lpRows
  rw [terms_sc, allVars_sc]
  rfl

theorem noVars_sc (c : ℚ) (m : Market) : (m.sc c).noVars = m.noVars := by
  unfold Market.noVars
  simp only [Market.sc, List.isEmpty_map]

theorem assemble_sc (c : ℚ) (m : Market) : (m.sc c).assemble = m.assemble.map (Lp.sc c) := by
  have e : (m.objective.map (fun o => (o.1, c * o.2))).all (fun o => decide (o.1 ∈ m.allVars.map LVar.vid)) =
      m.objective.all (fun o => decide (o.1 ∈ m.allVars.map LVar.vid)) := by
    rw [List.all_map]; rfl
  unfold Market.assemble
  rw [lpRows_sc, noVars_sc, allVars_sc, objective_sc, e]
  have h1 : (m.sc c).regCon = m.regCon := rfl
  have h2 : (m.sc c).bidReg = m.bidReg := rfl
  have h3 : (m.sc c).interReg = m.interReg := rfl
  have h4 : (m.sc c).lossReg = m.lossReg := rfl
  have h5 : (m.sc c).unitCon = m.unitCon := rfl
  have h6 : (m.sc c).bidUnit = m.bidUnit := rfl
  have h7 : (m.sc c).dynRhs = m.dynRhs := rfl
  rw [h1, h2, h3, h4, h5, h6, h7]
  split
  · rfl
  split
  · rfl
  split
  · rfl
  split
  · rfl
  split
  · rfl
  cases m.lpRows <;> rfl

theorem cost_sc (c : ℚ) (lp : Lp) (x : Nat → ℚ) : (lp.sc c).cost x = c * lp.cost x := by
  simp only [Lp.cost, Lp.sc, linVal, List.map_map]
  rw [← sum_map_mul_left]
  congr 1
  apply List.map_congr_left
  intro o _
  simp only [Function.comp]
  ring

theorem feasible_sc (c : ℚ) (lp : Lp) (x : Nat → ℚ) : Feasible (lp.sc c) x ↔ Feasible lp x :=
  ⟨fun h => ⟨h.vars, h.rows, h.sos2, h.sos1⟩, fun h => ⟨h.vars, h.rows, h.sos2, h.sos1⟩⟩

theorem optimal_sc {c : ℚ} (hc : 0 < c) (lp : Lp) (x : Nat → ℚ) : Optimal (lp.sc c) x ↔ Optimal lp x := by
  unfold Optimal
  simp only [feasible_sc, cost_sc, mul_le_mul_iff_right₀ hc]

theorem linear_sc (c : ℚ) (m : Market) (S : Solver) (x : Nat → ℚ) (lp : Lp) :
    (m.sc c).linear S x (lp.sc c) = (m.linear S x lp).sc c := by
  unfold Market.linear
  have h : (m.sc c).losses = m.losses := rfl
  rw [h]
  dsimp only
  split <;> rfl

theorem shadow_sc {c : ℚ} (hc : 0 < c) (lp : Lp) (x p : Nat → ℚ) :
    ShadowPrices (lp.sc c) x (fun i => c * p i) ↔ ShadowPrices lp x p := by
  have key : ∀ y, ((lp.sc c).rows.map (fun r => c * p r.cid * (linVal y r.coefs - r.rhs.eval y))).sum =
      c * (lp.rows.map (fun r => p r.cid * (linVal y r.coefs - r.rhs.eval y))).sum := by
    intro y
    rw [← sum_map_mul_left]
    congr 1
    apply List.map_congr_left
    intro r _
    ring
  constructor
  · intro h
    refine ⟨(feasible_sc c lp x).1 h.feasible, ?_, ?_, ?_⟩
    · intro r hr ht
      exact nonneg_of_mul_nonneg_right (h.ge r hr ht) hc
    · intro r hr ht
      have := h.le r hr ht
      by_contra hn
      push Not at hn
      have := mul_pos hc hn
      linarith
    · intro y hy
      have := h.bound y hy
      rw [cost_sc, cost_sc, key, ← mul_sub] at this
      exact le_of_mul_le_mul_left this hc
  · intro h
    refine ⟨(feasible_sc c lp x).2 h.feasible, ?_, ?_, ?_⟩
    · intro r hr ht
      exact mul_nonneg hc.le (h.ge r hr ht)
    · intro r hr ht
      exact mul_nonpos_of_nonneg_of_nonpos hc.le (h.le r hr ht)
    · intro y hy
      rw [cost_sc, cost_sc, key, ← mul_sub]
      exact mul_le_mul_of_nonneg_left (h.bound y hy) hc.le

theorem energyPrices_sc (c : ℚ) (m : Market) (p : Nat → ℚ) :
    (m.sc c).energyPrices (fun i => c * p i) = pricesIn c (m.energyPrices p) := by
  unfold Market.energyPrices
  have h : (m.sc c).mktRhs = m.mktRhs := rfl
  rw [h]
  cases m.mktRhs.get? .demand with
  | none => rfl
  | some rows =>
    simp only [pricesIn, Except.map, Except.ok.injEq, List.map_filterMap]
    congr 1
    funext r
    cases r.region <;> rfl

theorem groupSum_scale {α κ : Type} [DecidableEq κ] (c : ℚ) (key : α → κ) (val : α → ℚ) (l : List α) :
    groupSum key (fun a => c * val a) l = (groupSum key val l).map (fun e => (e.1, c * e.2)) := by
  simp only [groupSum, List.map_map]
  apply List.map_congr_left
  intro k _
  simp only [Function.comp, sum_map_mul_left]

theorem fcasPrices_sc (c : ℚ) (m : Market) (p : Nat → ℚ) :
    (m.sc c).fcasPrices (fun i => c * p i) = pricesIn c (m.fcasPrices p) := by
  unfold Market.fcasPrices
  have h : (m.sc c).mktRhs = m.mktRhs := rfl
  have h' : (m.sc c).regCon = m.regCon := rfl
  rw [h, h']
  cases m.regCon.get? .fcas with
  | none => rfl
  | some cs =>
    cases m.mktRhs.get? .fcas with
    | none => rfl
    | some rows =>
      simp only [pricesIn, Except.map, Except.ok.injEq]
      exact groupSum_scale c _ _ _

theorem deficits_sc (c : ℚ) (m : Market) (k : CKey) : (m.sc c).deficits.get? k = (m.deficits.get? k).map (defSc c) :=
  Dict.get?_mapv (defSc c) _ _

theorem violationDegree_sc (c : ℚ) (m : Market) (x : Nat → ℚ) (k : CKey) :
    (m.sc c).violationDegree x k = m.violationDegree x k := by
  unfold Market.violationDegree
  rw [deficits_sc]
  cases m.deficits.get? k with
  | none => rfl
  | some d => simp only [Option.map_some, defSc, List.map_map]; rfl

theorem report_sc (c : ℚ) (m : Market) (lp : Lp) (x : Nat → ℚ) :
    (m.sc c).report (lp.sc c) x = (m.report lp x).inCurrency c := by
  simp only [Market.report, Report.inCurrency, cost_sc, Report.mk.injEq, true_and]
  exact ⟨rfl, rfl, rfl, funext fun k => violationDegree_sc c m x k⟩

theorem setViolated_sc (c : ℚ) (m : Market) (x : Nat → ℚ) (k : CKey) : (m.sc c).setViolated x k = m.setViolated x k := by
  unfold Market.setViolated
  rw [deficits_sc]
  cases m.deficits.get? k with
  | none => rfl
  | some d => simp only [Option.map_some, defSc, Option.elim_some, List.any_map]; rfl

theorem adjustSet_sc (c : ℚ) (m : Market) (x : Nat → ℚ) (k : CKey) : (m.sc c).adjustSet x k = m.adjustSet x k := by
  unfold Market.adjustSet
  rw [setViolated_sc, deficits_sc]
  cases m.deficits.get? k with
  | none => rfl
  | some d => simp only [Option.map_some, defSc, Option.elim_some, List.filter_map, List.flatMap_map]; rfl

theorem limitReached_sc {c : ℚ} (hc : 0 < c) (m : Market) (r : ReRun) (p : Nat → ℚ) :
    (m.sc c).limitReached (r.inCurrency c) (fun i => c * p i) = m.limitReached r p := by
  have h : (m.sc c).mktRhs = m.mktRhs := rfl
  unfold Market.limitReached
  rw [h]
  simp only [ReRun.inCurrency, ge_iff_le, mul_le_mul_iff_right₀ hc]

end Verif
