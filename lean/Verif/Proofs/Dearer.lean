import Verif.Spec.Dearer
import Verif.Proofs.Currency
import Verif.Proofs.SoftenLp

/-! Multiplying the violation costs by a number commutes with every call. -/

namespace Verif

/-- the violation variables of a set with higher costs -/
def defDr (c : ℚ) (k : CKey) (d : List DefVar × List Term) : List DefVar × List Term := if k.soft then defSc c d else d

/-- the market with higher violation costs -/
def Market.dr (c : ℚ) (m : Market) : Market := { m with deficits := m.deficits.map (fun d => (d.1, defDr c d.1 d.2)) }

def Res.dr (c : ℚ) (r : Res) : Res := (r.1.dr c, r.2)

section
variable {κ α β : Type} [DecidableEq κ]

theorem Dict.get?_mapk (h : κ → α → β) (d : Dict κ α) (k : κ) :
    Dict.get? (d.map (fun e => (e.1, h e.1 e.2))) k = (Dict.get? d k).map (h k) := by
  induction d with
  | nil => rfl
  | cons e d ih =>
    obtain ⟨k', v⟩ := e
    simp only [List.map_cons, Dict.get?, ih]
    split
    · rename_i e; subst e; rfl
    · rfl

theorem Dict.set_mapk (h : κ → α → β) (d : Dict κ α) (k : κ) (v : α) :
    Dict.set (d.map (fun e => (e.1, h e.1 e.2))) k (h k v) = (Dict.set d k v).map (fun e => (e.1, h e.1 e.2)) := by
  induction d with
  | nil => rfl
  | cons e d ih =>
    obtain ⟨k', w⟩ := e
    simp only [List.map_cons, Dict.set]
    split
    · rename_i e; subst e; rfl
    · rw [ih]; rfl

theorem Dict.erase_mapk (h : κ → α → β) (d : Dict κ α) (k : κ) :
    Dict.erase (d.map (fun e => (e.1, h e.1 e.2))) k = (Dict.erase d k).map (fun e => (e.1, h e.1 e.2)) := by
  induction d with
  | nil => rfl
  | cons e d ih =>
    obtain ⟨k', w⟩ := e
    simp only [List.map_cons, Dict.erase]
    split
    · exact ih
    · rw [ih]; rfl

theorem Dict.has_mapk (h : κ → α → β) (d : Dict κ α) (k : κ) :
    Dict.has (d.map (fun e => (e.1, h e.1 e.2))) k = Dict.has d k := by
  simp only [Dict.has, Dict.get?_mapk, Option.isSome_map]
end

theorem defDr_vids (c : ℚ) (k : CKey) (d : List DefVar × List Term) : (defDr c k d).1.map DefVar.vid = d.1.map DefVar.vid := by
  unfold defDr
  split
  · exact defSc_vids c d
  · rfl

theorem defDr_terms (c : ℚ) (k : CKey) (d : List DefVar × List Term) : (defDr c k d).2 = d.2 := by
  unfold defDr
  split <;> rfl

theorem andThen_dr {c : ℚ} {r : Res} {f F : Market → Res} (h : ∀ m, F (m.dr c) = Res.dr c (f m)) :
    Res.andThen (Res.dr c r) F = Res.dr c (Res.andThen r f) := by
  obtain ⟨m, e⟩ := r
  cases e with
  | none => exact h m
  | some e => rfl

theorem andThen_dr' {c : ℚ} {r R : Res} {f F : Market → Res} (hr : R = Res.dr c r) (h : ∀ m, F (m.dr c) = Res.dr c (f m)) :
    Res.andThen R F = Res.dr c (Res.andThen r f) := by rw [hr]; exact andThen_dr h

theorem makeElastic_dr {c : ℚ} (hc : c ≠ 0) (m : Market) {k : CKey} (hk : k.soft = true) (v : VCost) :
    (m.dr c).makeElastic k (v.inCurrency c) = Res.dr c (m.makeElastic k v) := by
  unfold Market.makeElastic
  have h0 : (m.dr c).rowsOf k = m.rowsOf k := rfl
  rw [h0]
  cases m.rowsOf k with
  | none => rfl
  | some rows =>
    dsimp only
    rw [costRows_sc hc]
    cases costRows k rows v with
    | error e => rfl
    | ok rs =>
      simp only [Except.map, List.isEmpty_map]
      have hn : (m.dr c).nextVar = m.nextVar := rfl
      rw [hn, deficit_sc]
      by_cases h1 : rs.isEmpty = true
      · rw [if_pos h1, if_pos h1]; rfl
      · rw [if_neg h1, if_neg h1]
        have h2 : (defSc c (deficitVariables rs m.nextVar)).1.isEmpty = (deficitVariables rs m.nextVar).1.isEmpty := by
          simp only [defSc, List.isEmpty_map]
        have h3 : Dict.set (m.dr c).deficits k (defSc c (deficitVariables rs m.nextVar)) =
            (m.deficits.set k (deficitVariables rs m.nextVar)).map (fun d => (d.1, defDr c d.1 d.2)) := by
          have := Dict.set_mapk (defDr c) m.deficits k (deficitVariables rs m.nextVar)
          rw [show defDr c k (deficitVariables rs m.nextVar) = defSc c (deficitVariables rs m.nextVar) from if_pos hk] at this
          exact this
        rw [h2, h3, defSc_vids]
        split <;> rfl

theorem makeElastic_firm (c : ℚ) (m : Market) {k : CKey} (hk : ¬ k.soft = true) (v : VCost) :
    (m.dr c).makeElastic k v = Res.dr c (m.makeElastic k v) := by
  unfold Market.makeElastic
  have h0 : (m.dr c).rowsOf k = m.rowsOf k := rfl
  rw [h0]
  cases m.rowsOf k with
  | none => rfl
  | some rows =>
    dsimp only
    cases costRows k rows v with
    | error e => rfl
    | ok rs =>
      have hn : (m.dr c).nextVar = m.nextVar := rfl
      have h3 : Dict.set (m.dr c).deficits k (deficitVariables rs m.nextVar) =
          (m.deficits.set k (deficitVariables rs m.nextVar)).map (fun d => (d.1, defDr c d.1 d.2)) := by
        have := Dict.set_mapk (defDr c) m.deficits k (deficitVariables rs m.nextVar)
        rw [show defDr c k (deficitVariables rs m.nextVar) = deficitVariables rs m.nextVar from if_neg hk] at this
        exact this
      dsimp only
      rw [hn, h3]
      split
      · rfl
      · split <;> rfl

theorem makeElastic_dr' {c : ℚ} (hc : c ≠ 0) {M m : Market} (h : M = m.dr c) {k : CKey} (hk : k.soft = true) (v : VCost) :
    M.makeElastic k (v.inCurrency c) = Res.dr c (m.makeElastic k v) := by
  rw [h]; exact makeElastic_dr hc m hk v

theorem elasticOpt_dr {c : ℚ} (hc : c ≠ 0) (m : Market) {k : CKey} (hk : k.soft = true) (v : Option VCost) :
    (m.dr c).elasticOpt k (v.map (VCost.inCurrency c)) = Res.dr c (m.elasticOpt k v) := by
  cases v with
  | none => rfl
  | some v => exact makeElastic_dr hc m hk v

theorem elasticOpt_dr' {c : ℚ} (hc : c ≠ 0) {M m : Market} (h : M = m.dr c) {k : CKey} (hk : k.soft = true) (v : Option VCost) :
    M.elasticOpt k (v.map (VCost.inCurrency c)) = Res.dr c (m.elasticOpt k v) := by
  rw [h]; exact elasticOpt_dr hc m hk v

theorem addUnitSet_dr (c : ℚ) (m : Market) (k : CKey) (t : List Row × List ConUnit) :
    (m.dr c).addUnitSet k t = Res.dr c (m.addUnitSet k t) := by
  unfold Market.addUnitSet
  dsimp only
  split <;> rfl

theorem addRegSet_dr (c : ℚ) (m : Market) (k : CKey) (t : List Row × List ConReg) :
    (m.dr c).addRegSet k t = Res.dr c (m.addRegSet k t) := by
  unfold Market.addRegSet
  dsimp only
  split <;> rfl

theorem addUnitSetIf_dr (c : ℚ) (m : Market) (k : CKey) (b : Bool) (t : List Row × List ConUnit) :
    (m.dr c).addUnitSetIf k b t = Res.dr c (m.addUnitSetIf k b t) := by
  unfold Market.addUnitSetIf
  split
  · exact addUnitSet_dr c m k t
  · rfl

theorem elasticIfPresent_dr {c : ℚ} (hc : c ≠ 0) (m : Market) {k : CKey} (hk : k.soft = true) (v : VCost) :
    (m.dr c).elasticIfPresent k (v.inCurrency c) = Res.dr c (m.elasticIfPresent k v) := by
  unfold Market.elasticIfPresent
  have : (m.dr c).unitCon = m.unitCon := rfl
  rw [this]
  split
  · exact makeElastic_dr hc m hk v
  · rfl

theorem elasticRamps_dr {c : ℚ} (hc : c ≠ 0) (m : Market) (v : Option VCost) :
    (m.dr c).elasticRamps (v.map (VCost.inCurrency c)) = Res.dr c (m.elasticRamps v) := by
  cases v with
  | none => rfl
  | some v =>
    unfold Market.elasticRamps
    dsimp only [Option.map_some]
    refine andThen_dr' (makeElastic_dr hc m rfl v) ?_
    intro m
    refine andThen_dr' (makeElastic_dr hc m rfl v) ?_
    intro m
    refine andThen_dr' (elasticIfPresent_dr hc m rfl v) ?_
    intro m
    exact elasticIfPresent_dr hc m rfl v

theorem elasticJr_dr {c : ℚ} (hc : c ≠ 0) (m : Market) (v : Option VCost) :
    (m.dr c).elasticJr (v.map (VCost.inCurrency c)) = Res.dr c (m.elasticJr v) := by
  cases v with
  | none => rfl
  | some v =>
    unfold Market.elasticJr
    dsimp only [Option.map_some]
    refine andThen_dr' (makeElastic_dr hc m rfl v) ?_
    intro m
    refine andThen_dr' (makeElastic_dr hc m rfl v) ?_
    intro m
    refine andThen_dr' (elasticIfPresent_dr hc m rfl v) ?_
    intro m
    exact elasticIfPresent_dr hc m rfl v

theorem addBiRamps_dr (c : ℚ) (m : Market) (bi : List BiRamp) :
    (m.dr c).addBiRamps bi = Res.dr c (m.addBiRamps bi) := by
  unfold Market.addBiRamps
  split
  · rfl
  · exact andThen_dr' (addUnitSet_dr c m _ _) fun m => addUnitSet_dr c m _ _

theorem ite_dr {c : ℚ} {p : Prop} [Decidable p] {a b A B : Res} (ha : A = Res.dr c a) (hb : B = Res.dr c b) :
    (if p then A else B) = Res.dr c (if p then a else b) := by split <;> assumption

theorem setRampRates_dr {c : ℚ} (hc : c ≠ 0) (m : Market) (rs : List RampRow) (sc : Option (List Scada))
    (ps : Option (List FsRamp)) (rt : RunType) (v : Option VCost) :
    (m.dr c).setRampRates rs sc ps rt (v.map (VCost.inCurrency c)) = Res.dr c (m.setRampRates rs sc ps rt v) := by
  unfold Market.setRampRates
  refine ite_dr rfl (ite_dr rfl (ite_dr rfl (ite_dr rfl ?_)))
  have h1 : (m.dr c).di = m.di := rfl
  have h2 : (m.dr c).bidi = m.bidi := rfl
  dsimp only
  rw [h1, h2]
  cases adjustForFastStart (scadaOpt adjustForScada (compositeRampRates rs m.di m.bidi).1 sc) rt ps m.di with
  | error e => rfl
  | ok ord =>
    exact andThen_dr' (addUnitSet_dr c m _ _) fun m => andThen_dr' (addUnitSet_dr c m _ _) fun m =>
      andThen_dr' (addBiRamps_dr c m _) fun m => elasticRamps_dr hc m v

theorem setJointRamping_dr {c : ℚ} (hc : c ≠ 0) (m : Market) (rs : List RampRow) (ps : Option (List FsRamp)) (rt : RunType)
    (v : Option VCost) :
    (m.dr c).setJointRamping rs ps rt (v.map (VCost.inCurrency c)) = Res.dr c (m.setJointRamping rs ps rt v) := by
  unfold Market.setJointRamping
  refine ite_dr rfl (ite_dr rfl ?_)
  have h1 : (m.dr c).di = m.di := rfl
  have h2 : (m.dr c).bidi = m.bidi := rfl
  have h3 : (m.dr c).bids = m.bids := rfl
  rw [h1, h2, h3]
  cases m.bids with
  | none => rfl
  | some vars =>
    dsimp only
    cases adjustForFastStart rs rt ps m.di with
    | error e => rfl
    | ok ord =>
      exact andThen_dr' (addUnitSetIf_dr c m _ _ _) fun m => andThen_dr' (addUnitSetIf_dr c m _ _ _) fun m =>
        andThen_dr' (addUnitSetIf_dr c m _ _ _) fun m => andThen_dr' (addUnitSetIf_dr c m _ _ _) fun m => elasticJr_dr hc m v

theorem setTieBreak_dr (c : ℚ) (m : Market) (v : ℚ) :
    (m.dr c).setTieBreak v = Res.dr c (m.setTieBreak v) := by
  unfold Market.setTieBreak
  have h3 : (m.dr c).bids = m.bids := rfl
  have h4 : (m.dr c).bidCost = m.bidCost := rfl
  rw [h3, h4]
  cases hb : m.bidCost with
  | none => rfl
  | some costs =>
    cases hv : m.bids with
    | none => rfl
    | some vars =>
      dsimp only
      have h5 : (m.dr c).units = m.units := rfl
      have h6 : (m.dr c).nextCon = m.nextCon := rfl
      rw [h5, h6]
      refine ite_dr rfl ?_
      rw [← makeElastic_firm c _ (by decide)]
      simp only [Market.dr, hb, hv]

theorem removeFastStart_dr (c : ℚ) (m : Market) : (m.dr c).removeFastStart = Res.dr c m.removeFastStart := by
  unfold Market.removeFastStart
  have h1 : (m.dr c).conRhs = m.conRhs := rfl
  have h2 : (m.dr c).deficits.has .fastStart = m.deficits.has .fastStart := Dict.has_mapk (defDr c) _ _
  have h3 : (m.dr c).deficits.erase .fastStart = (m.deficits.erase .fastStart).map (fun d => (d.1, defDr c d.1 d.2)) :=
    Dict.erase_mapk (defDr c) _ _
  rw [h1]
  by_cases a : m.conRhs.has .fastStart = true
  · simp only [if_pos a]
    rw [h2, h3]
    by_cases b : m.deficits.has .fastStart = true
    · simp only [if_pos b]; rfl
    · simp only [if_neg b]; rfl
  · simp only [if_neg a]
    rw [h2, h3]
    by_cases b : m.deficits.has .fastStart = true
    · simp only [if_pos b]; rfl
    · simp only [if_neg b]; rfl

theorem setGeneric_dr {c : ℚ} (hc : c ≠ 0) (m : Market) (gs : List GenericRow) (v : Option VCost) :
    (m.dr c).setGeneric gs (v.map (VCost.inCurrency c)) = Res.dr c (m.setGeneric gs v) := by
  unfold Market.setGeneric
  refine ite_dr rfl ?_
  have h6 : (m.dr c).nextCon = m.nextCon := rfl
  dsimp only
  rw [h6]
  split
  · refine elasticOpt_dr' hc ?_ (k := .generic) rfl v; rfl
  · refine elasticOpt_dr' hc ?_ (k := .generic) rfl v; rfl

theorem setFastStart_dr {c : ℚ} (hc : c ≠ 0) (m : Market) (ps : List FsInput) (v : Option VCost) :
    (m.dr c).setFastStart ps (v.map (VCost.inCurrency c)) = Res.dr c (m.setFastStart ps v) := by
  unfold Market.setFastStart
  refine ite_dr rfl ?_
  exact ite_dr rfl (andThen_dr' (addUnitSet_dr c m _ _) fun m => elasticOpt_dr hc m rfl v)

theorem setLosses_dr (c : ℚ) (m : Market) (fs : List LossFn) (bs : List BreakPt) :
    (m.dr c).setLosses fs bs = Res.dr c (m.setLosses fs bs) := by
  unfold Market.setLosses
  refine ite_dr rfl ?_
  have h1 : (m.dr c).dirs = m.dirs := rfl
  have h2 : (m.dr c).inters = m.inters := rfl
  have h3 : (m.dr c).interReg = m.interReg := rfl
  have h4 : (m.dr c).nextVar = m.nextVar := rfl
  have h5 : (m.dr c).nextCon = m.nextCon := rfl
  dsimp only
  rw [h1, h2, h3, h4, h5]
  cases m.dirs with
  | none => rfl
  | some ds =>
    cases m.inters with
    | none => rfl
    | some vs =>
      cases m.interReg with
      | none => rfl
      | some im =>
        dsimp only
        exact ite_dr rfl rfl

theorem setPriceBids_dr (c : ℚ) (m : Market) (ps : List BidRow) :
    (m.dr c).setPriceBids ps = Res.dr c (m.setPriceBids ps) := by
  unfold Market.setPriceBids
  have h3 : (m.dr c).bids = m.bids := rfl
  rw [h3]
  cases m.bids with
  | none => rfl
  | some vars => exact ite_dr rfl (ite_dr rfl rfl)

theorem step_dr {c : ℚ} (hc : c ≠ 0) (m : Market) (op : Op) :
    (m.dr c).step (op.dearer c) = Res.dr c (m.step op) := by
  have hn : (m.dr c).nanCon = m.nanCon := rfl
  unfold Market.step
  rw [hn]
  refine ite_dr rfl ?_
  cases op with
  | volumeBids b => exact ite_dr rfl (ite_dr rfl (ite_dr rfl rfl))
  | priceBids b => exact setPriceBids_dr c m b
  | capacity l v => exact ite_dr rfl (ite_dr rfl (andThen_dr' (addUnitSet_dr c m _ _) fun m => elasticOpt_dr hc m rfl v))
  | uigf l v => exact ite_dr rfl (ite_dr rfl (andThen_dr' (addUnitSet_dr c m _ _) fun m => elasticOpt_dr hc m rfl v))
  | rampRates r sc ps rt v => exact setRampRates_dr hc m r sc ps rt v
  | fastStart p v => exact setFastStart_dr hc m p v
  | removeFastStart => exact removeFastStart_dr c m
  | demand d v => exact ite_dr rfl (andThen_dr' (addRegSet_dr c m _ _) fun m => elasticOpt_dr hc m rfl v)
  | fcasReq r v => exact ite_dr rfl (andThen_dr' (addRegSet_dr c m _ _) fun m => elasticOpt_dr hc m rfl v)
  | fcasMaxAvail l v => exact ite_dr rfl (andThen_dr' (addUnitSet_dr c m _ _) fun m => elasticOpt_dr hc m rfl v)
  | jointRamping r ps rt v => exact setJointRamping_dr hc m r ps rt v
  | jointCapacity t v => exact ite_dr rfl (ite_dr rfl (andThen_dr' (addUnitSet_dr c m _ _) fun m => elasticOpt_dr hc m rfl v))
  | energyReg t v => exact ite_dr rfl (ite_dr rfl (andThen_dr' (addUnitSet_dr c m _ _) fun m => elasticOpt_dr hc m rfl v))
  | interconnectors d => exact ite_dr rfl (ite_dr rfl rfl)
  | losses f b => exact setLosses_dr c m f b
  | generic g v => exact setGeneric_dr hc m g v
  | linkUnits g => exact ite_dr rfl rfl
  | linkRegions g => exact ite_dr rfl rfl
  | linkInters g => exact ite_dr rfl rfl
  | elastic k v =>
    by_cases hk : k.soft = true
    · rw [show Op.dearer c (.elastic k v) = .elastic k (v.inCurrency c) from if_pos hk]; exact makeElastic_dr hc m hk v
    · rw [show Op.dearer c (.elastic k v) = .elastic k v from if_neg hk]; exact makeElastic_firm c m hk v
  | tieBreak v => exact setTieBreak_dr c m v

theorem run_dr {c : ℚ} (hc : c ≠ 0) (m : Market) (ops : List Op) :
    (m.dr c).run (dearer c ops) = (m.run ops).dr c := by
  unfold dearer
  induction ops generalizing m with
  | nil => rfl
  | cons o ops ih =>
    show Market.run ((m.dr c).step (o.dearer c)).1 (ops.map (Op.dearer c)) = _
    rw [step_dr hc]
    exact ih _

theorem init_dr {regions : List String} {units : List UnitInfo} {di : ℚ} {m0 : Market}
    (h0 : Market.init regions units di = .ok m0) (c : ℚ) : m0.dr c = m0 := by
  unfold Market.init at h0
  split at h0
  · simp only [Except.ok.injEq] at h0
    subst h0; rfl
  · cases h0

theorem run_dearer {regions : List String} {units : List UnitInfo} {di : ℚ} {m0 : Market}
    (h0 : Market.init regions units di = .ok m0) {c : ℚ} (hc : c ≠ 0) (ops : List Op) :
    m0.run (dearer c ops) = (m0.run ops).dr c := by
  have := run_dr hc m0 ops
  rwa [init_dr h0 c] at this

/-! ### The program -/

/-- the costs of the violations that are not tie breaks -/
def Market.softObj (m : Market) : List (Nat × ℚ) :=
  (m.deficits.filter (fun e => e.1.soft)).flatMap (fun d => d.2.1.map (fun v => (v.vid, v.cost)))

/-- the program with higher violation costs -/
def Lp.dr (lp : Lp) (c : ℚ) (m : Market) : Lp := { lp with obj := (m.dr c).objective }

theorem allVars_dr (c : ℚ) (m : Market) : (m.dr c).allVars = m.allVars := by
  unfold Market.allVars
  congr 1
  simp only [Market.dr, List.flatMap_map]
  apply List.flatMap_congr
  intro d _
  unfold defDr
  split
  · simp only [defSc, List.map_map]; rfl
  · rfl

theorem fixedTerms_dr (c : ℚ) (m : Market) : (m.dr c).fixedTerms = m.fixedTerms := by
  unfold Market.fixedTerms
  congr 1
  simp only [Market.dr, List.flatMap_map, defDr_terms]

theorem objective_dr_vids (c : ℚ) (m : Market) : (m.dr c).objective.map Prod.fst = m.objective.map Prod.fst := by
  unfold Market.objective
  simp only [List.map_append, List.map_flatMap, Market.dr, List.flatMap_map, List.map_map]
  congr 1
  apply List.flatMap_congr
  intro d _
  exact defDr_vids c d.1 d.2

theorem terms_dr (c : ℚ) (m : Market) : (m.dr c).terms = m.terms := by
  unfold Market.terms
  rw [fixedTerms_dr]
  rfl

theorem lpRows_dr (c : ℚ) (m : Market) : (m.dr c).lpRows = m.lpRows := by
  unfold Market.lpRows
  rw [terms_dr, allVars_dr]
  rfl

theorem noVars_dr (c : ℚ) (m : Market) : (m.dr c).noVars = m.noVars := by
  unfold Market.noVars
  simp only [Market.dr, List.isEmpty_map]

theorem assemble_dr (c : ℚ) (m : Market) : (m.dr c).assemble = m.assemble.map (fun lp => lp.dr c m) := by
  have hall : ∀ l : List (Nat × ℚ), l.all (fun o => decide (o.1 ∈ m.allVars.map LVar.vid)) =
      (l.map Prod.fst).all (fun v => decide (v ∈ m.allVars.map LVar.vid)) := by
    intro l; rw [List.all_map]; rfl
  unfold Market.assemble
  rw [lpRows_dr, noVars_dr, allVars_dr, hall, hall m.objective, objective_dr_vids]
  have h1 : (m.dr c).regCon = m.regCon := rfl
  have h2 : (m.dr c).bidReg = m.bidReg := rfl
  have h3 : (m.dr c).interReg = m.interReg := rfl
  have h4 : (m.dr c).lossReg = m.lossReg := rfl
  have h5 : (m.dr c).unitCon = m.unitCon := rfl
  have h6 : (m.dr c).bidUnit = m.bidUnit := rfl
  have h7 : (m.dr c).dynRhs = m.dynRhs := rfl
  rw [h1, h2, h3, h4, h5, h6, h7]
  split
  · rfl
  split
  · rfl
  split
  · rfl
  split
  · rfl
  split
  · rfl
  cases m.lpRows <;> rfl

theorem feasible_dr (lp : Lp) (c : ℚ) (m : Market) (x : Nat → ℚ) : Feasible (lp.dr c m) x ↔ Feasible lp x :=
  ⟨fun h => ⟨h.vars, h.rows, h.sos2, h.sos1⟩, fun h => ⟨h.vars, h.rows, h.sos2, h.sos1⟩⟩

theorem linVal_append' (x : Nat → ℚ) (a b : List (Nat × ℚ)) : linVal x (a ++ b) = linVal x a + linVal x b := by
  simp only [linVal, List.map_append, List.sum_append]

/-- the objective is that without the violation costs and the violation costs -/
theorem linVal_dr (c : ℚ) (m : Market) (x : Nat → ℚ) :
    linVal x (m.dr c).objective = linVal x m.stiff.objective + c * linVal x m.softObj := by
  unfold Market.objective Market.softObj
  rw [linVal_append', linVal_append']
  have hb : (m.dr c).bidCost = m.stiff.bidCost := rfl
  rw [hb, add_assoc]
  congr 1
  simp only [Market.dr, Market.stiff]
  generalize m.deficits = d
  induction d with
  | nil => simp [linVal]
  | cons e d ih =>
    simp only [List.map_cons, List.flatMap_cons, linVal_append', List.filter_cons, ih]
    unfold defDr
    by_cases h : e.1.soft = true
    · simp only [h, if_true, Bool.not_true, Bool.false_eq_true, if_false, List.flatMap_cons, linVal_append']
      have : linVal x ((defSc c e.2).1.map (fun v => (v.vid, v.cost))) = c * linVal x (e.2.1.map (fun v => (v.vid, v.cost))) := by
        simp only [linVal, defSc, List.map_map]
        rw [← sum_map_mul_left]
        congr 1
        apply List.map_congr_left
        intro v _
        simp only [Function.comp, DefVar.sc]
        ring
      rw [this]
      ring
    · simp only [h, if_false, Bool.not_false, if_true, List.flatMap_cons, linVal_append', Bool.false_eq_true]
      ring

theorem cost_dr {lp : Lp} {m : Market} (c : ℚ) (x : Nat → ℚ) :
    (lp.dr c m).cost x = linVal x m.stiff.objective + c * linVal x m.softObj := linVal_dr c m x

theorem violationDegree_dr (c : ℚ) (m : Market) (x : Nat → ℚ) (k : CKey) :
    (m.dr c).violationDegree x k = m.violationDegree x k := by
  unfold Market.violationDegree
  have : (m.dr c).deficits.get? k = (m.deficits.get? k).map (defDr c k) := Dict.get?_mapk (defDr c) _ _
  rw [this]
  cases m.deficits.get? k with
  | none => rfl
  | some d =>
    simp only [Option.map_some]
    unfold defDr
    split
    · simp only [defSc, List.map_map]; rfl
    · rfl

end Verif
