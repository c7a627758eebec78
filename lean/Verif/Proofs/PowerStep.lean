import Verif.Spec.Power
import Verif.Proofs.Currency
import Verif.Proofs.Refs
import Mathlib.Algebra.Order.Ring.Abs

/-! Multiplying all amounts of power by a positive number commutes with every call. -/

namespace Verif

/-- factor of the right hand sides of a constraint set -/
def rf (c : ℚ) (k : CKey) : ℚ := if k.isShare then 1 else c
/-- factor of the violation costs of a constraint set -/
def cf (c : ℚ) (k : CKey) : ℚ := if k.isShare then c else 1

def BidVar.pw (c : ℚ) (v : BidVar) : BidVar := { v with ub := c * v.ub }
def InterVar.pw (c : ℚ) (v : InterVar) : InterVar := { v with lb := c * v.lb, ub := c * v.ub }
def LossVar.pw (c : ℚ) (v : LossVar) : LossVar := { v with lb := c * v.lb, ub := c * v.ub }
def WeightVar.pw (c : ℚ) (w : WeightVar) : WeightVar := { w with bp := c * w.bp }
def Row.pw (c : ℚ) (r : Row) : Row := { r with rhs := c * r.rhs }
def Term.mul (c : ℚ) (t : Term) : Term := { t with coef := c * t.coef }
/-- terms of the constraints on losses: those of the sums of weights stay, those of flows and losses are multiplied -/
def Term.link (c : ℚ) (ids : List Nat) (t : Term) : Term := { t with coef := if t.cid ∈ ids then t.coef else c * t.coef }
def LossFnR.pw (c : ℚ) (f : LossFnR) : LossFnR := { f with fn := fun x => c * f.fn (x / c) }
def BiRamp.pw (c : ℚ) (b : BiRamp) : BiRamp := { b with down := c * b.down, up := c * b.up, init := c * b.init }
def RegRate.pw (c : ℚ) (r : RegRate) : RegRate := { r with init := c * r.init, rate := c * r.rate }
def TieBid.pw (c : ℚ) (t : TieBid) : TieBid := { t with ub := c * t.ub }
def FsProfile.pw (c : ℚ) (p : FsProfile) : FsProfile := { p with minLoading := c * p.minLoading }

/-- ids of the constraints on the sums of weights -/
def Market.sumIds (m : Market) : List Nat := ((m.conRhs.get? .interpWeights).getD []).map Row.cid

/-- the market in another unit of power, `ids` being the ids of the constraints on the sums of weights -/
def Market.pwWith (c : ℚ) (ids : List Nat) (m : Market) : Market :=
  { m with bids := m.bids.map (List.map (BidVar.pw c)), dirs := m.dirs.map (List.map (InterDef.inPower c)),
           inters := m.inters.map (List.map (InterVar.pw c)), losses := m.losses.map (List.map (LossVar.pw c)),
           weights := m.weights.map (List.map (WeightVar.pw c)), lossLhs := m.lossLhs.map (List.map (Term.link c ids)),
           tieLhs := m.tieLhs.map (List.map (Term.mul c⁻¹)),
           deficits := m.deficits.map (fun d => (d.1, defSc (cf c d.1) d.2)),
           conRhs := m.conRhs.map (fun d => (d.1, d.2.map (Row.pw (rf c d.1)))),
           mktRhs := m.mktRhs.map (fun d => (d.1, d.2.map (Row.pw (rf c d.1)))) }

def Market.pw (c : ℚ) (m : Market) : Market := m.pwWith c m.sumIds

def Res.pw (c : ℚ) (r : Res) : Res := (r.1.pw c, r.2)

section
variable {κ α β : Type} [DecidableEq κ]

theorem Dict.get?_mapkv (h : κ → α → β) (d : Dict κ α) (k : κ) :
    Dict.get? (d.map (fun e => (e.1, h e.1 e.2))) k = (Dict.get? d k).map (h k) := by
  induction d with
  | nil => rfl
  | cons e d ih =>
    obtain ⟨k', v⟩ := e
    simp only [List.map_cons, Dict.get?, ih]
    split
    · rename_i e; subst e; rfl
    · rfl

theorem Dict.set_mapkv (h : κ → α → β) (d : Dict κ α) (k : κ) (v : α) :
    Dict.set (d.map (fun e => (e.1, h e.1 e.2))) k (h k v) = (Dict.set d k v).map (fun e => (e.1, h e.1 e.2)) := by
  induction d with
  | nil => rfl
  | cons e d ih =>
    obtain ⟨k', w⟩ := e
    simp only [List.map_cons, Dict.set]
    split
    · rename_i e; subst e; rfl
    · rw [ih]; rfl

theorem Dict.erase_mapkv (h : κ → α → β) (d : Dict κ α) (k : κ) :
    Dict.erase (d.map (fun e => (e.1, h e.1 e.2))) k = (Dict.erase d k).map (fun e => (e.1, h e.1 e.2)) := by
  induction d with
  | nil => rfl
  | cons e d ih =>
    obtain ⟨k', w⟩ := e
    simp only [List.map_cons, Dict.erase]
    split
    · exact ih
    · rw [ih]; rfl

theorem Dict.has_mapkv (h : κ → α → β) (d : Dict κ α) (k : κ) :
    Dict.has (d.map (fun e => (e.1, h e.1 e.2))) k = Dict.has d k := by
  simp only [Dict.has, Dict.get?_mapkv, Option.isSome_map]
end

theorem andThen_pw {c : ℚ} {r R : Res} {f F : Market → Res} (hr : R = Res.pw c r) (h : ∀ m, F (m.pw c) = Res.pw c (f m)) :
    Res.andThen R F = Res.pw c (Res.andThen r f) := by
  subst hr
  obtain ⟨m, e⟩ := r
  cases e with
  | none => exact h m
  | some e => rfl

theorem ite_pw {c : ℚ} {p q : Prop} [Decidable p] [Decidable q] {a b A B : Res} (hp : q ↔ p) (ha : A = Res.pw c a)
    (hb : B = Res.pw c b) : (if q then A else B) = Res.pw c (if p then a else b) := by
  by_cases h : p
  · rw [if_pos h, if_pos (hp.2 h)]; exact ha
  · rw [if_neg h, if_neg (fun h' => h (hp.1 h'))]; exact hb

theorem not_iff_of {a b : Bool} (h : a = b) : ((!a) = true) ↔ ((!b) = true) := by rw [h]

theorem VCost.inCurrency_one (v : VCost) : v.inCurrency 1 = v := by
  cases v with
  | num q => simp [VCost.inCurrency]
  | table t => simp [VCost.inCurrency]

theorem inPower_eq (c : ℚ) (k : CKey) (v : VCost) : v.inPower c k = v.inCurrency (cf c k) := by
  unfold VCost.inPower cf
  cases k.isShare
  · exact (VCost.inCurrency_one v).symm
  · rfl

theorem cf_ne {c : ℚ} (hc : c ≠ 0) (k : CKey) : cf c k ≠ 0 := by
  unfold cf; split
  · exact hc
  · exact one_ne_zero

theorem costRows_pw (f : ℚ) (k : CKey) (rows : List Row) (v : VCost) :
    costRows k (rows.map (Row.pw f)) v = (costRows k rows v).map (List.map (fun r => (r.1.pw f, r.2))) := by
  cases v with
  | num q => simp [costRows, Except.map]
  | table t =>
    simp only [costRows]
    split
    · rfl
    split
    · rfl
    · simp only [Except.map, Except.ok.injEq, List.flatMap_map, List.map_flatMap, List.map_map]
      rfl

theorem deficit_pw (f : ℚ) (rs : List (Row × ℚ)) (n : Nat) :
    deficitVariables (rs.map (fun r => (r.1.pw f, r.2))) n = deficitVariables rs n := by
  have h1 : (rs.map (fun r : Row × ℚ => (r.1.pw f, r.2))).filter isIneq = (rs.filter isIneq).map (fun r => (r.1.pw f, r.2)) := by
    rw [List.filter_map]; rfl
  have h2 : (rs.map (fun r : Row × ℚ => (r.1.pw f, r.2))).filter isEqual = (rs.filter isEqual).map (fun r => (r.1.pw f, r.2)) := by
    rw [List.filter_map]; rfl
  unfold deficitVariables
  simp only [h1, h2, saveIndex_map, List.length_map]
  rfl

theorem rowsOf_pw (c : ℚ) (m : Market) (k : CKey) : (m.pw c).rowsOf k = (m.rowsOf k).map (List.map (Row.pw (rf c k))) := by
  have h1 : (m.pw c).mktRhs.get? k = (m.mktRhs.get? k).map (List.map (Row.pw (rf c k))) :=
    Dict.get?_mapkv (fun (k : CKey) (rows : List Row) => rows.map (Row.pw (rf c k))) m.mktRhs k
  have h2 : (m.pw c).conRhs.get? k = (m.conRhs.get? k).map (List.map (Row.pw (rf c k))) :=
    Dict.get?_mapkv (fun (k : CKey) (rows : List Row) => rows.map (Row.pw (rf c k))) m.conRhs k
  unfold Market.rowsOf
  rw [h1, h2]
  cases m.mktRhs.get? k <;> rfl

theorem makeElastic_pw {c : ℚ} (hc : c ≠ 0) (m : Market) (k : CKey) (v : VCost) :
    (m.pw c).makeElastic k (v.inPower c k) = Res.pw c (m.makeElastic k v) := by
  unfold Market.makeElastic
  rw [rowsOf_pw, inPower_eq]
  cases m.rowsOf k with
  | none => rfl
  | some rows =>
    dsimp only [Option.map_some]
    rw [costRows_pw, costRows_sc (cf_ne hc k)]
    cases costRows k rows v with
    | error e => rfl
    | ok rs =>
      simp only [Except.map, List.isEmpty_map]
      have hn : (m.pw c).nextVar = m.nextVar := rfl
      rw [hn, deficit_pw, deficit_sc]
      by_cases h1 : rs.isEmpty = true
      · rw [if_pos h1, if_pos h1]; rfl
      · rw [if_neg h1, if_neg h1]
        have h2 : (defSc (cf c k) (deficitVariables rs m.nextVar)).1.isEmpty = (deficitVariables rs m.nextVar).1.isEmpty := by
          simp only [defSc, List.isEmpty_map]
        have h3 : Dict.set (m.pw c).deficits k (defSc (cf c k) (deficitVariables rs m.nextVar)) =
            (m.deficits.set k (deficitVariables rs m.nextVar)).map (fun d => (d.1, defSc (cf c d.1) d.2)) :=
          Dict.set_mapkv (fun k => defSc (cf c k)) m.deficits k _
        rw [h2, h3, defSc_vids]
        split <;> rfl

theorem makeElastic_pwM {c : ℚ} (hc : c ≠ 0) {M m : Market} (h : M = m.pw c) (k : CKey) (v : VCost) :
    M.makeElastic k (v.inPower c k) = Res.pw c (m.makeElastic k v) := by rw [h]; exact makeElastic_pw hc m k v

theorem inPower_plain (c : ℚ) {k : CKey} (hk : k.isShare = false) (v : VCost) : v.inPower c k = v := by
  unfold VCost.inPower; rw [hk]; rfl

theorem makeElastic_pw' {c : ℚ} (hc : c ≠ 0) {M m : Market} (h : M = m.pw c) {k : CKey} (hk : k.isShare = false) (v : VCost) :
    M.makeElastic k v = Res.pw c (m.makeElastic k v) := by
  have := makeElastic_pw hc m k v
  rw [inPower_plain c hk] at this
  rw [h]; exact this

theorem elasticOpt_pw {c : ℚ} (hc : c ≠ 0) {M m : Market} (h : M = m.pw c) {k : CKey} (hk : k.isShare = false) (v : Option VCost) :
    M.elasticOpt k v = Res.pw c (m.elasticOpt k v) := by
  cases v with
  | none => rw [h]; rfl
  | some v => exact makeElastic_pw' hc h hk v

theorem rf_plain (c : ℚ) {k : CKey} (hk : k.isShare = false) : rf c k = c := by unfold rf; rw [hk]; rfl

theorem sumIds_set {m : Market} {k : CKey} (hk : k ≠ .interpWeights) (rows : List Row) :
    Dict.get? (m.conRhs.set k rows) .interpWeights = m.conRhs.get? .interpWeights := Dict.get?_set_ne _ _ hk

/-- the update of a constraint set other than that of weights -/
theorem pw_setCon {c : ℚ} {m m' : Market} {k : CKey} {rows : List Row} (hk : k ≠ .interpWeights)
    (h : m'.conRhs = m.conRhs.set k rows) :
    m'.sumIds = m.sumIds ∧ (m'.pw c).conRhs = (m.pw c).conRhs.set k (rows.map (Row.pw (rf c k))) := by
  constructor
  · unfold Market.sumIds
    rw [h, sumIds_set hk]
  · show m'.conRhs.map _ = _
    rw [h]
    exact (Dict.set_mapkv (fun k rows => rows.map (Row.pw (rf c k))) m.conRhs k rows).symm

theorem addUnitSet_pw {c : ℚ} (m : Market) {k : CKey} (hk : k.isUnit = true) {T t : List Row × List ConUnit}
    (h : T = (t.1.map (Row.pw c), t.2)) : (m.pw c).addUnitSet k T = Res.pw c (m.addUnitSet k t) := by
  subst h
  have hne : k ≠ .interpWeights := by rintro rfl; simp [CKey.isUnit] at hk
  have hs : k.isShare = false := by cases k <;> simp_all [CKey.isUnit, CKey.isShare]
  unfold Market.addUnitSet
  dsimp only
  have hi : List.map Row.cid (t.1.map (Row.pw c)) = t.1.map Row.cid := by simp only [List.map_map]; rfl
  rw [List.isEmpty_map, hi]
  have key : ∀ n, ({ m.pw c with conRhs := (m.pw c).conRhs.set k (t.1.map (Row.pw c)), unitCon := (m.pw c).unitCon.set k t.2, nextCon := n } : Market) =
      ({ m with conRhs := m.conRhs.set k t.1, unitCon := m.unitCon.set k t.2, nextCon := n } : Market).pw c := by
    intro n
    have h := pw_setCon (c := c) (m := m) (m' := { m with conRhs := m.conRhs.set k t.1, unitCon := m.unitCon.set k t.2, nextCon := n }) hne rfl
    rw [rf_plain c hs] at h
    rw [← h.2]
    unfold Market.pw
    rw [h.1]
    rfl
  split
  · exact Prod.ext (key m.nextCon) rfl
  · exact Prod.ext (key _) rfl

theorem addRegSet_pw {c : ℚ} (m : Market) {k : CKey} (hk : k.isMarket = true) {T t : List Row × List ConReg}
    (h : T = (t.1.map (Row.pw c), t.2)) : (m.pw c).addRegSet k T = Res.pw c (m.addRegSet k t) := by
  subst h
  have hs : k.isShare = false := by cases k <;> simp_all [CKey.isMarket, CKey.isShare]
  unfold Market.addRegSet
  dsimp only
  have hi : List.map Row.cid (t.1.map (Row.pw c)) = t.1.map Row.cid := by simp only [List.map_map]; rfl
  rw [List.isEmpty_map, hi]
  have h : (m.pw c).mktRhs.set k (t.1.map (Row.pw c)) = (m.mktRhs.set k t.1).map (fun d => (d.1, d.2.map (Row.pw (rf c d.1)))) := by
    have := Dict.set_mapkv (fun k rows => rows.map (Row.pw (rf c k))) m.mktRhs k t.1
    rw [rf_plain c hs] at this
    exact this
  rw [h]
  split <;> rfl

theorem addUnitSetIf_pw {c : ℚ} (m : Market) {k : CKey} (hk : k.isUnit = true) {T t : List Row × List ConUnit} {b b' : Bool}
    (hb : b' = b) (h : T = (t.1.map (Row.pw c), t.2)) : (m.pw c).addUnitSetIf k b' T = Res.pw c (m.addUnitSetIf k b t) := by
  subst hb
  unfold Market.addUnitSetIf
  exact ite_pw Iff.rfl (addUnitSet_pw m hk h) rfl

theorem elasticIfPresent_pw {c : ℚ} (hc : c ≠ 0) (m : Market) {k : CKey} (hk : k.isShare = false) (v : VCost) :
    (m.pw c).elasticIfPresent k v = Res.pw c (m.elasticIfPresent k v) := by
  unfold Market.elasticIfPresent
  exact ite_pw Iff.rfl (makeElastic_pw' hc rfl hk v) rfl

theorem elasticRamps_pw {c : ℚ} (hc : c ≠ 0) (m : Market) (v : Option VCost) :
    (m.pw c).elasticRamps v = Res.pw c (m.elasticRamps v) := by
  cases v with
  | none => rfl
  | some v =>
    unfold Market.elasticRamps
    dsimp only
    refine andThen_pw (makeElastic_pw' hc rfl rfl v) ?_
    intro m
    refine andThen_pw (makeElastic_pw' hc rfl rfl v) ?_
    intro m
    refine andThen_pw (elasticIfPresent_pw hc m rfl v) ?_
    intro m
    exact elasticIfPresent_pw hc m rfl v

theorem elasticJr_pw {c : ℚ} (hc : c ≠ 0) (m : Market) (v : Option VCost) :
    (m.pw c).elasticJr v = Res.pw c (m.elasticJr v) := by
  cases v with
  | none => rfl
  | some v =>
    unfold Market.elasticJr
    dsimp only
    refine andThen_pw (makeElastic_pw' hc rfl rfl v) ?_
    intro m
    refine andThen_pw (makeElastic_pw' hc rfl rfl v) ?_
    intro m
    refine andThen_pw (elasticIfPresent_pw hc m rfl v) ?_
    intro m
    exact elasticIfPresent_pw hc m rfl v

/-! ### Tables of constraints -/

theorem createConstraints_pw (c : ℚ) (ls : List Lim) (n : Nat) (d : CType) :
    createConstraints (ls.map (Lim.inPower c)) n d = ((createConstraints ls n d).1.map (Row.pw c), (createConstraints ls n d).2) := by
  simp only [createConstraints, saveIndex_map, map_saveIndex]
  rfl

theorem capacity_pw (c : ℚ) (ls : List Lim) (n : Nat) (bidi : List String) :
    capacityConstraints (ls.map (Lim.inPower c)) n bidi = ((capacityConstraints ls n bidi).1.map (Row.pw c), (capacityConstraints ls n bidi).2) := by
  simp only [capacityConstraints, createConstraints_pw]

theorem rampUp_pw (c : ℚ) (rs : List RampRow) (n : Nat) (di : ℚ) :
    rampUpConstraints (rs.map (RampRow.inPower c)) n di = ((rampUpConstraints rs n di).1.map (Row.pw c), (rampUpConstraints rs n di).2) := by
  unfold rampUpConstraints
  rw [← createConstraints_pw]
  congr 1
  simp only [List.map_map]
  apply List.map_congr_left
  intro r _
  simp only [Function.comp, RampRow.inPower, Lim.inPower, Lim.mk.injEq, true_and]
  ring

theorem rampDown_pw (c : ℚ) (rs : List RampRow) (n : Nat) (di : ℚ) :
    rampDownConstraints (rs.map (RampRow.inPower c)) n di = ((rampDownConstraints rs n di).1.map (Row.pw c), (rampDownConstraints rs n di).2) := by
  unfold rampDownConstraints
  rw [← createConstraints_pw]
  congr 1
  simp only [List.map_map]
  apply List.map_congr_left
  intro r _
  simp only [Function.comp, RampRow.inPower, Lim.inPower, Lim.mk.injEq, true_and]
  ring

theorem fastStart_pw (c : ℚ) (ps : List FsProfile) (n : Nat) :
    fastStartConstraints (ps.map (FsProfile.pw c)) n = ((fastStartConstraints ps n).1.map (Row.pw c), (fastStartConstraints ps n).2) := by
  have h1 : fsModeOne (ps.map (FsProfile.pw c)) = (fsModeOne ps).map (Lim.inPower c) := by
    simp only [fsModeOne, List.filter_map, List.map_map]
    exact List.map_congr_left fun p _ => by simp only [Function.comp, FsProfile.pw, Lim.inPower, mul_zero]
  have h2 : fsModeTwo (ps.map (FsProfile.pw c)) = (fsModeTwo ps).map (Lim.inPower c) := by
    simp only [fsModeTwo, List.filter_map, List.map_map]
    refine List.map_congr_left fun p _ => ?_
    simp only [Function.comp, FsProfile.pw, Lim.inPower, Lim.mk.injEq, true_and]; ring
  have h3 : fsModeThree (ps.map (FsProfile.pw c)) = (fsModeThree ps).map (Lim.inPower c) := by
    simp only [fsModeThree, List.filter_map, List.map_map]
    rfl
  have h4 : fsModeFour (ps.map (FsProfile.pw c)) = (fsModeFour ps).map (Lim.inPower c) := by
    simp only [fsModeFour, List.filter_map, List.map_map]
    refine List.map_congr_left fun p _ => ?_
    simp only [Function.comp, FsProfile.pw, Lim.inPower, Lim.mk.injEq, true_and]; ring
  simp only [fastStartConstraints, h1, h2, h3, h4, createConstraints_pw, List.length_map, List.map_append]

theorem mergeFs_pw (c : ℚ) (us : List UnitInfo) (ps : List FsInput) :
    mergeFsProfiles us (ps.map (FsInput.inPower c)) = (mergeFsProfiles us ps).map (FsProfile.pw c) := by
  simp only [mergeFsProfiles, List.filter_map, List.map_map, List.map_flatMap]
  rfl

theorem energy_pw (c : ℚ) (ds : List Demand) (n : Nat) :
    energyConstraints (ds.map (Demand.inPower c)) n = ((energyConstraints ds n).1.map (Row.pw c), (energyConstraints ds n).2) := by
  simp only [energyConstraints, saveIndex_map, map_saveIndex]
  rfl

theorem dropDup_map_key {α β κ : Type} [DecidableEq κ] (f : α → β) (key : β → κ) (key' : α → κ) (h : ∀ a, key (f a) = key' a) (l : List α) :
    dropDup key (l.map f) = (dropDup key' l).map f := by
  induction l with
  | nil => rfl
  | cons a l ih =>
    simp only [List.map_cons, dropDup, ih, List.filter_map, Function.comp_def, h]

theorem fcas_pw (c : ℚ) (rs : List FcasReq) (n : Nat) :
    fcasConstraints (rs.map (FcasReq.inPower c)) n = ((fcasConstraints rs n).1.map (Row.pw c), (fcasConstraints rs n).2) := by
  have h : fcasRows (rs.map (FcasReq.inPower c)) n = (fcasRows rs n).map (Row.pw c) := by
    simp only [fcasRows]
    rw [dropDup_map_key (FcasReq.inPower c) _ (fun r => r.set) (fun _ => rfl)]
    simp only [saveIndex_map, map_saveIndex]
    rfl
  simp only [fcasConstraints, h, List.flatMap_map, List.filter_map, List.map_map]
  rfl

theorem jrGeneric_pw (c : ℚ) (cs : List (Nat × RegRate)) (s : JrSettings) (di : ℚ) :
    jrGeneric (cs.map (fun e => (e.1, e.2.pw c))) s di = ((jrGeneric cs s di).1.map (Row.pw c), (jrGeneric cs s di).2) := by
  simp only [jrGeneric, List.map_map]
  refine Prod.ext ?_ rfl
  refine List.map_congr_left fun e _ => ?_
  simp only [Function.comp, RegRate.pw, Row.pw, Row.mk.injEq, true_and, and_true]
  ring

theorem jr_pw (c : ℚ) (rs : List RegRate) (di : ℚ) (n : Nat) (g l : JrSettings) :
    jrConstructor (rs.map (RegRate.pw c)) di n g l = ((jrConstructor rs di n g l).1.map (Row.pw c), (jrConstructor rs di n g l).2) := by
  have h : saveIndex (rs.map (RegRate.pw c)) n (fun i r => (i, r)) = (saveIndex rs n (fun i r => (i, r))).map (fun e => (e.1, e.2.pw c)) := by
    simp only [saveIndex_map, map_saveIndex]
  have hf : ∀ d : DType, (saveIndex (rs.map (RegRate.pw c)) n (fun i r => (i, r))).filter (fun e => decide (e.2.dtype = d)) =
      ((saveIndex rs n (fun i r => (i, r))).filter (fun e => decide (e.2.dtype = d))).map (fun e => (e.1, e.2.pw c)) := by
    intro d
    rw [h, List.filter_map]; rfl
  simp only [jrConstructor, hf, jrGeneric_pw, List.map_append]

theorem jrBdu_pw (c : ℚ) (rs : List RegRate) (di : ℚ) (n : Nat) (ct : CType) (s : ℚ) :
    jrBdu (rs.map (RegRate.pw c)) di n ct s = ((jrBdu rs di n ct s).1.map (Row.pw c), (jrBdu rs di n ct s).2) := by
  simp only [jrBdu]
  rw [dropDup_map_key (RegRate.pw c) _ (fun r => r.unit) (fun _ => rfl)]
  simp only [saveIndex_map, map_saveIndex, List.filter_map, List.map_map]
  refine Prod.ext ?_ ?_
  · dsimp only
    congr 1
    funext i r
    simp only [RegRate.pw, Row.pw, Row.mk.injEq, true_and, and_true]
    ring
  · dsimp only
    have : ∀ X Y : List ConUnit, X = Y → X ++ X.map (fun c => { c with service := .energy, coef := 1 }) =
        Y ++ Y.map (fun c => { c with service := .energy, coef := 1 }) := by rintro X _ rfl; rfl
    apply this
    simp only [List.flatMap, map_saveIndex]
    rfl

theorem trapCoef_pw {c : ℚ} (hc : c ≠ 0) (t : Trap) : (t.inPower c).upperCoef = t.upperCoef ∧ (t.inPower c).lowerCoef = t.lowerCoef := by
  constructor
  · simp only [Trap.upperCoef, Trap.inPower, ← mul_sub, mul_div_mul_left _ _ hc]
  · simp only [Trap.lowerCoef, Trap.inPower, ← mul_sub, mul_div_mul_left _ _ hc]

theorem jointCapacity_pw {c : ℚ} (hc : c ≠ 0) (ts : List Trap) (bidi : List String) (n : Nat) :
    jointCapacityConstraints (ts.map (Trap.inPower c)) bidi n = ((jointCapacityConstraints ts bidi n).1.map (Row.pw c), (jointCapacityConstraints ts bidi n).2) := by
  have h1 : ∀ i t, jcUpperMap bidi i (t.inPower c) = jcUpperMap bidi i t := by
    intro i t
    simp only [jcUpperMap, (trapCoef_pw hc t).1]; rfl
  have h2 : ∀ i t, jcLowerMap bidi i (t.inPower c) = jcLowerMap bidi i t := by
    intro i t
    simp only [jcLowerMap, (trapCoef_pw hc t).2]; rfl
  simp only [jointCapacityConstraints, saveIndex_map, List.map_append, map_saveIndex, List.length_map, h1, h2]
  rfl

theorem energyReg_pw {c : ℚ} (hc : c ≠ 0) (ts : List Trap) (n : Nat) :
    energyRegConstraints (ts.map (Trap.inPower c)) n = ((energyRegConstraints ts n).1.map (Row.pw c), (energyRegConstraints ts n).2) := by
  simp only [energyRegConstraints, saveIndex_map, List.map_append, map_saveIndex, List.length_map, (trapCoef_pw hc _).1, (trapCoef_pw hc _).2]
  rfl

theorem biRamp_pw (c : ℚ) (rs : List BiRamp) (up : Bool) (n : Nat) (di : ℚ) :
    biRampConstraints (rs.map (BiRamp.pw c)) up n di = ((biRampConstraints rs up n di).1.map (Row.pw c), (biRampConstraints rs up n di).2) := by
  simp only [biRampConstraints]
  rw [dropDup_map_key (BiRamp.pw c) _ (fun r => r.unit) (fun _ => rfl)]
  simp only [saveIndex_map, map_saveIndex, List.flatMap_map]
  refine Prod.ext ?_ rfl
  dsimp only
  congr 1
  funext i r
  simp only [BiRamp.pw, Row.pw, Row.mk.injEq, true_and, and_true]
  cases up <;> simp only [if_true, if_false, Bool.false_eq_true] <;> ring

/-! ### Ramp rates -/

theorem mul_ge_zero_iff {c : ℚ} (hc : 0 < c) (x : ℚ) : c * x ≥ 0 ↔ x ≥ 0 :=
  ⟨fun h => nonneg_of_mul_nonneg_right h hc, fun h => mul_nonneg hc.le h⟩

theorem mul_le_zero_iff {c : ℚ} (hc : 0 < c) (x : ℚ) : c * x ≤ 0 ↔ x ≤ 0 := by
  constructor
  · intro h
    by_contra hn
    push Not at hn
    have := mul_pos hc hn
    linarith
  · intro h; exact mul_nonpos_of_nonneg_of_nonpos hc.le h

theorem compositeUp_pw {c : ℚ} (hc : 0 < c) (di i u d : ℚ) : compositeUp di (c * i) (c * u) (c * d) = c * compositeUp di i u d := by
  have h0 : c * d = 0 ↔ d = 0 := by rw [mul_eq_zero]; exact ⟨fun h => h.resolve_left hc.ne', Or.inr⟩
  simp only [compositeUp, mul_ge_zero_iff hc, h0, mul_div_mul_left _ _ hc.ne', mul_ite, mul_zero]
  congr 3
  rw [← mul_div_assoc]
  congr 1
  ring

theorem compositeDown_pw {c : ℚ} (hc : 0 < c) (di i u d : ℚ) : compositeDown di (c * i) (c * u) (c * d) = c * compositeDown di i u d := by
  have h0 : c * d = 0 ↔ d = 0 := by rw [mul_eq_zero]; exact ⟨fun h => h.resolve_left hc.ne', Or.inr⟩
  simp only [compositeDown, mul_le_zero_iff hc, h0, mul_div_mul_left _ _ hc.ne', mul_ite, mul_zero]
  congr 3
  rw [← mul_div_assoc]
  congr 1
  ring

theorem composite_pw {c : ℚ} (hc : 0 < c) (rs : List RampRow) (di : ℚ) (bidi : List String) :
    compositeRampRates (rs.map (RampRow.inPower c)) di bidi =
      ((compositeRampRates rs di bidi).1.map (RampRow.inPower c), (compositeRampRates rs di bidi).2.map (BiRamp.pw c)) := by
  have hf : ∀ (l : List RampRow) (p : RampRow → Bool), (∀ r, p (r.inPower c) = p r) →
      (l.map (RampRow.inPower c)).filter p = (l.filter p).map (RampRow.inPower c) := by
    intro l p hp
    rw [List.filter_map]
    congr 1
    exact List.filter_congr fun r _ => hp r
  have key : ∀ gen load : List RampRow,
      (gen.map (RampRow.inPower c)).flatMap (fun g => ((load.map (RampRow.inPower c)).filter (fun l => decide (l.unit = g.unit))).map
          (fun l => (g.unit, compositeUp di l.init g.up l.down, l.init))) =
        (gen.flatMap (fun g => (load.filter (fun l => decide (l.unit = g.unit))).map
          (fun l => (g.unit, compositeUp di l.init g.up l.down, l.init)))).map (fun u => (u.1, c * u.2.1, c * u.2.2)) := by
    intro gen load
    rw [List.flatMap_map, List.map_flatMap]
    congr 1
    funext g
    rw [hf _ _ (fun _ => rfl), List.map_map, List.map_map]
    refine List.map_congr_left fun l _ => ?_
    simp only [Function.comp, RampRow.inPower, compositeUp_pw hc]
  have key2 : ∀ gen load : List RampRow,
      (load.map (RampRow.inPower c)).flatMap (fun l => ((gen.map (RampRow.inPower c)).filter (fun g => decide (g.unit = l.unit))).map
          (fun g => (l.unit, compositeDown di g.init l.up g.down))) =
        (load.flatMap (fun l => (gen.filter (fun g => decide (g.unit = l.unit))).map
          (fun g => (l.unit, compositeDown di g.init l.up g.down)))).map (fun u => (u.1, c * u.2)) := by
    intro gen load
    rw [List.flatMap_map, List.map_flatMap]
    congr 1
    funext g
    rw [hf _ _ (fun _ => rfl), List.map_map, List.map_map]
    refine List.map_congr_left fun l _ => ?_
    simp only [Function.comp, RampRow.inPower, compositeDown_pw hc]
  unfold compositeRampRates
  dsimp only
  rw [hf _ (fun r => decide (r.unit ∈ bidi)) (fun _ => rfl), hf _ (fun r => decide (r.dtype = .generator)) (fun _ => rfl),
    hf _ (fun r => decide (r.dtype = .load)) (fun _ => rfl), hf _ (fun r => decide (r.unit ∉ bidi)) (fun _ => rfl), key, key2]
  have key3 : ∀ (ups : List (String × ℚ × ℚ)) (downs : List (String × ℚ)),
      (downs.map (fun u => (u.1, c * u.2))).flatMap (fun d => ((ups.map (fun u => (u.1, c * u.2.1, c * u.2.2))).filter (fun u => decide (u.1 = d.1))).map
          (fun u => ({ unit := d.1, down := d.2, up := u.2.1, init := u.2.2 } : BiRamp))) =
        (downs.flatMap (fun d => (ups.filter (fun u => decide (u.1 = d.1))).map (fun u => ({ unit := d.1, down := d.2, up := u.2.1, init := u.2.2 } : BiRamp)))).map (BiRamp.pw c) := by
    intro ups downs
    rw [List.flatMap_map, List.map_flatMap]
    congr 1
    funext d
    rw [List.filter_map, List.map_map, List.map_map]
    rfl
  exact Prod.ext rfl (key3 _ _)

theorem leftMerge_map {α β α' β' : Type} (f : α → α') (g : β → β') (p : α → β → Bool) (p' : α' → β' → Bool)
    (h : ∀ a b, p' (f a) (g b) = p a b) (l : List α) (r : List β) :
    leftMerge p' (l.map f) (r.map g) = (leftMerge p l r).map (fun e => (f e.1, e.2.map g)) := by
  simp only [leftMerge, List.flatMap_map, List.map_flatMap]
  congr 1
  funext a
  simp only [List.filter_map, Function.comp_def, h, List.isEmpty_map]
  split
  · rfl
  · simp only [List.map_map]; rfl

theorem fmin_pw {c : ℚ} (hc : 0 < c) (a : ℚ) (b : Option ℚ) : fmin (c * a) (b.map (c * ·)) = c * fmin a b := by
  cases b with
  | none => rfl
  | some b => simp only [fmin, Option.map_some, mul_min_of_nonneg _ _ hc.le]

theorem bind_pw (c : ℚ) (s : Option Scada) : (s.map (Scada.inPower c)).bind (·.down) = (s.bind (·.down)).map (c * ·) ∧
    (s.map (Scada.inPower c)).bind (·.up) = (s.bind (·.up)).map (c * ·) := by
  cases s <;> exact ⟨rfl, rfl⟩

theorem scada_pw {c : ℚ} (hc : 0 < c) (rs : List RampRow) (sc : List Scada) :
    adjustForScada (rs.map (RampRow.inPower c)) (sc.map (Scada.inPower c)) = (adjustForScada rs sc).map (RampRow.inPower c) := by
  unfold adjustForScada
  rw [leftMerge_map (RampRow.inPower c) (Scada.inPower c) _ _ (fun _ _ => rfl)]
  simp only [List.map_map]
  refine List.map_congr_left fun e _ => ?_
  simp only [Function.comp, (bind_pw c e.2).1, (bind_pw c e.2).2]
  simp only [RampRow.inPower, fmin_pw hc]

theorem scadaBi_pw {c : ℚ} (hc : 0 < c) (rs : List BiRamp) (sc : List Scada) :
    adjustForScadaBi (rs.map (BiRamp.pw c)) (sc.map (Scada.inPower c)) = (adjustForScadaBi rs sc).map (BiRamp.pw c) := by
  unfold adjustForScadaBi
  rw [leftMerge_map (BiRamp.pw c) (Scada.inPower c) _ _ (fun _ _ => rfl)]
  simp only [List.map_map]
  refine List.map_congr_left fun e _ => ?_
  simp only [Function.comp, (bind_pw c e.2).1, (bind_pw c e.2).2]
  simp only [BiRamp.pw, fmin_pw hc]

theorem adjustFs_pw (c : ℚ) (rs : List RampRow) (rt : RunType) (ps : Option (List FsRamp)) (di : ℚ) :
    adjustForFastStart (rs.map (RampRow.inPower c)) rt (ps.map (List.map (FsRamp.inPower c))) di =
      (adjustForFastStart rs rt ps di).map (List.map (RampRow.inPower c)) := by
  have h1 : ∀ ps : List FsRamp, removeStarting012 (rs.map (RampRow.inPower c)) (ps.map (FsRamp.inPower c)) =
      (removeStarting012 rs ps).map (RampRow.inPower c) := by
    intro ps
    simp only [removeStarting012, List.filter_map, List.map_map, Function.comp_def, RampRow.inPower, FsRamp.inPower]
    rfl
  have h2 : ∀ ps : List FsRamp, removeEnding012 (rs.map (RampRow.inPower c)) (ps.map (FsRamp.inPower c)) =
      (removeEnding012 rs ps).map (RampRow.inPower c) := by
    intro ps
    simp only [removeEnding012, List.filter_map, List.map_map, Function.comp_def, RampRow.inPower, FsRamp.inPower]
    rfl
  have h3 : ∀ (rs : List RampRow) (ps : List FsRamp), adjustModeThreeFour (rs.map (RampRow.inPower c)) (ps.map (FsRamp.inPower c)) di =
      (adjustModeThreeFour rs ps di).map (RampRow.inPower c) := by
    intro rs ps
    have ha : (rs.map (RampRow.inPower c)).flatMap (fun r => ((ps.map (FsRamp.inPower c)).filter (fun p => decide (p.unit = r.unit))).filterMap (fun p =>
          p.since.map (fun s => { r with up := adjustedUp di r p.minLoading s }))) =
        (rs.flatMap (fun r => (ps.filter (fun p => decide (p.unit = r.unit))).filterMap (fun p =>
          p.since.map (fun s => { r with up := adjustedUp di r p.minLoading s })))).map (RampRow.inPower c) := by
      rw [List.flatMap_map, List.map_flatMap]
      congr 1
      funext r
      simp only [List.filter_map, List.filterMap_map, List.map_filterMap]
      congr 1
      funext p
      simp only [Function.comp, FsRamp.inPower, Option.map_map]
      congr 1
      funext s
      simp only [Function.comp, RampRow.inPower, adjustedUp, RampRow.mk.injEq, true_and, and_true]
      ring
    simp only [adjustModeThreeFour]
    rw [ha]
    simp only [List.map_append, List.filter_map, List.map_map, Function.comp_def]
    rfl
  cases rt <;> cases ps <;> simp only [adjustForFastStart, Option.map_some, Option.map_none, Except.map, h1, h2, h3]

theorem rampsOk_pw (c : ℚ) (m : Market) (rs : List RampRow) : (m.pw c).rampsOk (rs.map (RampRow.inPower c)) = m.rampsOk rs := by
  simp only [Market.rampsOk, List.all_map, List.map_map]; rfl

theorem fsProfilesOk_pw {c : ℚ} (hc : 0 < c) (m : Market) (rt : RunType) (ps : Option (List FsRamp)) :
    (m.pw c).fsProfilesOk rt (ps.map (List.map (FsRamp.inPower c))) = m.fsProfilesOk rt ps := by
  have h : ∀ ps, (m.pw c).fsRampOk (ps.map (FsRamp.inPower c)) = m.fsRampOk ps := by
    intro ps
    have : ∀ p : FsRamp, decide (0 ≤ (p.inPower c).minLoading) = decide (0 ≤ p.minLoading) :=
      fun p => decide_eq_decide.2 (mul_ge_zero_iff hc p.minLoading)
    simp only [Market.fsRampOk, List.all_map, List.map_map, Function.comp_def, this]
    rfl
  cases rt <;> cases ps <;> simp only [Market.fsProfilesOk, Option.map_some, Option.map_none, h]

theorem scadaOk_pw (c : ℚ) (m : Market) (sc : Option (List Scada)) :
    (m.pw c).scadaOptOk (sc.map (List.map (Scada.inPower c))) = m.scadaOptOk sc := by
  cases sc with
  | none => rfl
  | some sc => simp only [Market.scadaOptOk, Option.map_some, Market.scadaOk, List.all_map, List.map_map]; rfl

theorem addBiRamps_pw (c : ℚ) (m : Market) (bi : List BiRamp) :
    (m.pw c).addBiRamps (bi.map (BiRamp.pw c)) = Res.pw c (m.addBiRamps bi) := by
  unfold Market.addBiRamps
  refine ite_pw (by rw [List.isEmpty_map]) rfl ?_
  exact andThen_pw (addUnitSet_pw m rfl (biRamp_pw c bi true _ _)) fun m => addUnitSet_pw m rfl (biRamp_pw c bi false _ _)

theorem setRampRates_pw {c : ℚ} (hc : 0 < c) (m : Market) (rs : List RampRow) (sc : Option (List Scada))
    (ps : Option (List FsRamp)) (rt : RunType) (v : Option VCost) :
    (m.pw c).setRampRates (rs.map (RampRow.inPower c)) (sc.map (List.map (Scada.inPower c))) (ps.map (List.map (FsRamp.inPower c))) rt v =
      Res.pw c (m.setRampRates rs sc ps rt v) := by
  unfold Market.setRampRates
  have h1 : (m.pw c).di = m.di := rfl
  have h2 : (m.pw c).bidi = m.bidi := rfl
  have h3 : (rs.map (RampRow.inPower c)).map (·.unit) = rs.map (·.unit) := by simp only [List.map_map]; rfl
  rw [rampsOk_pw, fsProfilesOk_pw hc, scadaOk_pw, h1, h2, h3]
  refine ite_pw Iff.rfl rfl (ite_pw Iff.rfl rfl (ite_pw Iff.rfl rfl (ite_pw Iff.rfl rfl ?_)))
  dsimp only
  rw [composite_pw hc]
  have e1 : scadaOpt adjustForScada ((compositeRampRates rs m.di m.bidi).1.map (RampRow.inPower c)) (sc.map (List.map (Scada.inPower c))) =
      (scadaOpt adjustForScada (compositeRampRates rs m.di m.bidi).1 sc).map (RampRow.inPower c) := by
    cases sc with
    | none => rfl
    | some sc => exact scada_pw hc _ _
  have e2 : scadaOpt adjustForScadaBi ((compositeRampRates rs m.di m.bidi).2.map (BiRamp.pw c)) (sc.map (List.map (Scada.inPower c))) =
      (scadaOpt adjustForScadaBi (compositeRampRates rs m.di m.bidi).2 sc).map (BiRamp.pw c) := by
    cases sc with
    | none => rfl
    | some sc => exact scadaBi_pw hc _ _
  rw [e1, e2, adjustFs_pw]
  cases adjustForFastStart (scadaOpt adjustForScada (compositeRampRates rs m.di m.bidi).1 sc) rt ps m.di with
  | error e => rfl
  | ok ord =>
    exact andThen_pw (addUnitSet_pw m rfl (rampUp_pw c ord _ _)) fun m => andThen_pw (addUnitSet_pw m rfl (rampDown_pw c ord _ _)) fun m =>
      andThen_pw (addBiRamps_pw c m _) fun m => elasticRamps_pw hc.ne' m v

theorem regRates_pw (c : ℚ) (vars : List BidVar) (s : Service) (rs : List RampRow) (rate : RampRow → ℚ)
    (h : ∀ r, rate (r.inPower c) = c * rate r) :
    regRates (vars.map (BidVar.pw c)) s (rs.map (RampRow.inPower c)) rate = (regRates vars s rs rate).map (RegRate.pw c) := by
  simp only [regRates, List.filter_map, List.map_map, List.map_flatMap, Function.comp_def, h]
  rfl

theorem setJointRamping_pw {c : ℚ} (hc : 0 < c) (m : Market) (rs : List RampRow) (ps : Option (List FsRamp)) (rt : RunType)
    (v : Option VCost) :
    (m.pw c).setJointRamping (rs.map (RampRow.inPower c)) (ps.map (List.map (FsRamp.inPower c))) rt v =
      Res.pw c (m.setJointRamping rs ps rt v) := by
  unfold Market.setJointRamping
  have h1 : (m.pw c).di = m.di := rfl
  have h2 : (m.pw c).bidi = m.bidi := rfl
  have h3 : (m.pw c).bids = m.bids.map (List.map (BidVar.pw c)) := rfl
  have h4 : ((rs.map (RampRow.inPower c)).all (fun r => (m.pw c).knows r.unit) && decide (((rs.map (RampRow.inPower c)).map (·.unit)).Nodup)) =
      (rs.all (fun r => m.knows r.unit) && decide ((rs.map (·.unit)).Nodup)) := by
    simp only [List.all_map, List.map_map]; rfl
  rw [fsProfilesOk_pw hc, h1, h2, h3, h4]
  refine ite_pw Iff.rfl rfl (ite_pw Iff.rfl rfl ?_)
  cases m.bids with
  | none => rfl
  | some vars =>
    dsimp only [Option.map_some]
    rw [adjustFs_pw]
    cases adjustForFastStart rs rt ps m.di with
    | error e => rfl
    | ok ord =>
      simp only [Except.map]
      rw [regRates_pw c vars .raiseReg ord (·.up) (fun _ => rfl), regRates_pw c vars .lowerReg ord (·.down) (fun _ => rfl)]
      have hf : ∀ (l : List RegRate) (p : RegRate → Bool), (∀ r, p (r.pw c) = p r) → (l.map (RegRate.pw c)).filter p = (l.filter p).map (RegRate.pw c) := by
        intro l p hp
        rw [List.filter_map]
        congr 1
        exact List.filter_congr fun r _ => hp r
      rw [hf _ (fun r => decide (r.unit ∉ m.bidi)) (fun _ => rfl), hf _ (fun r => decide (r.unit ∈ m.bidi)) (fun _ => rfl),
        hf _ (fun r => decide (r.unit ∉ m.bidi)) (fun _ => rfl), hf _ (fun r => decide (r.unit ∈ m.bidi)) (fun _ => rfl)]
      exact andThen_pw (addUnitSetIf_pw m rfl (by rw [List.isEmpty_map]) (jr_pw c _ _ _ _ _)) fun m =>
        andThen_pw (addUnitSetIf_pw m rfl (by rw [List.isEmpty_map]) (jrBdu_pw c _ _ _ _ _)) fun m =>
        andThen_pw (addUnitSetIf_pw m rfl (by rw [List.isEmpty_map]) (jr_pw c _ _ _ _ _)) fun m =>
        andThen_pw (addUnitSetIf_pw m rfl (by rw [List.isEmpty_map]) (jrBdu_pw c _ _ _ _ _)) fun m => elasticJr_pw hc.ne' m v


/-! ### The other calls -/

theorem limsOk_pw (c : ℚ) (m : Market) (ls : List Lim) : (m.pw c).limsOk (ls.map (Lim.inPower c)) = m.limsOk ls := by
  simp only [Market.limsOk, List.all_map, List.map_map]; rfl

theorem setCapacity_pw {c : ℚ} (hc : c ≠ 0) (m : Market) (ls : List Lim) (v : Option VCost) :
    (m.pw c).setCapacity (ls.map (Lim.inPower c)) v = Res.pw c (m.setCapacity ls v) := by
  unfold Market.setCapacity
  have h1 : (m.pw c).bids.isNone = m.bids.isNone := by cases h : m.bids <;> simp [Market.pw, Market.pwWith, h]
  have h2 : (ls.map (Lim.inPower c)).all (fun l => decide (l.service = .energy)) = ls.all (fun l => decide (l.service = .energy)) := by
    rw [List.all_map]; rfl
  rw [h1, h2, limsOk_pw]
  exact ite_pw Iff.rfl rfl (ite_pw Iff.rfl rfl (andThen_pw (addUnitSet_pw m rfl (capacity_pw c ls _ _)) fun m => elasticOpt_pw hc rfl rfl v))

theorem setUigf_pw {c : ℚ} (hc : c ≠ 0) (m : Market) (ls : List Lim) (v : Option VCost) :
    (m.pw c).setUigf (ls.map (Lim.inPower c)) v = Res.pw c (m.setUigf ls v) := by
  unfold Market.setUigf
  have h1 : (m.pw c).bids.isNone = m.bids.isNone := by cases h : m.bids <;> simp [Market.pw, Market.pwWith, h]
  have h2 : (ls.map (Lim.inPower c)).all (fun l => decide (l.service = .energy ∧ l.dtype = .generator)) =
      ls.all (fun l => decide (l.service = .energy ∧ l.dtype = .generator)) := by
    rw [List.all_map]; rfl
  rw [h1, h2, limsOk_pw]
  exact ite_pw Iff.rfl rfl (ite_pw Iff.rfl rfl (andThen_pw (addUnitSet_pw m rfl (createConstraints_pw c ls _ _)) fun m => elasticOpt_pw hc rfl rfl v))

theorem setFcasMaxAvail_pw {c : ℚ} (hc : 0 < c) (m : Market) (ls : List Lim) (v : Option VCost) :
    (m.pw c).setFcasMaxAvail (ls.map (Lim.inPower c)) v = Res.pw c (m.setFcasMaxAvail ls v) := by
  unfold Market.setFcasMaxAvail
  have h2 : (ls.map (Lim.inPower c)).all (fun l => decide (l.service ≠ .energy) && decide (0 ≤ l.val)) =
      ls.all (fun l => decide (l.service ≠ .energy) && decide (0 ≤ l.val)) := by
    rw [List.all_map]
    congr 1
    funext l
    have : decide (0 ≤ (l.inPower c).val) = decide (0 ≤ l.val) := decide_eq_decide.2 (mul_ge_zero_iff hc l.val)
    simp only [Function.comp, this]
    rfl
  rw [h2, limsOk_pw]
  exact ite_pw Iff.rfl rfl (andThen_pw (addUnitSet_pw m rfl (createConstraints_pw c ls _ _)) fun m => elasticOpt_pw hc.ne' rfl rfl v)

theorem setFastStart_pw {c : ℚ} (hc : 0 < c) (m : Market) (ps : List FsInput) (v : Option VCost) :
    (m.pw c).setFastStart (ps.map (FsInput.inPower c)) v = Res.pw c (m.setFastStart ps v) := by
  unfold Market.setFastStart
  have h1 : (m.pw c).fsInputsOk (ps.map (FsInput.inPower c)) = m.fsInputsOk ps := by
    have : ∀ p : FsInput, decide (0 ≤ (p.inPower c).minLoading) = decide (0 ≤ p.minLoading) :=
      fun p => decide_eq_decide.2 (mul_ge_zero_iff hc p.minLoading)
    simp only [Market.fsInputsOk, List.all_map, List.map_map, Function.comp_def, this]
    rfl
  have h2 : (m.pw c).units = m.units := rfl
  dsimp only
  rw [h1, h2, mergeFs_pw, fastStart_pw]
  refine ite_pw Iff.rfl rfl (ite_pw ?_ rfl (andThen_pw (addUnitSet_pw m rfl rfl) fun m => elasticOpt_pw hc.ne' rfl rfl v))
  rw [List.isEmpty_map]; rfl

theorem removeFastStart_pw (c : ℚ) (m : Market) : (m.pw c).removeFastStart = Res.pw c m.removeFastStart := by
  unfold Market.removeFastStart
  have h1 : (m.pw c).conRhs.has .fastStart = m.conRhs.has .fastStart :=
    Dict.has_mapkv (fun (k : CKey) (rows : List Row) => rows.map (Row.pw (rf c k))) _ _
  have h1' : (m.pw c).conRhs.erase .fastStart = (m.conRhs.erase .fastStart).map (fun d => (d.1, d.2.map (Row.pw (rf c d.1)))) :=
    Dict.erase_mapkv (fun (k : CKey) (rows : List Row) => rows.map (Row.pw (rf c k))) _ _
  have h2 : (m.pw c).deficits.has .fastStart = m.deficits.has .fastStart := Dict.has_mapkv (fun k => defSc (cf c k)) _ _
  have h3 : (m.pw c).deficits.erase .fastStart = (m.deficits.erase .fastStart).map (fun d => (d.1, defSc (cf c d.1) d.2)) :=
    Dict.erase_mapkv (fun k => defSc (cf c k)) _ _
  have h4 : Dict.get? (m.conRhs.erase .fastStart) .interpWeights = m.conRhs.get? .interpWeights := Dict.get?_erase_ne _ (by decide)
  rw [h1, h1']
  have hs : ∀ (u : Dict CKey (List ConUnit)) d, ({ m with conRhs := m.conRhs.erase .fastStart, unitCon := u, deficits := d } : Market).sumIds = m.sumIds := by
    intro u d
    unfold Market.sumIds
    dsimp only
    rw [h4]
  by_cases a : m.conRhs.has .fastStart = true
  · simp only [if_pos a]
    rw [h2, h3]
    by_cases b : m.deficits.has .fastStart = true
    · simp only [if_pos b]
      unfold Res.pw Market.pw
      rw [hs]; rfl
    · simp only [if_neg b]
      unfold Res.pw Market.pw
      rw [hs _ m.deficits]; rfl
  · simp only [if_neg a]
    rw [h2, h3]
    by_cases b : m.deficits.has .fastStart = true
    · simp only [if_pos b]; rfl
    · simp only [if_neg b]; rfl

theorem setDemand_pw {c : ℚ} (hc : c ≠ 0) (m : Market) (ds : List Demand) (v : Option VCost) :
    (m.pw c).setDemand (ds.map (Demand.inPower c)) v = Res.pw c (m.setDemand ds v) := by
  unfold Market.setDemand
  refine ite_pw ?_ rfl (andThen_pw (addRegSet_pw m rfl (energy_pw c ds _)) fun m => elasticOpt_pw hc rfl rfl v)
  simp only [List.all_map, List.map_map]; rfl

theorem setFcasReq_pw {c : ℚ} (hc : c ≠ 0) (m : Market) (ds : List FcasReq) (v : Option VCost) :
    (m.pw c).setFcasReq (ds.map (FcasReq.inPower c)) v = Res.pw c (m.setFcasReq ds v) := by
  unfold Market.setFcasReq
  refine ite_pw ?_ rfl (andThen_pw (addRegSet_pw m rfl (fcas_pw c ds _)) fun m => elasticOpt_pw hc rfl rfl v)
  simp only [List.all_map, List.map_map]; rfl

theorem trapsOk_pw {c : ℚ} (hc : 0 < c) (m : Market) (ts : List Trap) (svc : Service → Bool) :
    (m.pw c).trapsOk (ts.map (Trap.inPower c)) svc = m.trapsOk ts svc := by
  have : ∀ t : Trap, decide (0 ≤ (t.inPower c).maxAvail) = decide (0 ≤ t.maxAvail) := fun t => decide_eq_decide.2 (mul_ge_zero_iff hc t.maxAvail)
  simp only [Market.trapsOk, List.all_map, List.map_map, Function.comp_def, this]
  rfl

theorem setJointCapacity_pw {c : ℚ} (hc : 0 < c) (m : Market) (ts : List Trap) (v : Option VCost) :
    (m.pw c).setJointCapacity (ts.map (Trap.inPower c)) v = Res.pw c (m.setJointCapacity ts v) := by
  unfold Market.setJointCapacity
  rw [trapsOk_pw hc]
  refine ite_pw Iff.rfl rfl (ite_pw (by rw [List.isEmpty_map]) rfl ?_)
  exact andThen_pw (addUnitSet_pw m rfl (jointCapacity_pw hc.ne' ts _ _)) fun m => elasticOpt_pw hc.ne' rfl rfl v

theorem setEnergyReg_pw {c : ℚ} (hc : 0 < c) (m : Market) (ts : List Trap) (v : Option VCost) :
    (m.pw c).setEnergyReg (ts.map (Trap.inPower c)) v = Res.pw c (m.setEnergyReg ts v) := by
  unfold Market.setEnergyReg
  rw [trapsOk_pw hc]
  refine ite_pw Iff.rfl rfl (ite_pw (by rw [List.isEmpty_map]) rfl ?_)
  exact andThen_pw (addUnitSet_pw m rfl (energyReg_pw hc.ne' ts _)) fun m => elasticOpt_pw hc.ne' rfl rfl v

theorem setGeneric_pw {c : ℚ} (hc : c ≠ 0) (m : Market) (gs : List GenericRow) (v : Option VCost) :
    (m.pw c).setGeneric (gs.map (GenericRow.inPower c)) v = Res.pw c (m.setGeneric gs v) := by
  unfold Market.setGeneric
  refine ite_pw (by simp only [List.map_map]; rfl) rfl ?_
  have h6 : (m.pw c).nextCon = m.nextCon := rfl
  have hr : saveIndex (gs.map (GenericRow.inPower c)) m.nextCon (fun i g => ({ cid := i, ctype := g.ctype, rhs := g.rhs, set := some g.set } : Row)) =
      (saveIndex gs m.nextCon (fun i g => ({ cid := i, ctype := g.ctype, rhs := g.rhs, set := some g.set } : Row))).map (Row.pw c) := by
    simp only [saveIndex_map, map_saveIndex]; rfl
  dsimp only
  rw [h6, hr]
  generalize saveIndex gs m.nextCon (fun i g => ({ cid := i, ctype := g.ctype, rhs := g.rhs, set := some g.set } : Row)) = rows
  have hi : List.map Row.cid (rows.map (Row.pw c)) = rows.map Row.cid := by simp only [List.map_map]; rfl
  rw [List.isEmpty_map, hi]
  have key : ∀ n b, ({ m.pw c with conRhs := (m.pw c).conRhs.set .generic (rows.map (Row.pw c)), nextCon := n, nanCon := b } : Market) =
      ({ m with conRhs := m.conRhs.set .generic rows, nextCon := n, nanCon := b } : Market).pw c := by
    intro n b
    have h := pw_setCon (c := c) (m := m) (m' := { m with conRhs := m.conRhs.set .generic rows, nextCon := n, nanCon := b })
      (k := .generic) (by decide) rfl
    rw [rf_plain c rfl] at h
    rw [← h.2]
    unfold Market.pw
    rw [h.1]
    rfl
  split
  · exact elasticOpt_pw hc (key m.nextCon true) rfl v
  · exact elasticOpt_pw hc (key _ m.nanCon) rfl v

theorem bidVariables_pw {c : ℚ} {b : List BidRow} (hb : ∀ r ∈ b, ∀ e ∈ r.bands, (1 / 10000 ≤ c * e.2 ↔ 1 / 10000 ≤ e.2)) (n : Nat) :
    bidVariables (b.map (BidRow.inPower c)) n = (bidVariables b n).map (BidVar.pw c) := by
  have hm : meltVolumes (b.map (BidRow.inPower c)) = (meltVolumes b).map (BidVar.pw c) := by
    simp only [meltVolumes]
    have e : (b.map (BidRow.inPower c)).flatMap (fun r => r.bands.map (fun b =>
        ({ unit := r.unit, band := b.1, service := r.service, dtype := r.dtype, vid := 0, ub := b.2 } : BidVar))) =
        (b.flatMap (fun r => r.bands.map (fun b =>
          ({ unit := r.unit, band := b.1, service := r.service, dtype := r.dtype, vid := 0, ub := b.2 } : BidVar)))).map (BidVar.pw c) := by
      rw [List.flatMap_map, List.map_flatMap]
      congr 1
      funext r
      simp only [BidRow.inPower, List.map_map]
      rfl
    rw [e, List.filter_map]
    congr 1
    apply List.filter_congr
    intro v hv
    simp only [List.mem_flatMap, List.mem_map] at hv
    obtain ⟨r, hr, e, he, rfl⟩ := hv
    exact decide_eq_decide.2 (hb r hr e he)
  unfold bidVariables
  rw [hm, ← List.map_insertionSort BidVar.before BidVar.before (BidVar.pw c) _ (fun _ _ _ _ => Iff.rfl), saveIndex_map, map_saveIndex]
  rfl

theorem setVolumeBids_pw {c : ℚ} (hc : 0 < c) (m : Market) {b : List BidRow}
    (hb : ∀ r ∈ b, ∀ e ∈ r.bands, (1 / 10000 ≤ c * e.2 ↔ 1 / 10000 ≤ e.2)) :
    (m.pw c).setVolumeBids (b.map (BidRow.inPower c)) = Res.pw c (m.setVolumeBids b) := by
  unfold Market.setVolumeBids
  have h1 : (m.pw c).volumeBidsOk (b.map (BidRow.inPower c)) = m.volumeBidsOk b := by
    have : ∀ x : ℚ, decide (0 ≤ c * x) = decide (0 ≤ x) := fun x => decide_eq_decide.2 (mul_ge_zero_iff hc x)
    simp only [Market.volumeBidsOk, List.all_map, List.map_map, Function.comp_def, BidRow.inPower, this]
    rfl
  have h2 : energyUnits (b.map (BidRow.inPower c)) = energyUnits b := by
    simp only [energyUnits, List.filter_map, List.map_map]
    rfl
  have h3 : (m.pw c).bidi = m.bidi := rfl
  have h4 : (m.pw c).units = m.units := rfl
  have h5 : (m.pw c).nextVar = m.nextVar := rfl
  dsimp only
  rw [h1, h2, h3, h4, h5, bidVariables_pw hb]
  refine ite_pw Iff.rfl rfl (ite_pw Iff.rfl rfl ?_)
  have h6 : bidUnitMap ((bidVariables b m.nextVar).map (BidVar.pw c)) m.units m.bidi = bidUnitMap (bidVariables b m.nextVar) m.units m.bidi := by
    simp only [bidUnitMap, List.flatMap_map]; rfl
  have h7 : bidRegMap ((bidVariables b m.nextVar).map (BidVar.pw c)) m.units = bidRegMap (bidVariables b m.nextVar) m.units := by
    simp only [bidRegMap, List.flatMap_map]; rfl
  have h8 : ((bidVariables b m.nextVar).map (BidVar.pw c)).map BidVar.vid = (bidVariables b m.nextVar).map BidVar.vid := by
    simp only [List.map_map]; rfl
  rw [h6, h7, h8]
  exact ite_pw (by rw [List.isEmpty_map]) rfl rfl

theorem setPriceBids_pw (c : ℚ) (m : Market) (ps : List BidRow) :
    (m.pw c).setPriceBids ps = Res.pw c (m.setPriceBids ps) := by
  unfold Market.setPriceBids
  have h3 : (m.pw c).bids = m.bids.map (List.map (BidVar.pw c)) := rfl
  rw [h3]
  cases m.bids with
  | none => rfl
  | some vars =>
    dsimp only [Option.map_some]
    have h1 : bidCosts (vars.map (BidVar.pw c)) ps = bidCosts vars ps := by
      simp only [bidCosts, List.flatMap_map]; rfl
    rw [h1]
    exact ite_pw Iff.rfl rfl (ite_pw Iff.rfl rfl rfl)

theorem tieBids_pw (c : ℚ) (l : List BidCost) (vars : List BidVar) (us : List UnitInfo) :
    tieBids l (vars.map (BidVar.pw c)) us = (tieBids l vars us).map (TieBid.pw c) := by
  simp only [tieBids, List.filter_map, List.map_flatMap, List.flatMap_assoc, List.map_map, List.flatMap_map]
  rfl

theorem tiePairs_pw (c : ℚ) (l : List TieBid) :
    tiePairs (l.map (TieBid.pw c)) = (tiePairs l).map (fun p => (p.1.pw c, p.2.pw c)) := by
  unfold tiePairs
  rw [← dropDup_map_key (fun p : TieBid × TieBid => (p.1.pw c, p.2.pw c)) (fun p => tieName p.1 p.2) (fun p => tieName p.1 p.2) (fun _ => rfl)]
  congr 1
  simp only [List.flatMap_map, List.map_flatMap, List.filter_map, List.map_map]
  rfl

theorem tieConstraints_pw (c : ℚ) (ps : List (TieBid × TieBid)) (n : Nat) :
    tieConstraints (ps.map (fun p => (p.1.pw c, p.2.pw c))) n = ((tieConstraints ps n).1.map (Term.mul c⁻¹), (tieConstraints ps n).2) := by
  simp only [tieConstraints, saveIndex_map, List.map_append, map_saveIndex]
  refine Prod.ext ?_ rfl
  dsimp only
  congr 1
  · congr 1
    funext i p
    simp only [TieBid.pw, Term.mul, Term.mk.injEq, true_and]
    rw [one_div, one_div, mul_inv]
  · congr 1
    funext i p
    simp only [TieBid.pw, Term.mul, Term.mk.injEq, true_and]
    rw [div_eq_mul_inv, div_eq_mul_inv, mul_inv]; ring

theorem setTieBreak_pw {c : ℚ} (hc : c ≠ 0) (m : Market) (v : ℚ) :
    (m.pw c).setTieBreak (c * v) = Res.pw c (m.setTieBreak v) := by
  unfold Market.setTieBreak
  have h3 : (m.pw c).bids = m.bids.map (List.map (BidVar.pw c)) := rfl
  have h4 : (m.pw c).bidCost = m.bidCost := rfl
  rw [h3, h4]
  cases hb : m.bidCost with
  | none => rfl
  | some costs =>
    cases hv : m.bids with
    | none => rfl
    | some vars =>
      dsimp only [Option.map_some]
      have h5 : (m.pw c).units = m.units := rfl
      have h6 : (m.pw c).nextCon = m.nextCon := rfl
      rw [h5, h6, tieBids_pw, tiePairs_pw, tieConstraints_pw, List.isEmpty_map]
      refine ite_pw Iff.rfl rfl ?_
      generalize tieConstraints (tiePairs (tieBids costs vars m.units)) m.nextCon = t
      have hrow : t.2.map (Row.pw (rf c .tieBreak)) = t.2 := by
        conv_rhs => rw [← List.map_id t.2]
        refine List.map_congr_left fun r _ => ?_
        simp [rf, CKey.isShare, Row.pw]
      have h := pw_setCon (c := c) (m := m) (m' := { m with tieLhs := some t.1, conRhs := m.conRhs.set .tieBreak t.2, nextCon := nextAfter (t.2.map Row.cid) })
        (k := .tieBreak) (rows := t.2) (by decide) rfl
      rw [hrow] at h
      refine makeElastic_pwM hc ?_ .tieBreak (.num v)
      dsimp only
      rw [← h.2]
      have h1 := h.1
      simp only [hb, hv] at h1
      simp only [Market.pw, Market.pwWith, hb, hv, Option.map_some, h1]

theorem setInterconnectors_pw (c : ℚ) (m : Market) (ds : List InterDef) :
    (m.pw c).setInterconnectors (ds.map (InterDef.inPower c)) = Res.pw c (m.setInterconnectors ds) := by
  unfold Market.setInterconnectors
  have h1 : (m.pw c).interDefsOk (ds.map (InterDef.inPower c)) = m.interDefsOk ds := by
    simp only [Market.interDefsOk, List.all_map, List.map_map]; rfl
  have h2 : interVariables (ds.map (InterDef.inPower c)) m.nextVar = (interVariables ds m.nextVar).map (InterVar.pw c) := by
    simp only [interVariables, saveIndex_map, map_saveIndex]; rfl
  have h3 : interMap (ds.map (InterDef.inPower c)) m.nextVar = interMap ds m.nextVar := by
    simp only [interMap, saveIndex_map]; rfl
  have h4 : ((interVariables ds m.nextVar).map (InterVar.pw c)).map InterVar.vid = (interVariables ds m.nextVar).map InterVar.vid := by
    simp only [List.map_map]; rfl
  have h5 : (m.pw c).nextVar = m.nextVar := rfl
  dsimp only
  rw [h1, h5, h2, h3, h4]
  exact ite_pw Iff.rfl rfl (ite_pw (by rw [List.isEmpty_map]) rfl rfl)

theorem mergeFrom_pw (c : ℚ) (fs : List LossFn) (ds : List InterDef) :
    mergeFromRegion (fs.map (LossFn.inPower c)) (ds.map (InterDef.inPower c)) = (mergeFromRegion fs ds).map (LossFnR.pw c) := by
  simp only [mergeFromRegion, List.flatMap_map, List.map_flatMap, List.filter_map, List.map_map]
  rfl

theorem lossAux_pw {c : ℚ} (hc : 0 < c) (vs : List InterVar) (fr : List LossFnR) (n : Nat) :
    lossVariablesAux (vs.map (InterVar.pw c)) (fr.map (LossFnR.pw c)) n = (lossVariablesAux vs fr n).map (fun p => (p.1.pw c, p.2.pw c)) := by
  have h : ∀ x y : ℚ, max |c * x| |c * y| = c * max |x| |y| := by
    intro x y
    rw [abs_mul, abs_mul, abs_of_pos hc, mul_max_of_nonneg _ _ hc.le]
  have e : saveIndex (vs.map (InterVar.pw c)) n (fun i v => LossVar.mk v.inter v.link i (-1 * Max.max (|v.lb|) (|v.ub|)) (Max.max (|v.lb|) (|v.ub|))) =
      (saveIndex vs n (fun i v => LossVar.mk v.inter v.link i (-1 * Max.max (|v.lb|) (|v.ub|)) (Max.max (|v.lb|) (|v.ub|)))).map (LossVar.pw c) := by
    simp only [saveIndex_map, map_saveIndex]
    congr 1
    funext i v
    simp only [InterVar.pw, LossVar.pw, h, LossVar.mk.injEq, true_and, and_true]
    ring
  unfold lossVariablesAux
  rw [e]
  simp only [List.flatMap_map, List.map_flatMap, List.filter_map, List.map_map]
  rfl

theorem lossVariables_pw {c : ℚ} (hc : 0 < c) (vs : List InterVar) (fr : List LossFnR) (n : Nat) :
    lossVariables (vs.map (InterVar.pw c)) (fr.map (LossFnR.pw c)) n = (lossVariables vs fr n).map (LossVar.pw c) := by
  simp only [lossVariables, lossAux_pw hc, List.map_map]
  rfl

theorem lossMap_pw {c : ℚ} (hc : 0 < c) (vs : List InterVar) (im : List InterMap) (fr : List LossFnR) (n : Nat) :
    lossMap (vs.map (InterVar.pw c)) im (fr.map (LossFnR.pw c)) n = lossMap vs im fr n := by
  simp only [lossMap, lossAux_pw hc, List.flatMap_map]
  rfl

theorem weightConIds_pw (c : ℚ) (ws : List WeightVar) (n : Nat) : weightConIds (ws.map (WeightVar.pw c)) n = weightConIds ws n := by
  unfold weightConIds
  rw [dropDup_map_key (WeightVar.pw c) _ (fun w => (w.inter, w.link)) (fun _ => rfl), saveIndex_map]
  rfl

theorem weightTerms_pw (c f : ℚ) (ws : List WeightVar) (n : Nat) (g g' : WeightVar → ℚ) (h : ∀ w, g' (w.pw c) = f * g w) :
    weightTerms (ws.map (WeightVar.pw c)) n g' = (weightTerms ws n g).map (Term.mul f) := by
  unfold weightTerms
  rw [weightConIds_pw, List.flatMap_map, List.map_flatMap]
  congr 1
  funext w
  rw [List.map_map]
  refine List.map_congr_left fun e _ => ?_
  simp only [Function.comp, Term.mul, h]
  rfl

theorem sumToOne_pw (c : ℚ) (ws : List WeightVar) (n : Nat) : weightsSumToOne (ws.map (WeightVar.pw c)) n = weightsSumToOne ws n := by
  unfold weightsSumToOne
  rw [weightConIds_pw, weightTerms_pw c 1 ws n (fun _ => 1) (fun _ => 1) (fun _ => by rw [mul_one])]
  refine Prod.ext ?_ rfl
  dsimp only
  conv_rhs => rw [← List.map_id (weightTerms ws n fun _ => 1)]
  refine List.map_congr_left fun r _ => ?_
  simp [Term.mul]

theorem linkLoss_pw {c : ℚ} (hc : 0 < c) (ws : List WeightVar) (ls : List LossVar) (fr : List LossFnR) (n : Nat) :
    linkLossToWeights (ws.map (WeightVar.pw c)) (ls.map (LossVar.pw c)) (fr.map (LossFnR.pw c)) n =
      ((linkLossToWeights ws ls fr n).1.map (Term.mul c), (linkLossToWeights ws ls fr n).2) := by
  unfold linkLossToWeights
  dsimp only
  rw [weightConIds_pw]
  refine Prod.ext ?_ ?_
  · dsimp only
    rw [List.flatMap_map, List.map_flatMap]
    congr 1
    funext w
    rw [List.map_flatMap]
    congr 1
    funext e
    rw [List.filter_map, List.map_map, List.map_map]
    refine List.map_congr_left fun f _ => ?_
    simp only [Function.comp, LossFnR.pw, WeightVar.pw, Term.mul, mul_div_cancel_left₀ _ hc.ne']
  · dsimp only
    congr 1
    funext e
    rw [List.filter_map, List.map_map]
    rfl

theorem linkFlow_pw (c : ℚ) (ws : List WeightVar) (vs : List InterVar) (n : Nat) :
    linkWeightsToFlow (ws.map (WeightVar.pw c)) (vs.map (InterVar.pw c)) n =
      ((linkWeightsToFlow ws vs n).1.map (Term.mul c), (linkWeightsToFlow ws vs n).2) := by
  unfold linkWeightsToFlow
  rw [weightConIds_pw, weightTerms_pw c c ws n (fun w => w.bp) (fun w => w.bp) (fun _ => rfl)]
  refine Prod.ext rfl ?_
  dsimp only
  congr 1
  funext e
  rw [List.filter_map, List.map_map]
  rfl

/-- the ids of the constraints on losses are not those of the sums of weights -/
theorem losses_cids {m : Market} (hI : InterWF m) {fs : List LossFn} {ds : List InterDef} {vs : List InterVar}
    (hds : m.dirs = some ds) (hvs : m.inters = some vs) (n : Nat) {ws : List WeightVar} (k : Nat)
    (hne : (linkLossToWeights ws (lossVariables vs (mergeFromRegion fs ds) n) (mergeFromRegion fs ds)
      (nextAfter ((weightsSumToOne ws k).2.map Row.cid))).1 ≠ []) :
    let ll := linkLossToWeights ws (lossVariables vs (mergeFromRegion fs ds) n) (mergeFromRegion fs ds) (nextAfter ((weightsSumToOne ws k).2.map Row.cid))
    let lf := linkWeightsToFlow ws vs (nextAfter (ll.2.map DynRow.cid))
    (∀ t ∈ (weightsSumToOne ws k).1, t.cid ∈ (weightsSumToOne ws k).2.map Row.cid) ∧
    (∀ t ∈ lf.1 ++ ll.1, t.cid ∉ (weightsSumToOne ws k).2.map Row.cid ∧ k ≤ t.cid) ∧
    (∀ r ∈ lf.2 ++ ll.2, r.cid ∉ (weightsSumToOne ws k).2.map Row.cid ∧ k ≤ r.cid) ∧
    (∀ i ∈ (weightsSumToOne ws k).2.map Row.cid, k ≤ i) := by
  intro ll lf
  obtain ⟨n0, hvs', -⟩ : ∃ n0, vs = interVariables ds n0 ∧ m.interDefsOk ds = true := by
    rcases hI with ⟨h, _⟩ | ⟨ds', n, h1, h2, h3, h4⟩
    · rw [h] at hds; exact absurd hds (by simp)
    · rw [h1] at hds; injection hds with hds; subst hds
      rw [h2] at hvs; injection hvs with hvs; exact ⟨n, hvs.symm, h4⟩
  have hS : ∀ i ∈ (weightsSumToOne ws k).2.map Row.cid, k ≤ i := by
    intro i hi
    simp only [weightsSumToOne, List.map_map, List.mem_map, Function.comp] at hi
    obtain ⟨e, he, rfl⟩ := hi
    exact (weightConIds_facts ws k).2.1 e he
  obtain ⟨i0, hi0⟩ : ∃ i, i ∈ (weightsSumToOne ws k).2.map Row.cid := by
    have hw : ws ≠ [] := by rintro rfl; exact hne (by simp [linkLossToWeights])
    obtain ⟨w, hw⟩ := List.exists_mem_of_ne_nil _ hw
    obtain ⟨e, he, -⟩ := (weightConIds_facts ws k).2.2.2.1 w hw
    exact ⟨e.1, by simp only [weightsSumToOne, List.map_map, List.mem_map, Function.comp]; exact ⟨e, he, rfl⟩⟩
  have hk : k < nextAfter ((weightsSumToOne ws k).2.map Row.cid) := lt_of_le_of_lt (hS i0 hi0) (lt_nextAfter hi0)
  have hout : ∀ i, nextAfter ((weightsSumToOne ws k).2.map Row.cid) ≤ i → i ∉ (weightsSumToOne ws k).2.map Row.cid ∧ k ≤ i := by
    intro i hi
    exact ⟨fun h => absurd (lt_nextAfter h) (by omega), by omega⟩
  have hll : ∀ t ∈ ll.1, nextAfter ((weightsSumToOne ws k).2.map Row.cid) ≤ t.cid := by
    intro t ht
    simp only [ll, linkLossToWeights, List.mem_flatMap, List.mem_map] at ht
    obtain ⟨w, _, e, he, f, _, rfl⟩ := ht
    exact (weightConIds_facts ws _).2.1 e (List.mem_filter.1 he).1
  have hll2 : ∀ r ∈ ll.2, nextAfter ((weightsSumToOne ws k).2.map Row.cid) ≤ r.cid := by
    intro r hr
    simp only [ll, linkLossToWeights, List.mem_flatMap, List.mem_map] at hr
    obtain ⟨e, he, l, _, rfl⟩ := hr
    exact (weightConIds_facts ws _).2.1 e he
  obtain ⟨r0, hr0⟩ : ∃ r, r ∈ ll.2 := by
    obtain ⟨t, ht⟩ := List.exists_mem_of_ne_nil _ hne
    simp only [linkLossToWeights, List.mem_flatMap, List.mem_map] at ht
    obtain ⟨w, hw, e, he, f, hf, rfl⟩ := ht
    simp only [List.mem_filter, decide_eq_true_eq] at he hf
    have hf' := hf.1
    simp only [mergeFromRegion, List.mem_flatMap, List.mem_map, List.mem_filter, decide_eq_true_eq] at hf'
    obtain ⟨f0, _, d, ⟨hd1, hd2, hd3⟩, hfe⟩ := hf'
    obtain ⟨j, hj⟩ := List.mem_iff_getElem?.1 hd1
    have hv : ({ inter := d.inter, link := d.link, vid := n0 + j, lb := d.min, ub := d.max, gcf := d.gcf } : InterVar) ∈ vs := by
      rw [hvs']; exact mem_saveIndex.2 ⟨j, d, hj, rfl⟩
    have e1 : f.inter = d.inter := by rw [← hfe]; exact hd2.symm
    have e2 : f.link = d.link := by rw [← hfe]; exact hd3.symm
    obtain ⟨l, hl, h3, h4⟩ := mem_lossVariables_of (n := n) hv hf.1 e1 e2
    refine ⟨⟨e.1, .eq, l.vid⟩, ?_⟩
    simp only [ll, linkLossToWeights, List.mem_flatMap, List.mem_map, List.mem_filter, decide_eq_true_eq]
    exact ⟨e, he.1, l, ⟨hl, by rw [h3, he.2.1, ← hf.2.1, e1], by rw [h4, he.2.2, ← hf.2.2, e2]⟩, rfl⟩
  have hnl : nextAfter ((weightsSumToOne ws k).2.map Row.cid) ≤ nextAfter (ll.2.map DynRow.cid) :=
    (lt_of_le_of_lt (hll2 r0 hr0) (lt_nextAfter (List.mem_map_of_mem hr0))).le
  refine ⟨?_, ?_, ?_, hS⟩
  · intro t ht
    simp only [weightsSumToOne, weightTerms, List.mem_flatMap, List.mem_map] at ht
    obtain ⟨w, _, e, he, rfl⟩ := ht
    simp only [weightsSumToOne, List.map_map, List.mem_map, Function.comp]
    exact ⟨e, (List.mem_filter.1 he).1, rfl⟩
  · intro t ht
    rcases List.mem_append.1 ht with ht | ht
    · simp only [lf, linkWeightsToFlow, weightTerms, List.mem_flatMap, List.mem_map] at ht
      obtain ⟨w, _, e, he, rfl⟩ := ht
      exact hout _ (hnl.trans ((weightConIds_facts ws _).2.1 e (List.mem_filter.1 he).1))
    · exact hout _ (hll t ht)
  · intro r hr
    rcases List.mem_append.1 hr with hr | hr
    · simp only [lf, linkWeightsToFlow, List.mem_flatMap, List.mem_map] at hr
      obtain ⟨e, he, v, _, rfl⟩ := hr
      exact hout _ (hnl.trans ((weightConIds_facts ws _).2.1 e he))
    · exact hout _ (hll2 r hr)

theorem setLosses_pw {c : ℚ} (hc : 0 < c) (m : Market) (hI : InterWF m) (fs : List LossFn) (bs : List BreakPt) :
    (m.pw c).setLosses (fs.map (LossFn.inPower c)) (bs.map (BreakPt.inPower c)) = Res.pw c (m.setLosses fs bs) := by
  unfold Market.setLosses
  have h0 : lossInputsOk (fs.map (LossFn.inPower c)) (bs.map (BreakPt.inPower c)) = lossInputsOk fs bs := by
    simp only [lossInputsOk, List.all_map, List.map_map]; rfl
  have h1 : (m.pw c).dirs = m.dirs.map (List.map (InterDef.inPower c)) := rfl
  have h2 : (m.pw c).inters = m.inters.map (List.map (InterVar.pw c)) := rfl
  have h3 : (m.pw c).interReg = m.interReg := rfl
  have h4 : (m.pw c).nextVar = m.nextVar := rfl
  have h5 : (m.pw c).nextCon = m.nextCon := rfl
  have h6 : (fs.map (LossFn.inPower c)).map (fun f => (f.inter, f.link, f.share)) = fs.map (fun f => (f.inter, f.link, f.share)) := by
    simp only [List.map_map]; rfl
  dsimp only
  rw [h0, h1, h2, h3, h4, h5, h6]
  refine ite_pw Iff.rfl rfl ?_
  cases hds : m.dirs with
  | none => rfl
  | some ds =>
    cases hvs : m.inters with
    | none => rfl
    | some vs =>
      cases him : m.interReg with
      | none => rfl
      | some im =>
        dsimp only [Option.map_some]
        have hw : ∀ n, weightVariables (bs.map (BreakPt.inPower c)) n = (weightVariables bs n).map (WeightVar.pw c) := by
          intro n
          simp only [weightVariables, saveIndex_map, map_saveIndex]; rfl
        have hl : ∀ l : List LossVar, (l.map (LossVar.pw c)).map LossVar.vid = l.map LossVar.vid := by
          intro l; simp only [List.map_map]; rfl
        have hwv : ∀ l : List WeightVar, (l.map (WeightVar.pw c)).map WeightVar.vid = l.map WeightVar.vid := by
          intro l; simp only [List.map_map]; rfl
        rw [mergeFrom_pw, lossVariables_pw hc, lossMap_pw hc, hl, hw, hwv, sumToOne_pw, linkLoss_pw hc, linkFlow_pw]
        dsimp only
        generalize hws : weightVariables bs (nextAfter ((lossVariables vs (mergeFromRegion fs ds) m.nextVar).map LossVar.vid)) = ws
        by_cases hne : (linkLossToWeights ws (lossVariables vs (mergeFromRegion fs ds) m.nextVar) (mergeFromRegion fs ds)
            (nextAfter ((weightsSumToOne ws m.nextCon).2.map Row.cid))).1 = []
        · rw [hne]
          rfl
        · have hf := losses_cids hI hds hvs m.nextVar m.nextCon hne
          dsimp only at hf
          obtain ⟨f1, f2, -, -⟩ := hf
          generalize hll : linkLossToWeights ws (lossVariables vs (mergeFromRegion fs ds) m.nextVar) (mergeFromRegion fs ds)
            (nextAfter ((weightsSumToOne ws m.nextCon).2.map Row.cid)) = ll at *
          generalize hlf : linkWeightsToFlow ws vs (nextAfter (ll.2.map DynRow.cid)) = lf at *
          generalize hs : weightsSumToOne ws m.nextCon = s at *
          have hl : s.1 ++ lf.1.map (Term.mul c) ++ ll.1.map (Term.mul c) = (s.1 ++ lf.1 ++ ll.1).map (Term.link c (s.2.map Row.cid)) := by
            have e1 : s.1 = s.1.map (Term.link c (s.2.map Row.cid)) := by
              conv_lhs => rw [← List.map_id s.1]
              refine List.map_congr_left fun t ht => ?_
              simp only [Term.link, if_pos (f1 t ht), id_eq]
            have e2 : (lf.1 ++ ll.1).map (Term.mul c) = (lf.1 ++ ll.1).map (Term.link c (s.2.map Row.cid)) := by
              refine List.map_congr_left fun t ht => ?_
              simp only [Term.link, if_neg (f2 t ht).1]
              rfl
            have e3 : s.1 ++ (lf.1 ++ ll.1).map (Term.link c (s.2.map Row.cid)) = (s.1 ++ (lf.1 ++ ll.1)).map (Term.link c (s.2.map Row.cid)) := by
              rw [List.map_append (l₁ := s.1), ← e1]
            rw [List.append_assoc, List.append_assoc, ← List.map_append, e2, e3]
          have hrow : s.2.map (Row.pw (rf c .interpWeights)) = s.2 := by
            conv_rhs => rw [← List.map_id s.2]
            refine List.map_congr_left fun r _ => ?_
            simp [rf, CKey.isShare, Row.pw]
          have hset : (m.pw c).conRhs.set .interpWeights s.2 = (m.conRhs.set .interpWeights s.2).map (fun d => (d.1, d.2.map (Row.pw (rf c d.1)))) := by
            have := Dict.set_mapkv (fun (k : CKey) (rows : List Row) => rows.map (Row.pw (rf c k))) m.conRhs .interpWeights s.2
            rw [hrow] at this
            exact this
          have he : ll.1.isEmpty = false := by
            cases h : ll.1 with
            | nil => exact absurd h hne
            | cons a l => rfl
          rw [List.isEmpty_map, he]
          simp only [Bool.false_eq_true, if_false]
          refine Prod.ext ?_ rfl
          dsimp only
          rw [hl, hset]
          simp only [Res.pw, Market.pw, Market.sumIds, Dict.get?_set_self, Option.getD_some]
          rfl


theorem step_pw {c : ℚ} (hc : 0 < c) (m : Market) (hI : InterWF m) (op : Op) (hb : op.bandsKept c) :
    (m.pw c).step (op.inPower c) = Res.pw c (m.step op) := by
  have hn : (m.pw c).nanCon = m.nanCon := rfl
  unfold Market.step
  rw [hn]
  refine ite_pw Iff.rfl rfl ?_
  cases op with
  | volumeBids b => exact setVolumeBids_pw hc m hb
  | priceBids b => exact setPriceBids_pw c m b
  | capacity l v => exact setCapacity_pw hc.ne' m l v
  | uigf l v => exact setUigf_pw hc.ne' m l v
  | rampRates r sc ps rt v => exact setRampRates_pw hc m r sc ps rt v
  | fastStart p v => exact setFastStart_pw hc m p v
  | removeFastStart => exact removeFastStart_pw c m
  | demand d v => exact setDemand_pw hc.ne' m d v
  | fcasReq r v => exact setFcasReq_pw hc.ne' m r v
  | fcasMaxAvail l v => exact setFcasMaxAvail_pw hc m l v
  | jointRamping r ps rt v => exact setJointRamping_pw hc m r ps rt v
  | jointCapacity t v => exact setJointCapacity_pw hc m t v
  | energyReg t v => exact setEnergyReg_pw hc m t v
  | interconnectors d => exact setInterconnectors_pw c m d
  | losses f b => exact setLosses_pw hc m hI f b
  | generic g v => exact setGeneric_pw hc.ne' m g v
  | linkUnits g => exact ite_pw Iff.rfl rfl rfl
  | linkRegions g => exact ite_pw Iff.rfl rfl rfl
  | linkInters g => exact ite_pw Iff.rfl rfl rfl
  | elastic k v => exact makeElastic_pw hc.ne' m k v
  | tieBreak v => exact setTieBreak_pw hc.ne' m v

theorem init_pw {regions : List String} {units : List UnitInfo} {di : ℚ} {m0 : Market}
    (h0 : Market.init regions units di = .ok m0) (c : ℚ) : m0.pw c = m0 := by
  unfold Market.init at h0
  split at h0
  · simp only [Except.ok.injEq] at h0
    subst h0; rfl
  · cases h0


theorem interWF_run {m : Market} (h : InterWF m) (ops : List Op) : InterWF (m.run ops) :=
  run_invariant (good := False) (fun _ _ _ hp hq => interWF_prim hp hq) (fun h => h.elim) h

theorem interWF_step {m : Market} (h : InterWF m) (op : Op) : InterWF (m.step op).1 := interWF_run h [op]

theorem interWF_init {regions : List String} {units : List UnitInfo} {di : ℚ} {m0 : Market}
    (h0 : Market.init regions units di = .ok m0) : InterWF m0 := by
  unfold Market.init at h0
  split at h0
  · simp only [Except.ok.injEq] at h0
    subst h0; exact Or.inl ⟨rfl, rfl, rfl⟩
  · cases h0

theorem run_pw {c : ℚ} (hc : 0 < c) {m : Market} (hI : InterWF m) {ops : List Op} (hb : ∀ op ∈ ops, op.bandsKept c) :
    (m.pw c).run (ops.map (Op.inPower c)) = (m.run ops).pw c := by
  induction ops generalizing m with
  | nil => rfl
  | cons o ops ih =>
    show Market.run ((m.pw c).step (o.inPower c)).1 (ops.map (Op.inPower c)) = _
    rw [step_pw hc m hI o (hb o (List.mem_cons_self ..))]
    exact ih (interWF_step hI o) (fun op h => hb op (List.mem_cons_of_mem _ h))

end Verif
