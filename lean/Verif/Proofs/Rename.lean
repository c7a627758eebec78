import Verif.Proofs.Refs
import Mathlib.Logic.Function.Basic

/-! Renaming of variable and constraint ids.  Two markets whose histories differ in some calls number their
variables and constraints differently; the builders commute with the renaming. -/

namespace Verif

/-- `f` renames ids: ids below the counter `n` go below the counter `n'`, ids from `n` on are shifted. -/
structure Ren (f : Nat → Nat) (n n' : Nat) : Prop where
  inj : Function.Injective f
  low : ∀ i, i < n → f i < n'
  tail : ∀ i, n ≤ i → f i + n = i + n'

theorem Ren.next {f : Nat → Nat} {n n' : Nat} (h : Ren f n n') : f n = n' := by
  have := h.tail n (le_refl n); omega

theorem Ren.add {f : Nat → Nat} {n n' : Nat} (h : Ren f n n') (k : Nat) : Ren f (n + k) (n' + k) where
  inj := h.inj
  low := by
    intro i hi
    by_cases hn : i < n
    · have := h.low i hn; omega
    · have := h.tail i (by omega); omega
  tail := by
    intro i hi
    have := h.tail i (by omega); omega

theorem Ren.iff {f : Nat → Nat} {n n' : Nat} (h : Ren f n n') {a b : Nat} : f a = f b ↔ a = b :=
  ⟨fun e => h.inj e, fun e => by rw [e]⟩

/-- the renaming with another shift of the ids that are not yet in use -/
def retail (f : Nat → Nat) (n n' : Nat) (i : Nat) : Nat := if i < n then f i else i - n + n'

theorem Ren.retail {f : Nat → Nat} {n n' n'' : Nat} (h : Ren f n n') (hn : n' ≤ n'') : Ren (retail f n n'') n n'' where
  inj := by
    intro a b hab
    unfold Verif.retail at hab
    split at hab <;> split at hab
    · exact h.inj hab
    · have := h.low a (by assumption); omega
    · have := h.low b (by assumption); omega
    · omega
  low := by
    intro i hi
    unfold Verif.retail
    rw [if_pos hi]
    have := h.low i hi; omega
  tail := by
    intro i hi
    unfold Verif.retail
    rw [if_neg (by omega)]; omega

theorem retail_low {f : Nat → Nat} {n n'' i : Nat} (hi : i < n) : retail f n n'' i = f i := if_pos hi

theorem saveIndex_ren {α β : Type} {f : Nat → Nat} {n n' : Nat} (h : Ren f n n') (l : List α) (F : Nat → α → β)
    (r : β → β) (hF : ∀ i a, F (f i) a = r (F i a)) : saveIndex l n' F = (saveIndex l n F).map r := by
  induction l generalizing n n' with
  | nil => rfl
  | cons a l ih =>
    simp only [saveIndex, List.map_cons, ih (h.add 1)]
    rw [← hF, h.next]

theorem nextAfter_ren {f : Nat → Nat} {n n' : Nat} (h : Ren f n n') {l : List Nat} (hne : l ≠ []) (hl : ∀ i ∈ l, n ≤ i) :
    Ren f (nextAfter l) (nextAfter (l.map f)) := by
  have hle := le_nextAfter hl hne
  have : nextAfter (l.map f) + n = nextAfter l + n' := by
    apply le_antisymm
    · have hp : 1 ≤ nextAfter l := by unfold nextAfter; omega
      have : (l.map f).foldl max 0 ≤ nextAfter l - 1 + n' - n := by
        apply foldl_max_le (by omega)
        intro i hi
        obtain ⟨j, hj, rfl⟩ := List.mem_map.1 hi
        have h1 := h.tail j (hl j hj)
        have h2 := lt_nextAfter hj
        omega
      have hne' : ∃ j, j ∈ l := List.exists_mem_of_ne_nil l hne
      obtain ⟨j, hj⟩ := hne'
      have h2 := lt_nextAfter hj
      have h3 := hl j hj
      unfold nextAfter at *
      omega
    · have : l.foldl max 0 ≤ nextAfter (l.map f) + n - n' - 1 := by
        apply foldl_max_le (by omega)
        intro i hi
        have h1 := h.tail i (hl i hi)
        have h2 := lt_nextAfter (List.mem_map.2 ⟨i, hi, rfl⟩ : f i ∈ l.map f)
        omega
      obtain ⟨j, hj⟩ := List.exists_mem_of_ne_nil l hne
      have h1 := h.tail j (hl j hj)
      have h2 := lt_nextAfter (List.mem_map.2 ⟨j, hj, rfl⟩ : f j ∈ l.map f)
      have h3 := hl j hj
      have h4 : nextAfter l = l.foldl max 0 + 1 := rfl
      omega
  refine ⟨h.inj, ?_, ?_⟩
  · intro i hi
    by_cases hn : i < n
    · have := h.low i hn; omega
    · have := h.tail i (by omega); omega
  · intro i hi
    have := h.tail i (by omega); omega

/-! ### Renaming rows -/

def BidVar.ren (f : Nat → Nat) (v : BidVar) : BidVar := { v with vid := f v.vid }
def VarUnit.ren (f : Nat → Nat) (v : VarUnit) : VarUnit := { v with vid := f v.vid }
def VarReg.ren (f : Nat → Nat) (v : VarReg) : VarReg := { v with vid := f v.vid }
def BidCost.ren (f : Nat → Nat) (v : BidCost) : BidCost := { v with vid := f v.vid }
def InterVar.ren (f : Nat → Nat) (v : InterVar) : InterVar := { v with vid := f v.vid }
def InterMap.ren (f : Nat → Nat) (v : InterMap) : InterMap := { v with vid := f v.vid }
def LossVar.ren (f : Nat → Nat) (v : LossVar) : LossVar := { v with vid := f v.vid }
def WeightVar.ren (f : Nat → Nat) (v : WeightVar) : WeightVar := { v with vid := f v.vid }
def DefVar.ren (f : Nat → Nat) (v : DefVar) : DefVar := { v with vid := f v.vid }
def Term.ren (f g : Nat → Nat) (t : Term) : Term := { t with cid := g t.cid, vid := f t.vid }
def Row.ren (g : Nat → Nat) (r : Row) : Row := { r with cid := g r.cid }
def ConUnit.ren (g : Nat → Nat) (r : ConUnit) : ConUnit := { r with cid := g r.cid }
def ConReg.ren (g : Nat → Nat) (r : ConReg) : ConReg := { r with cid := g r.cid }
def DynRow.ren (f g : Nat → Nat) (r : DynRow) : DynRow := { r with cid := g r.cid, rhsVid := f r.rhsVid }
def TieBid.ren (f : Nat → Nat) (v : TieBid) : TieBid := { v with vid := f v.vid }
def renDef (f g : Nat → Nat) (d : List DefVar × List Term) : List DefVar × List Term :=
  (d.1.map (DefVar.ren f), d.2.map (Term.ren f g))
def renUnit (g : Nat → Nat) (t : List Row × List ConUnit) : List Row × List ConUnit :=
  (t.1.map (Row.ren g), t.2.map (ConUnit.ren g))
def renReg (g : Nat → Nat) (t : List Row × List ConReg) : List Row × List ConReg :=
  (t.1.map (Row.ren g), t.2.map (ConReg.ren g))

/-! ### Builders -/

section builders
variable {f g : Nat → Nat} {n n' : Nat}

theorem createConstraints_ren (h : Ren g n n') (ls : List Lim) (d : CType) :
    createConstraints ls n' d = renUnit g (createConstraints ls n d) := by
  simp only [createConstraints, renUnit]
  rw [saveIndex_ren h ls _ (Row.ren g) (fun _ _ => rfl), saveIndex_ren h ls _ (ConUnit.ren g) (fun _ _ => rfl)]

theorem capacity_ren (h : Ren g n n') (ls : List Lim) (bidi : List String) :
    capacityConstraints ls n' bidi = renUnit g (capacityConstraints ls n bidi) := by
  simp only [capacityConstraints, createConstraints_ren h, renUnit, List.map_map]
  rfl

theorem renUnit_append (s t : List Row × List ConUnit) :
    renUnit g (s.1 ++ t.1, s.2 ++ t.2) = ((renUnit g s).1 ++ (renUnit g t).1, (renUnit g s).2 ++ (renUnit g t).2) := by
  simp [renUnit]

theorem fastStart_ren (h : Ren g n n') (ps : List FsProfile) :
    fastStartConstraints ps n' = renUnit g (fastStartConstraints ps n) := by
  simp only [fastStartConstraints]
  rw [createConstraints_ren h, createConstraints_ren (h.add _), createConstraints_ren ((h.add _).add _),
    createConstraints_ren (((h.add _).add _).add _), createConstraints_ren ((((h.add _).add _).add _).add _)]
  simp [renUnit]

theorem energy_ren (h : Ren g n n') (ds : List Demand) : energyConstraints ds n' = renReg g (energyConstraints ds n) := by
  simp only [energyConstraints, renReg]
  rw [saveIndex_ren h ds _ (Row.ren g) (fun _ _ => rfl), saveIndex_ren h ds _ (ConReg.ren g) (fun _ _ => rfl)]

theorem fcas_ren (h : Ren g n n') (rs : List FcasReq) : fcasConstraints rs n' = renReg g (fcasConstraints rs n) := by
  have h1 : fcasRows rs n' = (fcasRows rs n).map (Row.ren g) :=
    saveIndex_ren h _ _ (Row.ren g) (fun _ _ => rfl)
  simp only [fcasConstraints, renReg, h1, List.map_flatMap, List.filter_map, List.map_map]
  rfl

theorem jrGeneric_ren (g : Nat → Nat) (cs : List (Nat × RegRate)) (s : JrSettings) (di : ℚ) :
    jrGeneric (cs.map (fun c => (g c.1, c.2))) s di = renUnit g (jrGeneric cs s di) := by
  simp only [jrGeneric, renUnit, List.map_map, List.map_append]
  rfl

theorem jrConstructor_ren (h : Ren g n n') (rs : List RegRate) (di : ℚ) (a b : JrSettings) :
    jrConstructor rs di n' a b = renUnit g (jrConstructor rs di n a b) := by
  simp only [jrConstructor]
  rw [saveIndex_ren h rs (fun i r => (i, r)) (fun c => (g c.1, c.2)) (fun _ _ => rfl)]
  simp only [List.filter_map]
  rw [jrGeneric_ren, jrGeneric_ren]
  simp only [renUnit, List.map_append]
  rfl

theorem jrBdu_ren (h : Ren g n n') (rs : List RegRate) (di : ℚ) (ty : CType) (sgn : ℚ) :
    jrBdu rs di n' ty sgn = renUnit g (jrBdu rs di n ty sgn) := by
  simp only [jrBdu]
  rw [saveIndex_ren h _ (fun i r => (i, r)) (fun c => (g c.1, c.2)) (fun _ _ => rfl)]
  simp only [renUnit, List.map_map, List.map_append, List.flatMap_map, List.map_flatMap]
  rfl

theorem jcUpper_ren (bidi : List String) (i : Nat) (t : Trap) :
    jcUpperMap bidi (g i) t = (jcUpperMap bidi i t).map (ConUnit.ren g) := by
  by_cases h : t.unit ∈ bidi <;> simp [jcUpperMap, h, ConUnit.ren]

theorem jcLower_ren (bidi : List String) (i : Nat) (t : Trap) :
    jcLowerMap bidi (g i) t = (jcLowerMap bidi i t).map (ConUnit.ren g) := by
  by_cases h : t.unit ∈ bidi <;> simp [jcLowerMap, h, ConUnit.ren]

theorem jointCapacity_ren (h : Ren g n n') (ts : List Trap) (bidi : List String) :
    jointCapacityConstraints ts bidi n' = renUnit g (jointCapacityConstraints ts bidi n) := by
  simp only [jointCapacityConstraints, renUnit, List.map_append, List.map_flatten]
  rw [saveIndex_ren h ts _ (Row.ren g) (fun _ _ => rfl), saveIndex_ren (h.add _) ts _ (Row.ren g) (fun _ _ => rfl),
    saveIndex_ren h ts _ (List.map (ConUnit.ren g)) (fun i t => jcUpper_ren bidi i t),
    saveIndex_ren (h.add _) ts _ (List.map (ConUnit.ren g)) (fun i t => jcLower_ren bidi i t)]

theorem energyReg_ren (h : Ren g n n') (ts : List Trap) :
    energyRegConstraints ts n' = renUnit g (energyRegConstraints ts n) := by
  simp only [energyRegConstraints, renUnit, List.map_append, List.map_flatten]
  rw [saveIndex_ren h ts _ (Row.ren g) (fun _ _ => rfl), saveIndex_ren (h.add _) ts _ (Row.ren g) (fun _ _ => rfl),
    saveIndex_ren h ts _ (List.map (ConUnit.ren g)) (fun i t => rfl),
    saveIndex_ren (h.add _) ts _ (List.map (ConUnit.ren g)) (fun i t => rfl)]

theorem biRamp_ren (h : Ren g n n') (rs : List BiRamp) (b : Bool) (di : ℚ) :
    biRampConstraints rs b n' di = renUnit g (biRampConstraints rs b n di) := by
  simp only [biRampConstraints]
  rw [saveIndex_ren h _ (fun i (r : BiRamp) => (i, r.unit)) (fun c => (g c.1, c.2)) (fun _ _ => rfl),
    saveIndex_ren h _ _ (Row.ren g) (fun _ _ => rfl)]
  simp only [renUnit, List.map_append, List.map_flatMap, List.filter_map, List.map_map]
  rfl

theorem generic_ren (h : Ren g n n') (gs : List GenericRow) :
    saveIndex gs n' (fun i g => ({ cid := i, ctype := g.ctype, rhs := g.rhs, set := some g.set } : Row)) =
    (saveIndex gs n (fun i g => ({ cid := i, ctype := g.ctype, rhs := g.rhs, set := some g.set } : Row))).map (Row.ren g) :=
  saveIndex_ren h gs _ (Row.ren g) (fun _ _ => rfl)

theorem bidVariables_ren (h : Ren f n n') (bids : List BidRow) :
    bidVariables bids n' = (bidVariables bids n).map (BidVar.ren f) :=
  saveIndex_ren h _ _ (BidVar.ren f) (fun _ _ => rfl)

theorem bidUnitMap_ren (f : Nat → Nat) (vs : List BidVar) (us : List UnitInfo) (bidi : List String) :
    bidUnitMap (vs.map (BidVar.ren f)) us bidi = (bidUnitMap vs us bidi).map (VarUnit.ren f) := by
  simp only [bidUnitMap, List.flatMap_map, List.map_flatMap, List.map_map]
  rfl

theorem bidRegMap_ren (f : Nat → Nat) (vs : List BidVar) (us : List UnitInfo) :
    bidRegMap (vs.map (BidVar.ren f)) us = (bidRegMap vs us).map (VarReg.ren f) := by
  simp only [bidRegMap, List.flatMap_map, List.map_flatMap, List.map_map]
  rfl

theorem bidCosts_ren (f : Nat → Nat) (vs : List BidVar) (ps : List BidRow) :
    bidCosts (vs.map (BidVar.ren f)) ps = (bidCosts vs ps).map (BidCost.ren f) := by
  simp only [bidCosts, List.flatMap_map, List.map_flatMap, List.map_map]
  rfl

theorem scale_ren (f : Nat → Nat) (cs : List BidCost) (us : List UnitInfo) :
    scaleByLossFactors (cs.map (BidCost.ren f)) us = (scaleByLossFactors cs us).map (BidCost.ren f) := by
  simp only [scaleByLossFactors, List.flatMap_map, List.map_flatMap, List.map_map]
  rfl

theorem regRates_ren (f : Nat → Nat) (vs : List BidVar) (s : Service) (rs : List RampRow) (rate : RampRow → ℚ) :
    regRates (vs.map (BidVar.ren f)) s rs rate = regRates vs s rs rate := by
  simp only [regRates, List.filter_map, List.map_map]
  rfl

theorem interVariables_ren (h : Ren f n n') (ds : List InterDef) :
    interVariables ds n' = (interVariables ds n).map (InterVar.ren f) :=
  saveIndex_ren h _ _ (InterVar.ren f) (fun _ _ => rfl)

theorem interMap_ren (h : Ren f n n') (ds : List InterDef) :
    interMap ds n' = (interMap ds n).map (InterMap.ren f) := by
  simp only [interMap, List.map_append]
  rw [saveIndex_ren h ds _ (InterMap.ren f) (fun _ _ => rfl), saveIndex_ren h ds _ (InterMap.ren f) (fun _ _ => rfl)]

theorem lossVariablesAux_ren (h : Ren f n n') (vs : List InterVar) (fs : List LossFnR) :
    lossVariablesAux (vs.map (InterVar.ren f)) fs n' =
      (lossVariablesAux vs fs n).map (fun p => (LossVar.ren f p.1, p.2)) := by
  simp only [lossVariablesAux, List.map_flatMap, List.map_map]
  have : ∀ (vs : List InterVar) (n n' : Nat), Ren f n n' →
      saveIndex (vs.map (InterVar.ren f)) n' (fun i v =>
        ({ inter := v.inter, link := v.link, vid := i, lb := -1 * Max.max |v.lb| |v.ub|,
           ub := Max.max |v.lb| |v.ub| } : LossVar)) =
      (saveIndex vs n (fun i v =>
        ({ inter := v.inter, link := v.link, vid := i, lb := -1 * Max.max |v.lb| |v.ub|,
           ub := Max.max |v.lb| |v.ub| } : LossVar))).map (LossVar.ren f) := by
    intro vs
    induction vs with
    | nil => intros; rfl
    | cons v vs ih =>
      intro n n' h
      simp only [saveIndex, List.map_cons, ih _ _ (h.add 1)]
      rw [← h.next]; rfl
  rw [this vs n n' h, List.flatMap_map]
  rfl

theorem lossVariables_ren (h : Ren f n n') (vs : List InterVar) (fs : List LossFnR) :
    lossVariables (vs.map (InterVar.ren f)) fs n' = (lossVariables vs fs n).map (LossVar.ren f) := by
  simp only [lossVariables, lossVariablesAux_ren h, List.map_map]
  rfl

theorem lossMap_ren (h : Ren f n n') (vs : List InterVar) (im : List InterMap) (fs : List LossFnR) :
    lossMap (vs.map (InterVar.ren f)) (im.map (InterMap.ren f)) fs n' = (lossMap vs im fs n).map (VarReg.ren f) := by
  simp only [lossMap, lossVariablesAux_ren h, List.flatMap_map, List.map_flatMap, List.map_map, List.filter_map]
  rfl

theorem weightVariables_ren (h : Ren f n n') (bs : List BreakPt) :
    weightVariables bs n' = (weightVariables bs n).map (WeightVar.ren f) :=
  saveIndex_ren h _ _ (WeightVar.ren f) (fun _ _ => rfl)

theorem dropDup_map {α β κ : Type} [DecidableEq κ] (key : α → κ) (key' : β → κ) (r : α → β) (h : ∀ a, key' (r a) = key a)
    (l : List α) : dropDup key' (l.map r) = (dropDup key l).map r := by
  induction l with
  | nil => rfl
  | cons a l ih => simp only [List.map_cons, dropDup, ih, List.filter_map, h]; congr 2; simp [Function.comp_def, h]

theorem weightConIds_ren (h : Ren g n n') (ws : List WeightVar) :
    weightConIds (ws.map (WeightVar.ren f)) n' = (weightConIds ws n).map (fun c => (g c.1, c.2)) := by
  simp only [weightConIds]
  rw [dropDup_map (fun w => (w.inter, w.link)) (fun w => (w.inter, w.link)) (WeightVar.ren f) (fun _ => rfl)]
  generalize dropDup (fun w => (w.inter, w.link)) ws = l
  induction l generalizing n n' with
  | nil => rfl
  | cons a l ih =>
    simp only [List.map_cons, saveIndex, ih (h.add 1)]
    rw [← h.next]; rfl

theorem weightTerms_ren (h : Ren g n n') (ws : List WeightVar) (c : WeightVar → ℚ) (hc : ∀ w, c (WeightVar.ren f w) = c w) :
    weightTerms (ws.map (WeightVar.ren f)) n' c = (weightTerms ws n c).map (Term.ren f g) := by
  simp only [weightTerms, weightConIds_ren h, List.flatMap_map, List.map_flatMap, List.map_map, List.filter_map, hc]
  rfl

theorem weightsSum_ren (h : Ren g n n') (ws : List WeightVar) :
    weightsSumToOne (ws.map (WeightVar.ren f)) n' =
      ((weightsSumToOne ws n).1.map (Term.ren f g), (weightsSumToOne ws n).2.map (Row.ren g)) := by
  simp only [weightsSumToOne, weightConIds_ren h, List.map_map]
  rw [weightTerms_ren h ws _ (fun _ => rfl)]
  rfl

theorem linkLoss_ren (h : Ren g n n') (ws : List WeightVar) (ls : List LossVar) (fs : List LossFnR) :
    linkLossToWeights (ws.map (WeightVar.ren f)) (ls.map (LossVar.ren f)) fs n' =
      ((linkLossToWeights ws ls fs n).1.map (Term.ren f g), (linkLossToWeights ws ls fs n).2.map (DynRow.ren f g)) := by
  simp only [linkLossToWeights, weightConIds_ren h, List.flatMap_map, List.map_flatMap, List.map_map, List.filter_map]
  rfl

theorem linkFlow_ren (h : Ren g n n') (ws : List WeightVar) (vs : List InterVar) :
    linkWeightsToFlow (ws.map (WeightVar.ren f)) (vs.map (InterVar.ren f)) n' =
      ((linkWeightsToFlow ws vs n).1.map (Term.ren f g), (linkWeightsToFlow ws vs n).2.map (DynRow.ren f g)) := by
  simp only [linkWeightsToFlow, weightConIds_ren h, List.flatMap_map, List.map_flatMap, List.map_map, List.filter_map]
  rw [weightTerms_ren h ws _ (fun _ => rfl)]
  rfl

theorem deficit_ren (h : Ren f n n') (g : Nat → Nat) (rs : List (Row × ℚ)) :
    deficitVariables (rs.map (fun p => (Row.ren g p.1, p.2))) n' = renDef f g (deficitVariables rs n) := by
  have key : ∀ (l : List (Row × ℚ)) (n n' : Nat) (F : Nat → Row × ℚ → DefVar), Ren f n n' →
      (∀ i p, F (f i) (Row.ren g p.1, p.2) = DefVar.ren f (F i p)) →
      saveIndex (l.map (fun p => (Row.ren g p.1, p.2))) n' F = (saveIndex l n F).map (DefVar.ren f) := by
    intro l
    induction l with
    | nil => intros; rfl
    | cons a l ih =>
      intro n n' F h hF
      simp only [List.map_cons, saveIndex, ih _ _ F (h.add 1) hF]
      rw [← h.next, hF]
  have key2 : ∀ (l : List (Row × ℚ)) (n n' : Nat) (F : Nat → Row × ℚ → Term), Ren f n n' →
      (∀ i p, F (f i) (Row.ren g p.1, p.2) = Term.ren f g (F i p)) →
      saveIndex (l.map (fun p => (Row.ren g p.1, p.2))) n' F = (saveIndex l n F).map (Term.ren f g) := by
    intro l
    induction l with
    | nil => intros; rfl
    | cons a l ih =>
      intro n n' F h hF
      simp only [List.map_cons, saveIndex, ih _ _ F (h.add 1) hF]
      rw [← h.next, hF]
  have e1 : (rs.map (fun p => (Row.ren g p.1, p.2))).filter isIneq = (rs.filter isIneq).map (fun p => (Row.ren g p.1, p.2)) := by
    rw [List.filter_map]; rfl
  have e2 : (rs.map (fun p => (Row.ren g p.1, p.2))).filter isEqual = (rs.filter isEqual).map (fun p => (Row.ren g p.1, p.2)) := by
    rw [List.filter_map]; rfl
  simp only [deficitVariables, e1, e2, List.length_map, renDef, List.map_append]
  rw [key _ _ _ _ h (fun _ _ => rfl), key _ _ _ _ (h.add _) (fun _ _ => rfl), key _ _ _ _ ((h.add _).add _) (fun _ _ => rfl),
    key2 _ _ _ _ h (fun _ _ => rfl), key2 _ _ _ _ (h.add _) (fun _ _ => rfl), key2 _ _ _ _ ((h.add _).add _) (fun _ _ => rfl)]

theorem costRows_ren (g : Nat → Nat) (k : CKey) (rows : List Row) (c : VCost) :
    costRows k (rows.map (Row.ren g)) c = (costRows k rows c).map (List.map (fun p => (Row.ren g p.1, p.2))) := by
  cases c with
  | num c => simp only [costRows, List.map_map, Except.map]; rfl
  | table t =>
    simp only [costRows]
    split
    · rfl
    split
    · rfl
    · simp only [Except.map, List.flatMap_map, List.map_flatMap, List.map_map]; rfl

theorem tieBids_ren (hf : Function.Injective f) (cs : List BidCost) (vs : List BidVar) (us : List UnitInfo) :
    tieBids (cs.map (BidCost.ren f)) (vs.map (BidVar.ren f)) us = (tieBids cs vs us).map (TieBid.ren f) := by
  simp only [tieBids, List.filter_map, List.flatMap_map, List.map_flatMap, List.map_map, List.flatMap_assoc]
  congr 1
  funext c
  have : (fun v : BidVar => decide ((v.ren f).vid = (c.ren f).vid)) = fun v => decide (v.vid = c.vid) := by
    funext v; simp only [BidVar.ren, BidCost.ren, hf.eq_iff]
  simp only [Function.comp_def, this]
  rfl

theorem tiePairs_ren (f : Nat → Nat) (bs : List TieBid) :
    tiePairs (bs.map (TieBid.ren f)) = (tiePairs bs).map (fun p => (TieBid.ren f p.1, TieBid.ren f p.2)) := by
  simp only [tiePairs]
  rw [← dropDup_map (fun p : TieBid × TieBid => tieName p.1 p.2) (fun p : TieBid × TieBid => tieName p.1 p.2)
    (fun p : TieBid × TieBid => (TieBid.ren f p.1, TieBid.ren f p.2)) (fun _ => rfl)]
  simp only [List.filter_map, List.flatMap_map, List.map_flatMap, List.map_map]
  rfl

theorem tieConstraints_ren (f : Nat → Nat) (h : Ren g n n') (ps : List (TieBid × TieBid)) :
    tieConstraints (ps.map (fun p => (TieBid.ren f p.1, TieBid.ren f p.2))) n' =
      ((tieConstraints ps n).1.map (Term.ren f g), (tieConstraints ps n).2.map (Row.ren g)) := by
  have key : ∀ {β : Type} (r : β → β) (l : List (TieBid × TieBid)) (n n' : Nat) (F : Nat → TieBid × TieBid → β), Ren g n n' →
      (∀ i p, F (g i) (TieBid.ren f p.1, TieBid.ren f p.2) = r (F i p)) →
      saveIndex (l.map (fun p => (TieBid.ren f p.1, TieBid.ren f p.2))) n' F = (saveIndex l n F).map r := by
    intro β r l
    induction l with
    | nil => intros; rfl
    | cons a l ih =>
      intro n n' F h hF
      simp only [List.map_cons, saveIndex, ih _ _ F (h.add 1) hF]
      rw [← h.next, hF]
  simp only [tieConstraints, List.map_append]
  rw [key (Term.ren f g) _ _ _ _ h (fun _ _ => rfl), key (Term.ren f g) _ _ _ _ h (fun _ _ => rfl),
    key (Row.ren g) _ _ _ _ h (fun _ _ => rfl)]

end builders

end Verif
