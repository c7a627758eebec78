import Verif.Spec.Names
import Verif.Proofs.Currency
import Mathlib.Data.List.Count

/-! Giving other names commutes with every table that is built. -/

namespace Verif

/-! ### Tables of the market -/

section
variable (ρ : Names)

def BidVar.named (v : BidVar) : BidVar := { v with unit := ρ.unit v.unit }
def VarUnit.named (v : VarUnit) : VarUnit := { v with unit := ρ.unit v.unit }
def VarReg.named (v : VarReg) : VarReg := { v with region := ρ.region v.region }
def ConUnit.named (c : ConUnit) : ConUnit := { c with unit := ρ.unit c.unit }
def ConReg.named (c : ConReg) : ConReg := { c with region := ρ.region c.region }
def Row.named (r : Row) : Row := { r with set := r.set.map ρ.set, region := r.region.map ρ.region }
def BidCost.named (c : BidCost) : BidCost := { c with unit := ρ.unit c.unit }
def InterVar.named (v : InterVar) : InterVar := { v with inter := ρ.inter v.inter, link := ρ.inter v.link }
def InterMap.named (v : InterMap) : InterMap :=
  { v with inter := ρ.inter v.inter, link := ρ.inter v.link, region := ρ.region v.region }
def LossVar.named (v : LossVar) : LossVar := { v with inter := ρ.inter v.inter, link := ρ.inter v.link }
def WeightVar.named (v : WeightVar) : WeightVar := { v with inter := ρ.inter v.inter, link := ρ.inter v.link }
def LossFnR.named (f : LossFnR) : LossFnR :=
  { f with inter := ρ.inter f.inter, link := ρ.inter f.link, fromR := ρ.region f.fromR }
def shareNamed (s : String × String × ℚ) : String × String × ℚ := (ρ.inter s.1, ρ.inter s.2.1, s.2.2)
def RegRate.named (r : RegRate) : RegRate := { r with unit := ρ.unit r.unit }
def FsProfile.named (p : FsProfile) : FsProfile := { p with unit := ρ.unit p.unit }
def BiRamp.named (r : BiRamp) : BiRamp := { r with unit := ρ.unit r.unit }
def consNamed (t : List Row × List ConUnit) : List Row × List ConUnit := (t.1.map (Row.named ρ), t.2.map (ConUnit.named ρ))
def regsNamed (t : List Row × List ConReg) : List Row × List ConReg := (t.1.map (Row.named ρ), t.2.map (ConReg.named ρ))

/-- the market with other names -/
def Market.named (m : Market) : Market :=
  { m with
    regions := m.regions.map ρ.region
    units := m.units.map (UnitInfo.named ρ)
    bids := m.bids.map (List.map (BidVar.named ρ))
    bidUnit := m.bidUnit.map (List.map (VarUnit.named ρ))
    bidReg := m.bidReg.map (List.map (VarReg.named ρ))
    bidCost := m.bidCost.map (List.map (BidCost.named ρ))
    dirs := m.dirs.map (List.map (InterDef.named ρ))
    inters := m.inters.map (List.map (InterVar.named ρ))
    interReg := m.interReg.map (List.map (InterMap.named ρ))
    lossShares := m.lossShares.map (List.map (shareNamed ρ))
    losses := m.losses.map (List.map (LossVar.named ρ))
    lossReg := m.lossReg.map (List.map (VarReg.named ρ))
    weights := m.weights.map (List.map (WeightVar.named ρ))
    gUnit := m.gUnit.map (List.map (GUnit.named ρ))
    gRegion := m.gRegion.map (List.map (GRegion.named ρ))
    gInter := m.gInter.map (List.map (GInter.named ρ))
    unitCon := m.unitCon.map (fun e => (e.1, e.2.map (ConUnit.named ρ)))
    regCon := m.regCon.map (fun e => (e.1, e.2.map (ConReg.named ρ)))
    conRhs := m.conRhs.map (fun e => (e.1, e.2.map (Row.named ρ)))
    mktRhs := m.mktRhs.map (fun e => (e.1, e.2.map (Row.named ρ))) }

def Res.named (r : Res) : Res := (r.1.named ρ, r.2)

end

/-! ### Lists -/

section
variable {α β κ κ' : Type}

theorem filter_named {r : α → β} {p : β → Bool} {q : α → Bool} (h : ∀ a, p (r a) = q a) (l : List α) :
    (l.map r).filter p = (l.filter q).map r := by
  rw [List.filter_map]
  congr 1
  exact List.filter_congr (fun a _ => h a)

theorem flatMap_named {γ δ : Type} {r : α → β} {s : γ → δ} {F : β → List δ} {G : α → List γ} (h : ∀ a, F (r a) = (G a).map s) (l : List α) :
    (l.map r).flatMap F = (l.flatMap G).map s := by
  rw [List.flatMap_map, List.map_flatMap]
  exact List.flatMap_congr (fun a _ => h a)

theorem flatMap_same {γ : Type} {r : α → β} {F : β → List γ} {G : α → List γ} (h : ∀ a, F (r a) = G a) (l : List α) :
    (l.map r).flatMap F = l.flatMap G := by
  rw [List.flatMap_map]
  exact List.flatMap_congr (fun a _ => h a)

theorem map_named {γ δ : Type} {r : α → β} {s : γ → δ} {F : β → δ} {G : α → γ} (h : ∀ a, F (r a) = s (G a)) (l : List α) :
    (l.map r).map F = (l.map G).map s := by
  rw [List.map_map, List.map_map]
  exact List.map_congr_left (fun a _ => h a)

theorem map_same {γ : Type} {r : α → β} {F : β → γ} {G : α → γ} (h : ∀ a, F (r a) = G a) (l : List α) :
    (l.map r).map F = l.map G := by
  rw [List.map_map]
  exact List.map_congr_left (fun a _ => h a)

theorem all_named {r : α → β} {p : β → Bool} {q : α → Bool} (h : ∀ a, p (r a) = q a) (l : List α) : (l.map r).all p = l.all q := by
  induction l with
  | nil => rfl
  | cons a l ih => simp only [List.map_cons, List.all_cons, h, ih]

theorem saveIndex_named {γ δ : Type} {r : α → β} {s : γ → δ} {F : Nat → β → δ} {G : Nat → α → γ} (h : ∀ i a, F i (r a) = s (G i a))
    (l : List α) (n : Nat) : saveIndex (l.map r) n F = (saveIndex l n G).map s := by
  rw [saveIndex_map, map_saveIndex]
  congr 1
  funext i a
  exact h i a

theorem saveIndex_same {γ : Type} {r : α → β} {F : Nat → β → γ} {G : Nat → α → γ} (h : ∀ i a, F i (r a) = G i a)
    (l : List α) (n : Nat) : saveIndex (l.map r) n F = saveIndex l n G := by
  rw [saveIndex_map]
  congr 1
  funext i a
  exact h i a

variable [DecidableEq κ] [DecidableEq κ']

theorem nodup_named {r : α → β} {key : α → κ} {key' : β → κ'} {q : κ → κ'} (hq : Function.Injective q) (h : ∀ a, key' (r a) = q (key a))
    (l : List α) : decide ((l.map r).map key').Nodup = decide (l.map key).Nodup := by
  rw [map_named h, decide_eq_decide, List.nodup_map_iff hq]

theorem dropDup_named {r : α → β} {key : α → κ} {key' : β → κ'} {q : κ → κ'} (hq : Function.Injective q) (h : ∀ a, key' (r a) = q (key a))
    (l : List α) : dropDup key' (l.map r) = (dropDup key l).map r := by
  induction l with
  | nil => rfl
  | cons a l ih =>
    simp only [List.map_cons, dropDup, ih]
    congr 1
    refine filter_named (fun b => ?_) _
    rw [h, h, decide_eq_decide, not_iff_not, hq.eq_iff]

theorem groupSum_named {r : α → β} {key : α → κ} {key' : β → κ'} {q : κ → κ'} (hq : Function.Injective q) (h : ∀ a, key' (r a) = q (key a))
    {val : α → ℚ} {val' : β → ℚ} (hv : ∀ a, val' (r a) = val a) (l : List α) :
    groupSum key' val' (l.map r) = (groupSum key val l).map (fun e => (q e.1, e.2)) := by
  unfold groupSum
  rw [map_named h, List.dedup_map_of_injective hq, List.map_map, List.map_map]
  apply List.map_congr_left
  intro k _
  simp only [Function.comp]
  rw [filter_named (q := fun a => decide (key a = k)) (fun a => by rw [h, decide_eq_decide, hq.eq_iff]), map_same hv]

theorem groupBy_named {r : α → β} {key : α → κ} {key' : β → κ'} {q : κ → κ'} (hq : Function.Injective q) (h : ∀ a, key' (r a) = q (key a))
    (l : List α) : groupBy key' (l.map r) = (groupBy key l).map (List.map r) := by
  unfold groupBy
  rw [map_named h, List.dedup_map_of_injective hq, List.map_map, List.map_map]
  apply List.map_congr_left
  intro k _
  simp only [Function.comp]
  exact filter_named (fun a => by rw [h, decide_eq_decide, hq.eq_iff]) _

end

theorem pair_inj {α β γ δ : Type} {f : α → β} {g : γ → δ} (hf : Function.Injective f) (hg : Function.Injective g) :
    Function.Injective (fun e : α × γ => (f e.1, g e.2)) := by
  rintro ⟨a, x⟩ ⟨b, y⟩ e
  simp only [Prod.mk.injEq] at e
  rw [hf e.1, hg e.2]

theorem fst_inj {α β γ : Type} {f : α → β} (hf : Function.Injective f) : Function.Injective (fun e : α × γ => (f e.1, e.2)) :=
  pair_inj hf Function.injective_id

section
variable (ρ : Names)

theorem mem_units {u : String} {l : List String} : ρ.unit u ∈ l.map ρ.unit ↔ u ∈ l := List.mem_map_of_injective ρ.unit_inj

theorem bidi_named (m : Market) : (m.named ρ).bidi = m.bidi.map ρ.unit := by
  unfold Market.bidi bidiOf
  have e : (m.named ρ).units.map (·.unit) = (m.units.map (·.unit)).map ρ.unit := by
    show (m.units.map (UnitInfo.named ρ)).map (·.unit) = _
    simp only [List.map_map]; rfl
  rw [e]
  refine filter_named (fun u => ?_) _
  rw [List.count_map_of_injective _ _ ρ.unit_inj]

theorem mem_bidi_named (m : Market) (u : String) : ρ.unit u ∈ (m.named ρ).bidi ↔ u ∈ m.bidi := by
  rw [bidi_named]; exact mem_units ρ

theorem knows_named (m : Market) (u : String) : (m.named ρ).knows (ρ.unit u) = m.knows u := by
  unfold Market.knows
  have e : (m.named ρ).units.map (·.unit) = (m.units.map (·.unit)).map ρ.unit := by
    show (m.units.map (UnitInfo.named ρ)).map (·.unit) = _
    simp only [List.map_map]; rfl
  rw [e, decide_eq_decide]
  exact mem_units ρ

theorem region_named (m : Market) (g : String) : ρ.region g ∈ (m.named ρ).regions ↔ g ∈ m.regions :=
  List.mem_map_of_injective ρ.region_inj

theorem andThen_named {r R : Res} {f F : Market → Res} (hr : R = Res.named ρ r) (h : ∀ m, F (m.named ρ) = Res.named ρ (f m)) :
    Res.andThen R F = Res.named ρ (Res.andThen r f) := by
  subst hr
  obtain ⟨m, e⟩ := r
  cases e with
  | none => exact h m
  | some e => rfl

/-! ### Violation variables -/

theorem rowsOf_named (m : Market) (k : CKey) : (m.named ρ).rowsOf k = (m.rowsOf k).map (List.map (Row.named ρ)) := by
  have e1 : (m.named ρ).mktRhs.get? k = (m.mktRhs.get? k).map (List.map (Row.named ρ)) := Dict.get?_mapv _ _ _
  have e2 : (m.named ρ).conRhs.get? k = (m.conRhs.get? k).map (List.map (Row.named ρ)) := Dict.get?_mapv _ _ _
  unfold Market.rowsOf
  rw [e1, e2]
  cases m.mktRhs.get? k <;> rfl

theorem costRows_named (k : CKey) (rows : List Row) (c : VCost) :
    costRows k (rows.map (Row.named ρ)) (c.named ρ) = (costRows k rows c).map (List.map (fun r => (r.1.named ρ, r.2))) := by
  cases c with
  | num q => simp only [costRows, VCost.named, Except.map]; simp only [List.map_map]; rfl
  | table t =>
    simp only [costRows, VCost.named]
    have e : (t.map (fun e : String × ℚ => (ρ.set e.1, e.2))).Nodup ↔ t.Nodup :=
      List.nodup_map_iff (fst_inj ρ.set_inj)
    simp only [e]
    split
    · rfl
    split
    · rfl
    · refine congrArg Except.ok (flatMap_named (fun r => ?_) _)
      rw [filter_named (q := fun c : String × ℚ => decide (r.set = some c.1)) (fun c => ?_)]
      · simp only [List.map_map]; rfl
      · rw [decide_eq_decide]
        show r.set.map ρ.set = some (ρ.set c.1) ↔ _
        cases r.set with
        | none => simp
        | some s => simp [ρ.set_inj.eq_iff]

theorem deficit_named (rs : List (Row × ℚ)) (n : Nat) :
    deficitVariables (rs.map (fun r => (r.1.named ρ, r.2))) n = deficitVariables rs n := by
  have h1 : (rs.map (fun r : Row × ℚ => (r.1.named ρ, r.2))).filter isIneq = (rs.filter isIneq).map (fun r => (r.1.named ρ, r.2)) :=
    filter_named (fun _ => rfl) _
  have h2 : (rs.map (fun r : Row × ℚ => (r.1.named ρ, r.2))).filter isEqual = (rs.filter isEqual).map (fun r => (r.1.named ρ, r.2)) :=
    filter_named (fun _ => rfl) _
  unfold deficitVariables
  simp only [h1, h2, saveIndex_map, List.length_map]
  rfl

theorem makeElastic_named (m : Market) (k : CKey) (c : VCost) : (m.named ρ).makeElastic k (c.named ρ) = Res.named ρ (m.makeElastic k c) := by
  unfold Market.makeElastic
  rw [rowsOf_named]
  cases m.rowsOf k with
  | none => rfl
  | some rows =>
    simp only [Option.map_some, costRows_named]
    cases costRows k rows c with
    | error e => rfl
    | ok rs =>
      simp only [Except.map, List.isEmpty_map, deficit_named]
      have hn : (m.named ρ).nextVar = m.nextVar := rfl
      rw [hn]
      by_cases h1 : rs.isEmpty = true
      · rw [if_pos h1, if_pos h1]; rfl
      · rw [if_neg h1, if_neg h1]
        split <;> rfl

theorem elasticOpt_named (m : Market) (k : CKey) (c : Option VCost) :
    (m.named ρ).elasticOpt k (c.map (VCost.named ρ)) = Res.named ρ (m.elasticOpt k c) := by
  cases c with
  | none => rfl
  | some c => exact makeElastic_named ρ m k c

theorem ids_named (l : List Row) : (l.map (Row.named ρ)).map Row.cid = l.map Row.cid := map_same (fun _ => rfl) _

theorem addUnitSet_named (m : Market) (k : CKey) {t T : List Row × List ConUnit} (h : T = consNamed ρ t) :
    (m.named ρ).addUnitSet k T = Res.named ρ (m.addUnitSet k t) := by
  subst h
  unfold Market.addUnitSet
  have e1 : (m.named ρ).conRhs.set k (consNamed ρ t).1 = (m.conRhs.set k t.1).map (fun e => (e.1, e.2.map (Row.named ρ))) :=
    Dict.set_mapv (List.map (Row.named ρ)) m.conRhs k t.1
  have e2 : (m.named ρ).unitCon.set k (consNamed ρ t).2 = (m.unitCon.set k t.2).map (fun e => (e.1, e.2.map (ConUnit.named ρ))) :=
    Dict.set_mapv (List.map (ConUnit.named ρ)) m.unitCon k t.2
  have e3 : (consNamed ρ t).1.map Row.cid = t.1.map Row.cid := ids_named ρ t.1
  have e4 : (consNamed ρ t).1.isEmpty = t.1.isEmpty := List.isEmpty_map
  simp only [e1, e2, e3, e4]
  split <;> rfl

theorem addRegSet_named (m : Market) (k : CKey) {t T : List Row × List ConReg} (h : T = regsNamed ρ t) :
    (m.named ρ).addRegSet k T = Res.named ρ (m.addRegSet k t) := by
  subst h
  unfold Market.addRegSet
  have e1 : (m.named ρ).mktRhs.set k (regsNamed ρ t).1 = (m.mktRhs.set k t.1).map (fun e => (e.1, e.2.map (Row.named ρ))) :=
    Dict.set_mapv (List.map (Row.named ρ)) m.mktRhs k t.1
  have e2 : (m.named ρ).regCon.set k (regsNamed ρ t).2 = (m.regCon.set k t.2).map (fun e => (e.1, e.2.map (ConReg.named ρ))) :=
    Dict.set_mapv (List.map (ConReg.named ρ)) m.regCon k t.2
  have e3 : (regsNamed ρ t).1.map Row.cid = t.1.map Row.cid := ids_named ρ t.1
  have e4 : (regsNamed ρ t).1.isEmpty = t.1.isEmpty := List.isEmpty_map
  simp only [e1, e2, e3, e4]
  split <;> rfl

theorem addUnitSetIf_named (m : Market) (k : CKey) {b B : Bool} (hb : B = b) {t T : List Row × List ConUnit} (h : T = consNamed ρ t) :
    (m.named ρ).addUnitSetIf k B T = Res.named ρ (m.addUnitSetIf k b t) := by
  subst hb
  unfold Market.addUnitSetIf
  split
  · exact addUnitSet_named ρ m k h
  · rfl

theorem elasticIfPresent_named (m : Market) (k : CKey) (c : VCost) :
    (m.named ρ).elasticIfPresent k (c.named ρ) = Res.named ρ (m.elasticIfPresent k c) := by
  unfold Market.elasticIfPresent
  have : (m.named ρ).unitCon.has k = m.unitCon.has k := Dict.has_mapv _ _ _
  rw [this]
  split
  · exact makeElastic_named ρ m k c
  · rfl

end

end Verif
