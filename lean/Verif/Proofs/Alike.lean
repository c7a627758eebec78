import Verif.Proofs.Frame
import Verif.Proofs.Exact

/-! # Markets that differ in right hand sides of one constraint set and in the prices of bids -/

namespace Verif

/-- the row without its right hand side -/
def Row.noRhs (r : Row) : Row := { r with rhs := 0 }

/-- tables of right hand sides that are the same except for the right hand sides of the set `k` -/
def RhsAlike (k : CKey) (d D : Dict CKey (List Row)) : Prop :=
  ∀ j, (j ≠ k → D.get? j = d.get? j) ∧ (D.get? j).map (List.map Row.noRhs) = (d.get? j).map (List.map Row.noRhs)

/-- `M` is `m` with other prices of bids and other right hand sides of the set `k` -/
structure Alike (k : CKey) (m M : Market) : Prop where
  eq : M = { m with bidCost := M.bidCost, conRhs := M.conRhs, mktRhs := M.mktRhs }
  con : RhsAlike k m.conRhs M.conRhs
  mkt : RhsAlike k m.mktRhs M.mktRhs

/-- `Alike` for results -/
def AlikeR (k : CKey) (r R : Res) : Prop := Alike k r.1 R.1 ∧ R.2 = r.2

variable {k : CKey} {m M : Market}

theorem RhsAlike.refl (k : CKey) (d : Dict CKey (List Row)) : RhsAlike k d d := fun _ => ⟨fun _ => rfl, rfl⟩

theorem RhsAlike.set {d D : Dict CKey (List Row)} (h : RhsAlike k d D) (j : CKey) {r R : List Row} (h1 : j ≠ k → R = r)
    (h2 : R.map Row.noRhs = r.map Row.noRhs) : RhsAlike k (d.set j r) (D.set j R) := by
  intro i
  by_cases e : j = i
  · subst e
    simp only [Dict.get?_set_self, Option.map_some, h2, and_true]
    intro e; rw [h1 e]
  · rw [Dict.get?_set_ne _ _ e, Dict.get?_set_ne _ _ e]
    exact h i

theorem RhsAlike.erase {d D : Dict CKey (List Row)} (h : RhsAlike k d D) (j : CKey) : RhsAlike k (d.erase j) (D.erase j) := by
  intro i
  by_cases e : j = i
  · subst e; simp
  · rw [Dict.get?_erase_ne _ e, Dict.get?_erase_ne _ e]
    exact h i

theorem RhsAlike.has {d D : Dict CKey (List Row)} (h : RhsAlike k d D) (j : CKey) : D.has j = d.has j := by
  unfold Dict.has
  have := congrArg Option.isSome (h j).2
  simpa using this

theorem Alike.refl (k : CKey) (m : Market) : Alike k m m := ⟨rfl, .refl _ _, .refl _ _⟩

namespace Alike
variable (h : Alike k m M)
include h

theorem regions : M.regions = m.regions := by rw [h.eq]
theorem units : M.units = m.units := by rw [h.eq]
theorem di : M.di = m.di := by rw [h.eq]
theorem bids : M.bids = m.bids := by rw [h.eq]
theorem bidUnit : M.bidUnit = m.bidUnit := by rw [h.eq]
theorem bidReg : M.bidReg = m.bidReg := by rw [h.eq]
theorem dirs : M.dirs = m.dirs := by rw [h.eq]
theorem inters : M.inters = m.inters := by rw [h.eq]
theorem interReg : M.interReg = m.interReg := by rw [h.eq]
theorem losses : M.losses = m.losses := by rw [h.eq]
theorem lossReg : M.lossReg = m.lossReg := by rw [h.eq]
theorem weights : M.weights = m.weights := by rw [h.eq]
theorem lossLhs : M.lossLhs = m.lossLhs := by rw [h.eq]
theorem tieLhs : M.tieLhs = m.tieLhs := by rw [h.eq]
theorem deficits : M.deficits = m.deficits := by rw [h.eq]
theorem gUnit : M.gUnit = m.gUnit := by rw [h.eq]
theorem gRegion : M.gRegion = m.gRegion := by rw [h.eq]
theorem gInter : M.gInter = m.gInter := by rw [h.eq]
theorem unitCon : M.unitCon = m.unitCon := by rw [h.eq]
theorem regCon : M.regCon = m.regCon := by rw [h.eq]
theorem dynRhs : M.dynRhs = m.dynRhs := by rw [h.eq]
theorem nextVar : M.nextVar = m.nextVar := by rw [h.eq]
theorem nextCon : M.nextCon = m.nextCon := by rw [h.eq]
theorem nanCon : M.nanCon = m.nanCon := by rw [h.eq]
theorem bidi : M.bidi = m.bidi := by unfold Market.bidi; rw [h.units]
theorem knows : M.knows = m.knows := by funext u; unfold Market.knows; rw [h.units]

theorem same (e : Option Err) : AlikeR k (m, e) (M, e) := ⟨h, rfl⟩

theorem rowsOf (j : CKey) : (M.rowsOf j).map (List.map Row.noRhs) = (m.rowsOf j).map (List.map Row.noRhs) := by
  unfold Market.rowsOf
  have h1 := (h.mkt j).2
  have h2 := (h.con j).2
  cases e1 : M.mktRhs.get? j <;> cases e2 : m.mktRhs.get? j <;> simp [e1, e2] at h1 ⊢
  · exact h2
  · exact h1

end Alike

theorem AlikeR.andThen {r R : Res} (h : AlikeR k r R) {F G : Market → Res} (hF : ∀ m M, Alike k m M → AlikeR k (F m) (G M)) :
    AlikeR k (r.andThen F) (R.andThen G) := by
  obtain ⟨h1, h2⟩ := h
  unfold Res.andThen
  rw [h2]
  cases r.2 with
  | none => exact hF _ _ h1
  | some e => exact ⟨h1, rfl⟩

theorem saveIndex_map {α β γ : Type} (l : List α) (n : Nat) (f : α → β) (g : Nat → β → γ) :
    saveIndex (l.map f) n g = saveIndex l n (fun i a => g i (f a)) := by
  induction l generalizing n with
  | nil => rfl
  | cons a l ih => simp only [List.map_cons, saveIndex]; rw [ih]

/-- the rows with their costs, without right hand sides -/
def noRhsCost (r : Row × ℚ) : Row × ℚ := (r.1.noRhs, r.2)

theorem deficit_noRhs (rs : List (Row × ℚ)) (n : Nat) : deficitVariables (rs.map noRhsCost) n = deficitVariables rs n := by
  unfold deficitVariables
  have e1 : (rs.map noRhsCost).filter isIneq = (rs.filter isIneq).map noRhsCost := by rw [List.filter_map]; rfl
  have e2 : (rs.map noRhsCost).filter isEqual = (rs.filter isEqual).map noRhsCost := by rw [List.filter_map]; rfl
  simp only [e1, e2, saveIndex_map, List.length_map]
  rfl

theorem costRows_noRhs (j : CKey) (rows : List Row) (c : VCost) :
    costRows j (rows.map Row.noRhs) c = (costRows j rows c).map (List.map noRhsCost) := by
  cases c with
  | num c => simp only [costRows, List.map_map, Except.map]; rfl
  | table t =>
    simp only [costRows]
    split
    · rfl
    split
    · rfl
    simp only [Except.map, List.flatMap_map, List.map_flatMap, List.map_map]
    rfl

theorem elastic_alike (h : Alike k m M) (j : CKey) (c : VCost) : AlikeR k (m.makeElastic j c) (M.makeElastic j c) := by
  have hr := h.rowsOf j
  unfold Market.makeElastic
  cases e1 : m.rowsOf j with
  | none =>
    rw [e1] at hr
    cases e2 : M.rowsOf j with
    | none => exact h.same _
    | some R => rw [e2] at hr; cases hr
  | some rows =>
    rw [e1] at hr
    cases e2 : M.rowsOf j with
    | none => rw [e2] at hr; cases hr
    | some R =>
      rw [e2] at hr
      simp only [Option.map_some, Option.some.injEq] at hr
      have hc : (costRows j R c).map (List.map noRhsCost) = (costRows j rows c).map (List.map noRhsCost) := by
        rw [← costRows_noRhs, ← costRows_noRhs, hr]
      cases c1 : costRows j rows c with
      | error e =>
        rw [c1] at hc
        cases c2 : costRows j R c with
        | error e' => rw [c2] at hc; simp only [Except.map, Except.error.injEq] at hc; simp only [c1, c2]; rw [hc]; exact h.same _
        | ok => rw [c2] at hc; cases hc
      | ok rs =>
        rw [c1] at hc
        cases c2 : costRows j R c with
        | error => rw [c2] at hc; cases hc
        | ok RS =>
          rw [c2] at hc
          simp only [Except.map, Except.ok.injEq] at hc
          simp only [c1, c2]
          have he : RS.isEmpty = rs.isEmpty := by
            have := congrArg List.isEmpty hc
            simpa using this
          have hd : deficitVariables RS M.nextVar = deficitVariables rs m.nextVar := by
            rw [← deficit_noRhs RS, hc, deficit_noRhs, h.nextVar]
          rw [he, hd, h.deficits]
          split
          · exact h.same _
          split
          · exact ⟨⟨by rw [h.eq], h.con, h.mkt⟩, rfl⟩
          · exact ⟨⟨by rw [h.eq], h.con, h.mkt⟩, rfl⟩

theorem elasticOpt_alike (h : Alike k m M) (j : CKey) (c : Option VCost) : AlikeR k (m.elasticOpt j c) (M.elasticOpt j c) := by
  cases c with
  | none => exact h.same _
  | some c => exact elastic_alike h j c

theorem elasticIf_alike (h : Alike k m M) (j : CKey) (c : VCost) : AlikeR k (m.elasticIfPresent j c) (M.elasticIfPresent j c) := by
  unfold Market.elasticIfPresent
  rw [h.unitCon]
  split
  · exact elastic_alike h j c
  · exact h.same _

theorem unitSet_alike' (h : Alike k m M) (j : CKey) {t T : List Row × List ConUnit} (h1 : j ≠ k → T.1 = t.1)
    (h2 : T.1.map Row.noRhs = t.1.map Row.noRhs) (h3 : T.2 = t.2) : AlikeR k (m.addUnitSet j t) (M.addUnitSet j T) := by
  unfold Market.addUnitSet
  have he : T.1.isEmpty = t.1.isEmpty := by
    have := congrArg List.isEmpty h2
    simpa using this
  have hc : T.1.map Row.cid = t.1.map Row.cid := by
    have := congrArg (List.map Row.cid) h2
    rw [List.map_map, List.map_map] at this
    exact this
  simp only [he, hc, h3, h.unitCon]
  split
  · exact ⟨⟨by rw [h.eq], h.con.set j h1 h2, h.mkt⟩, rfl⟩
  · exact ⟨⟨by rw [h.eq], h.con.set j h1 h2, h.mkt⟩, rfl⟩

theorem unitSet_alike (h : Alike k m M) (j : CKey) (t : List Row × List ConUnit) :
    AlikeR k (m.addUnitSet j t) (M.addUnitSet j t) := unitSet_alike' h j (fun _ => rfl) rfl rfl

theorem unitSetIf_alike (h : Alike k m M) (j : CKey) (b : Bool) (t : List Row × List ConUnit) :
    AlikeR k (m.addUnitSetIf j b t) (M.addUnitSetIf j b t) := by
  unfold Market.addUnitSetIf
  split
  · exact unitSet_alike h j t
  · exact h.same _

theorem regSet_alike' (h : Alike k m M) (j : CKey) {t T : List Row × List ConReg} (h1 : j ≠ k → T.1 = t.1)
    (h2 : T.1.map Row.noRhs = t.1.map Row.noRhs) (h3 : T.2 = t.2) : AlikeR k (m.addRegSet j t) (M.addRegSet j T) := by
  unfold Market.addRegSet
  have he : T.1.isEmpty = t.1.isEmpty := by
    have := congrArg List.isEmpty h2
    simpa using this
  have hc : T.1.map Row.cid = t.1.map Row.cid := by
    have := congrArg (List.map Row.cid) h2
    rw [List.map_map, List.map_map] at this
    exact this
  simp only [he, hc, h3, h.regCon]
  split
  · exact ⟨⟨by rw [h.eq], h.con, h.mkt.set j h1 h2⟩, rfl⟩
  · exact ⟨⟨by rw [h.eq], h.con, h.mkt.set j h1 h2⟩, rfl⟩

theorem regSet_alike (h : Alike k m M) (j : CKey) (t : List Row × List ConReg) :
    AlikeR k (m.addRegSet j t) (M.addRegSet j t) := regSet_alike' h j (fun _ => rfl) rfl rfl

theorem generic_alike' (h : Alike k m M) {g G : List GenericRow} (h1 : .generic ≠ k → G = g)
    (h2 : G.map (fun r => (r.set, r.ctype)) = g.map (fun r => (r.set, r.ctype))) (vc : Option VCost) :
    AlikeR k (m.setGeneric g vc) (M.setGeneric G vc) := by
  unfold Market.setGeneric
  have hs : G.map GenericRow.set = g.map GenericRow.set := by
    have := congrArg (List.map Prod.fst) h2
    rw [List.map_map, List.map_map] at this
    exact this
  rw [hs, h.nextCon]
  split
  · exact h.same _
  have key : ∀ l : List GenericRow, (saveIndex l m.nextCon (fun i g => ({ cid := i, ctype := g.ctype, rhs := g.rhs, set := some g.set } : Row))).map Row.noRhs =
      saveIndex (l.map (fun r => (r.set, r.ctype))) m.nextCon (fun i g => ({ cid := i, ctype := g.2, rhs := 0, set := some g.1 } : Row)) := by
    intro l
    rw [map_saveIndex, saveIndex_map]
    rfl
  have hrows : (saveIndex G m.nextCon (fun i g => ({ cid := i, ctype := g.ctype, rhs := g.rhs, set := some g.set } : Row))).map Row.noRhs =
      (saveIndex g m.nextCon (fun i g => ({ cid := i, ctype := g.ctype, rhs := g.rhs, set := some g.set } : Row))).map Row.noRhs := by
    rw [key, key, h2]
  generalize hR : saveIndex G m.nextCon (fun i g => ({ cid := i, ctype := g.ctype, rhs := g.rhs, set := some g.set } : Row)) = R at *
  generalize hr : saveIndex g m.nextCon (fun i g => ({ cid := i, ctype := g.ctype, rhs := g.rhs, set := some g.set } : Row)) = r at *
  have h1' : .generic ≠ k → R = r := by intro e; rw [← hR, ← hr, h1 e]
  have he : R.isEmpty = r.isEmpty := by
    have := congrArg List.isEmpty hrows
    simpa using this
  have hc : R.map Row.cid = r.map Row.cid := by
    have := congrArg (List.map Row.cid) hrows
    rw [List.map_map, List.map_map] at this
    exact this
  simp only [he, hc]
  apply elasticOpt_alike
  split
  · exact ⟨by rw [h.eq], h.con.set _ h1' hrows, h.mkt⟩
  · exact ⟨by rw [h.eq], h.con.set _ h1' hrows, h.mkt⟩

theorem limsOk_alike (h : Alike k m M) (l : List Lim) : M.limsOk l = m.limsOk l := by
  unfold Market.limsOk; rw [h.knows]

theorem fsProfilesOk_alike (h : Alike k m M) (rt : RunType) (ps : Option (List FsRamp)) : M.fsProfilesOk rt ps = m.fsProfilesOk rt ps := by
  unfold Market.fsProfilesOk Market.fsRampOk; rw [h.knows]

theorem scadaOptOk_alike (h : Alike k m M) (sc : Option (List Scada)) : M.scadaOptOk sc = m.scadaOptOk sc := by
  unfold Market.scadaOptOk Market.scadaOk; rw [h.knows]

theorem priceBidsOk_alike (h : Alike k m M) (b : List BidRow) : M.priceBidsOk b = m.priceBidsOk b := by
  unfold Market.priceBidsOk; rw [h.knows]

theorem fsInputsOk_alike (h : Alike k m M) (p : List FsInput) : M.fsInputsOk p = m.fsInputsOk p := by
  unfold Market.fsInputsOk; rw [h.knows]

theorem trapsOk_alike (h : Alike k m M) (t : List Trap) (f : Service → Bool) : M.trapsOk t f = m.trapsOk t f := by
  unfold Market.trapsOk; rw [h.knows]

/-- A call other than tie break constraints keeps markets alike. -/
theorem step_alike (h : Alike k m M) {op : Op} (ht : ∀ c, op ≠ .tieBreak c) : AlikeR k (m.step op) (M.step op) := by
  unfold Market.step
  rw [h.nanCon]
  split
  · exact h.same _
  cases op with
  | volumeBids b =>
    simp only [Market.setVolumeBids, Market.volumeBidsOk, h.knows, h.bidi, h.nextVar, h.units]
    split
    · exact h.same _
    split
    · exact h.same _
    split
    · exact ⟨⟨by rw [h.eq], h.con, h.mkt⟩, rfl⟩
    · exact ⟨⟨by rw [h.eq], h.con, h.mkt⟩, rfl⟩
  | priceBids b =>
    simp only [Market.setPriceBids, priceBidsOk_alike h, h.bidi, h.bids, h.units]
    split
    · exact h.same _
    split
    · exact h.same _
    split
    · exact h.same _
    · exact ⟨⟨by rw [h.eq], h.con, h.mkt⟩, rfl⟩
  | capacity l vc =>
    simp only [Market.setCapacity, limsOk_alike h, h.bidi, h.bids, h.nextCon]
    split
    · exact h.same _
    split
    · exact h.same _
    exact (unitSet_alike h _ _).andThen (fun m M h => elasticOpt_alike h _ _)
  | uigf l vc =>
    simp only [Market.setUigf, limsOk_alike h, h.bids, h.nextCon]
    split
    · exact h.same _
    split
    · exact h.same _
    exact (unitSet_alike h _ _).andThen (fun m M h => elasticOpt_alike h _ _)
  | rampRates r sc ps rt vc =>
    simp only [Market.setRampRates, Market.rampsOk, fsProfilesOk_alike h, scadaOptOk_alike h, h.bidi, h.nextCon, h.di, h.knows]
    split
    · exact h.same _
    split
    · exact h.same _
    split
    · exact h.same _
    split
    · exact h.same _
    split
    · exact h.same _
    refine (unitSet_alike h _ _).andThen (fun m M h => ?_)
    rw [h.nextCon, h.di]
    refine (unitSet_alike h _ _).andThen (fun m M h => ?_)
    refine AlikeR.andThen ?_ (fun m M h => ?_)
    · unfold Market.addBiRamps
      split
      · exact h.same _
      rw [h.nextCon, h.di]
      refine (unitSet_alike h _ _).andThen (fun m M h => ?_)
      rw [h.nextCon, h.di]
      exact unitSet_alike h _ _
    · cases vc with
      | none => exact h.same _
      | some c =>
        exact (elastic_alike h _ _).andThen (fun m M h => (elastic_alike h _ _).andThen (fun m M h =>
          (elasticIf_alike h _ _).andThen (fun m M h => elasticIf_alike h _ _)))
  | fastStart p vc =>
    simp only [Market.setFastStart, fsInputsOk_alike h, h.units, h.nextCon]
    split
    · exact h.same _
    split
    · exact h.same _
    exact (unitSet_alike h _ _).andThen (fun m M h => elasticOpt_alike h _ _)
  | removeFastStart =>
    simp only [Market.removeFastStart, h.con.has]
    by_cases e1 : m.conRhs.has .fastStart = true
    · by_cases e2 : m.deficits.has .fastStart = true
      · simp only [e1, e2, if_true, h.deficits, Bool.false_eq_true, if_false]
        exact ⟨⟨by rw [h.eq], h.con.erase _, h.mkt⟩, rfl⟩
      · simp only [e1, e2, if_true, h.deficits, Bool.false_eq_true, if_false]
        exact ⟨⟨by rw [h.eq], h.con.erase _, h.mkt⟩, rfl⟩
    · by_cases e2 : m.deficits.has .fastStart = true
      · simp only [e1, e2, if_true, h.deficits, Bool.false_eq_true, if_false]
        exact ⟨⟨by rw [h.eq], h.con, h.mkt⟩, rfl⟩
      · simp only [e1, e2, h.deficits, Bool.false_eq_true, if_false]
        exact ⟨h, rfl⟩
  | demand d vc =>
    simp only [Market.setDemand, h.regions, h.nextCon]
    split
    · exact h.same _
    exact (regSet_alike h _ _).andThen (fun m M h => elasticOpt_alike h _ _)
  | fcasReq r vc =>
    simp only [Market.setFcasReq, h.regions, h.nextCon]
    split
    · exact h.same _
    exact (regSet_alike h _ _).andThen (fun m M h => elasticOpt_alike h _ _)
  | fcasMaxAvail l vc =>
    simp only [Market.setFcasMaxAvail, limsOk_alike h, h.nextCon]
    split
    · exact h.same _
    exact (unitSet_alike h _ _).andThen (fun m M h => elasticOpt_alike h _ _)
  | jointRamping r ps rt vc =>
    simp only [Market.setJointRamping, fsProfilesOk_alike h, h.knows, h.bids, h.di, h.bidi, h.nextCon]
    split
    · exact h.same _
    split
    · exact h.same _
    split
    · exact h.same _
    split
    · exact h.same _
    refine (unitSetIf_alike h _ _ _).andThen (fun m M h => ?_)
    rw [h.nextCon, h.di]
    refine (unitSetIf_alike h _ _ _).andThen (fun m M h => ?_)
    rw [h.nextCon, h.di]
    refine (unitSetIf_alike h _ _ _).andThen (fun m M h => ?_)
    rw [h.nextCon, h.di]
    refine (unitSetIf_alike h _ _ _).andThen (fun m M h => ?_)
    cases vc with
    | none => exact h.same _
    | some c =>
      exact (elastic_alike h _ _).andThen (fun m M h => (elastic_alike h _ _).andThen (fun m M h =>
        (elasticIf_alike h _ _).andThen (fun m M h => elasticIf_alike h _ _)))
  | jointCapacity t vc =>
    simp only [Market.setJointCapacity, trapsOk_alike h, h.bidi, h.nextCon]
    split
    · exact h.same _
    split
    · exact h.same _
    exact (unitSet_alike h _ _).andThen (fun m M h => elasticOpt_alike h _ _)
  | energyReg t vc =>
    simp only [Market.setEnergyReg, trapsOk_alike h, h.nextCon]
    split
    · exact h.same _
    split
    · exact h.same _
    exact (unitSet_alike h _ _).andThen (fun m M h => elasticOpt_alike h _ _)
  | interconnectors d =>
    simp only [Market.setInterconnectors, Market.interDefsOk, h.regions, h.nextVar]
    split
    · exact h.same _
    split
    · exact ⟨⟨by rw [h.eq], h.con, h.mkt⟩, rfl⟩
    · exact ⟨⟨by rw [h.eq], h.con, h.mkt⟩, rfl⟩
  | losses f b =>
    simp only [Market.setLosses, h.dirs, h.inters, h.interReg, h.nextVar, h.nextCon]
    split
    · exact h.same _
    split
    · split
      · exact ⟨⟨by rw [h.eq], h.con, h.mkt⟩, rfl⟩
      · exact ⟨⟨by rw [h.eq], h.con.set _ (fun _ => rfl) rfl, h.mkt⟩, rfl⟩
    · exact ⟨⟨by rw [h.eq], h.con, h.mkt⟩, rfl⟩
  | generic g vc => exact generic_alike' h (fun _ => rfl) rfl vc
  | linkUnits g =>
    simp only [Market.linkUnits, h.knows]
    split
    · exact h.same _
    · exact ⟨⟨by rw [h.eq], h.con, h.mkt⟩, rfl⟩
  | linkRegions g =>
    simp only [Market.linkRegions, h.regions]
    split
    · exact h.same _
    · exact ⟨⟨by rw [h.eq], h.con, h.mkt⟩, rfl⟩
  | linkInters g =>
    simp only [Market.linkInters]
    split
    · exact h.same _
    · exact ⟨⟨by rw [h.eq], h.con, h.mkt⟩, rfl⟩
  | elastic j c => exact elastic_alike h j c
  | tieBreak c => exact absurd rfl (ht c)

theorem run_alike (h : Alike k m M) {ops : List Op} (ht : ∀ o ∈ ops, ∀ c, o ≠ .tieBreak c) : Alike k (m.run ops) (M.run ops) := by
  induction ops generalizing m M with
  | nil => exact h
  | cons o ops ih =>
    rw [run_cons, run_cons]
    exact ih (step_alike h (ht o (by simp))).1 (fun o ho => ht o (by simp [ho]))

theorem step_bidCost (m : Market) {op : Op} (h : ∀ b, op ≠ .priceBids b) : (m.step op).1.bidCost = m.bidCost := by
  have := part_run (m := m) (ops := [op]) (p := .prices) (by
    intro o ho
    rw [List.mem_singleton] at ho
    subst ho
    cases o <;> simp [Op.parts]
    exact absurd rfl (h _))
  exact this

/-- With the same prices of bids all calls keep markets alike. -/
theorem step_alike_same (h : Alike k m M) (hb : M.bidCost = m.bidCost) (op : Op) :
    AlikeR k (m.step op) (M.step op) ∧ (M.step op).1.bidCost = (m.step op).1.bidCost := by
  by_cases ht : ∀ c, op ≠ .tieBreak c
  · refine ⟨step_alike h ht, ?_⟩
    by_cases hp : ∀ b, op ≠ .priceBids b
    · rw [step_bidCost M hp, step_bidCost m hp, hb]
    · push Not at hp
      obtain ⟨b, rfl⟩ := hp
      simp only [Market.step, Market.setPriceBids, priceBidsOk_alike h, h.bidi, h.bids, h.units, h.nanCon]
      split
      · exact hb
      split
      · exact hb
      split
      · exact hb
      split
      · exact hb
      · rfl
  · push Not at ht
    obtain ⟨c, rfl⟩ := ht
    refine ⟨?_, by rw [step_bidCost M (by simp), step_bidCost m (by simp), hb]⟩
    simp only [Market.step, Market.setTieBreak, h.nanCon, hb, h.bids, h.units, h.nextCon]
    split
    · exact h.same _
    split
    · split
      · exact h.same _
      · apply elastic_alike
        exact ⟨by rw [h.eq, hb], h.con.set _ (fun _ => rfl) rfl, h.mkt⟩
    · exact h.same _

theorem run_alike_same (h : Alike k m M) (hb : M.bidCost = m.bidCost) (ops : List Op) :
    Alike k (m.run ops) (M.run ops) ∧ (M.run ops).bidCost = (m.run ops).bidCost := by
  induction ops generalizing m M with
  | nil => exact ⟨h, hb⟩
  | cons o ops ih =>
    rw [run_cons, run_cons]
    have := step_alike_same h hb o
    exact ih this.1.1 this.2

/-! ### The programs -/

theorem RhsAlike.nil {d D : Dict CKey (List Row)} (h : RhsAlike k d D) (e : d = []) : D = [] := by
  subst e
  cases D with
  | nil => rfl
  | cons a D =>
    have := (h a.1).2
    simp [Dict.get?] at this

theorem RhsAlike.symm {d D : Dict CKey (List Row)} (h : RhsAlike k d D) : RhsAlike k D d :=
  fun j => ⟨fun e => ((h j).1 e).symm, (h j).2.symm⟩

theorem Alike.symm (h : Alike k m M) : Alike k M m := ⟨by rw [h.eq], h.con.symm, h.mkt.symm⟩

theorem RhsAlike.mem {d D : Dict CKey (List Row)} (h : RhsAlike k d D) (hd : d.NodupKeys) {r : Row} (hr : r ∈ d.concat) :
    ∃ r' ∈ D.concat, r'.noRhs = r.noRhs ∧ ((∀ rows, d.get? k = some rows → r ∉ rows) → r' = r) := by
  obtain ⟨⟨j, rows⟩, hj, hr⟩ := List.mem_flatMap.1 hr
  have hg := Dict.get?_of_mem hd hj
  have h2 := (h j).2
  rw [hg] at h2
  obtain ⟨R, hR⟩ : ∃ R, D.get? j = some R := by
    cases e : D.get? j with
    | none => rw [e] at h2; cases h2
    | some R => exact ⟨R, rfl⟩
  rw [hR] at h2
  simp only [Option.map_some, Option.some.injEq] at h2
  by_cases e : j = k
  · subst e
    have : r.noRhs ∈ R.map Row.noRhs := by rw [h2]; exact List.mem_map_of_mem hr
    obtain ⟨r', hr', e'⟩ := List.mem_map.1 this
    exact ⟨r', List.mem_flatMap.2 ⟨(j, R), Dict.mem_of_get? hR, hr'⟩, e', fun hn => absurd hr (hn _ hg)⟩
  · have := (h j).1 e
    rw [hg, hR] at this
    injection this with this
    subst this
    exact ⟨r, List.mem_flatMap.2 ⟨(j, R), Dict.mem_of_get? hR, hr⟩, rfl, fun _ => rfl⟩

theorem setIds_noRhs (rows : List Row) : setIds (rows.map Row.noRhs) = setIds rows := by
  unfold setIds
  rw [List.filterMap_map]
  rfl

theorem RhsAlike.setIds {d D : Dict CKey (List Row)} (h : RhsAlike k d D) (j : CKey) :
    (D.get? j).map Verif.setIds = (d.get? j).map Verif.setIds := by
  have h2 := congrArg (Option.map Verif.setIds) (h j).2
  rw [Option.map_map, Option.map_map] at h2
  have e : (Verif.setIds ∘ List.map Row.noRhs) = Verif.setIds := funext setIds_noRhs
  rw [e] at h2
  exact h2

theorem genericIds_eq (m : Market) : m.genericIds = match (m.conRhs.get? .generic).map setIds, (m.mktRhs.get? .fcas).map setIds with
    | none, none => none
    | g, q => some (g.getD [] ++ q.getD []) := by
  unfold Market.genericIds
  cases m.conRhs.get? .generic <;> cases m.mktRhs.get? .fcas <;> rfl

theorem Alike.terms (h : Alike k m M) : M.terms = m.terms := by
  have hg : M.genericIds = m.genericIds := by rw [genericIds_eq, genericIds_eq, h.con.setIds, h.mkt.setIds]
  unfold Market.terms Market.fixedTerms Market.genericTerms Market.genericTermsFor Market.regTerms Market.unitTerms Market.regVars
  rw [hg, h.lossLhs, h.tieLhs, h.deficits, h.gUnit, h.bidUnit, h.gRegion, h.bidReg, h.gInter, h.inters, h.regCon, h.interReg, h.lossReg,
    h.unitCon]

theorem Alike.allVars (h : Alike k m M) : M.allVars = m.allVars := by
  unfold Market.allVars
  rw [h.bids, h.inters, h.losses, h.weights, h.deficits]

theorem Alike.allRows (h : Alike k m M) (hw : ConWF m) {c : Nat} {t : CType} {q : Rhs} (hr : (c, t, q) ∈ m.allRows) :
    ∃ q', (c, t, q') ∈ M.allRows ∧ (¬ m.rowOf k c → q' = q) := by
  unfold Market.allRows at hr ⊢
  simp only [List.mem_append, List.mem_map] at hr ⊢
  rcases hr with (⟨r, hr, e⟩ | ⟨r, hr, e⟩) | ⟨r, hr, e⟩
  · obtain ⟨r', hr', e1, e2⟩ := h.con.mem hw.conKeys hr
    injection e with e3 e
    injection e with e4 e5
    refine ⟨.const r'.rhs, Or.inl (Or.inl ⟨r', hr', ?_⟩), ?_⟩
    · rw [← e3, ← e4]
      have i1 : r'.noRhs.cid = r.noRhs.cid := congrArg Row.cid e1
      have i2 : r'.noRhs.ctype = r.noRhs.ctype := congrArg Row.ctype e1
      simp only [Row.noRhs] at i1 i2
      rw [i1, i2]
    · intro hn
      rw [e2 (fun rows hg hr => hn (Or.inl ⟨rows, hg, r, hr, e3⟩)), e5]
  · obtain ⟨r', hr', e1, e2⟩ := h.mkt.mem hw.mktKeys hr
    injection e with e3 e
    injection e with e4 e5
    refine ⟨.const r'.rhs, Or.inl (Or.inr ⟨r', hr', ?_⟩), ?_⟩
    · rw [← e3, ← e4]
      have i1 : r'.noRhs.cid = r.noRhs.cid := congrArg Row.cid e1
      have i2 : r'.noRhs.ctype = r.noRhs.ctype := congrArg Row.ctype e1
      simp only [Row.noRhs] at i1 i2
      rw [i1, i2]
    · intro hn
      rw [e2 (fun rows hg hr => hn (Or.inr (Or.inl ⟨rows, hg, r, hr, e3⟩))), e5]
  · exact ⟨q, Or.inr ⟨r, by rw [h.dynRhs]; exact hr, e⟩, fun _ => rfl⟩

/-- The programs of markets that are alike have the same variables and special ordered sets, and the same rows except for the right
hand sides of the set `k`. -/
theorem Alike.lp (h : Alike k m M) (hw : ConWF m) (hW : ConWF M) {lp L : Lp} (hl : m.assemble = .ok lp) (hL : M.assemble = .ok L) :
    L.vars = lp.vars ∧ L.sos2 = lp.sos2 ∧ L.sos1 = lp.sos1 ∧
    ∀ r ∈ lp.rows, ∃ r' ∈ L.rows, r'.cid = r.cid ∧ r'.coefs = r.coefs ∧ r'.ctype = r.ctype ∧ (¬ m.rowOf k r.cid → r' = r) := by
  obtain ⟨a1, _, a3, a4, _, a6⟩ := assemble_parts hl
  obtain ⟨b1, _, b3, b4, _, b6⟩ := assemble_parts hL
  refine ⟨by rw [b1, a1, h.allVars], by rw [b3, a3]; unfold Market.sos2Groups; rw [h.weights],
    by rw [b4, a4]; unfold Market.sos1Groups; rw [h.inters], ?_⟩
  intro r hr
  rcases a6 with ⟨e, _⟩ | ⟨_, a7⟩
  · rw [e] at hr; cases hr
  obtain ⟨c1, c2, c3⟩ := (solverRows_mem a7).2 r hr
  have hmem := lookupLast_mem c3
  rcases b6 with ⟨_, e1, e2, e3⟩ | ⟨_, b7⟩
  · obtain ⟨q', hq, _⟩ := h.allRows hw hmem
    unfold Market.allRows at hq
    rw [e1, e2, e3] at hq
    simp [Dict.concat] at hq
  rw [h.terms] at b7
  obtain ⟨ty, q, d1, d2, d3⟩ := (solverRows_mem b7).1 r.cid c1
  obtain ⟨q', hq, hq2⟩ := h.allRows hw hmem
  obtain ⟨u1, u2⟩ := unique_row hW (lookupLast_mem d1) hq
  refine ⟨_, d3, rfl, c2.symm, u1, ?_⟩
  intro hn
  have := hq2 hn
  subst this
  subst u1 u2
  cases r
  simp only at c2
  simp [c2]

end Verif
