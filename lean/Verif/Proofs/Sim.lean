import Verif.Proofs.Rename

/-! Two markets that agree up to renaming of ids, except on the parts in `Q` (bids, prices, interconnectors, links), the constraint
sets in `K` and the violation variables of the sets in `D`; every call that is about other parts and does not read the parts
in `Q` keeps them so. -/

namespace Verif

structure SimG (Q : Part → Prop) (K D : CKey → Prop) (f g : Nat → Nat) (m M : Market) : Prop where
  regions : M.regions = m.regions
  units : M.units = m.units
  di : M.di = m.di
  bids : ¬ Q .bids → M.bids = m.bids.map (List.map (BidVar.ren f))
  bidUnit : ¬ Q .bids → M.bidUnit = m.bidUnit.map (List.map (VarUnit.ren f))
  bidReg : ¬ Q .bids → M.bidReg = m.bidReg.map (List.map (VarReg.ren f))
  bidCost : ¬ Q .prices → M.bidCost = m.bidCost.map (List.map (BidCost.ren f))
  dirs : ¬ Q .inters → M.dirs = m.dirs
  inters : ¬ Q .inters → M.inters = m.inters.map (List.map (InterVar.ren f))
  interReg : ¬ Q .inters → M.interReg = m.interReg.map (List.map (InterMap.ren f))
  lossShares : ¬ K .interpWeights → M.lossShares = m.lossShares
  losses : ¬ K .interpWeights → M.losses = m.losses.map (List.map (LossVar.ren f))
  lossReg : ¬ K .interpWeights → M.lossReg = m.lossReg.map (List.map (VarReg.ren f))
  weights : ¬ K .interpWeights → M.weights = m.weights.map (List.map (WeightVar.ren f))
  lossLhs : ¬ K .interpWeights → M.lossLhs = m.lossLhs.map (List.map (Term.ren f g))
  tieLhs : ¬ K .tieBreak → M.tieLhs = m.tieLhs.map (List.map (Term.ren f g))
  deficits : ∀ k, ¬ D k → M.deficits.get? k = (m.deficits.get? k).map (renDef f g)
  gUnit : ¬ Q .gUnit → M.gUnit = m.gUnit
  gRegion : ¬ Q .gRegion → M.gRegion = m.gRegion
  gInter : ¬ Q .gInter → M.gInter = m.gInter
  unitCon : ∀ k, ¬ K k → M.unitCon.get? k = (m.unitCon.get? k).map (List.map (ConUnit.ren g))
  regCon : ∀ k, ¬ K k → M.regCon.get? k = (m.regCon.get? k).map (List.map (ConReg.ren g))
  conRhs : ∀ k, ¬ K k → M.conRhs.get? k = (m.conRhs.get? k).map (List.map (Row.ren g))
  mktRhs : ∀ k, ¬ K k → M.mktRhs.get? k = (m.mktRhs.get? k).map (List.map (Row.ren g))
  dynRhs : ¬ K .interpWeights → M.dynRhs = m.dynRhs.map (List.map (DynRow.ren f g))
  nan : M.nanCon = m.nanCon
  vars : Ren f m.nextVar M.nextVar
  cons : Ren g m.nextCon M.nextCon

/-- markets that agree on all parts but constraint sets -/
abbrev Sim (K D : CKey → Prop) (f g : Nat → Nat) (m M : Market) : Prop := SimG (fun _ => False) K D f g m M

section
variable {K D : CKey → Prop} {f g : Nat → Nat} {m M : Market}

theorem Sim.bids (h : Sim K D f g m M) : M.bids = m.bids.map (List.map (BidVar.ren f)) := SimG.bids h id
theorem Sim.bidUnit (h : Sim K D f g m M) : M.bidUnit = m.bidUnit.map (List.map (VarUnit.ren f)) := SimG.bidUnit h id
theorem Sim.bidReg (h : Sim K D f g m M) : M.bidReg = m.bidReg.map (List.map (VarReg.ren f)) := SimG.bidReg h id
theorem Sim.bidCost (h : Sim K D f g m M) : M.bidCost = m.bidCost.map (List.map (BidCost.ren f)) := SimG.bidCost h id
theorem Sim.dirs (h : Sim K D f g m M) : M.dirs = m.dirs := SimG.dirs h id
theorem Sim.inters (h : Sim K D f g m M) : M.inters = m.inters.map (List.map (InterVar.ren f)) := SimG.inters h id
theorem Sim.interReg (h : Sim K D f g m M) : M.interReg = m.interReg.map (List.map (InterMap.ren f)) := SimG.interReg h id
theorem Sim.gUnit (h : Sim K D f g m M) : M.gUnit = m.gUnit := SimG.gUnit h id
theorem Sim.gRegion (h : Sim K D f g m M) : M.gRegion = m.gRegion := SimG.gRegion h id
theorem Sim.gInter (h : Sim K D f g m M) : M.gInter = m.gInter := SimG.gInter h id

end

/-- results of a call: related markets and the same exception -/
def SimGR (Q : Part → Prop) (K D : CKey → Prop) (f g : Nat → Nat) (r R : Res) : Prop := SimG Q K D f g r.1 R.1 ∧ R.2 = r.2

abbrev SimR (K D : CKey → Prop) (f g : Nat → Nat) (r R : Res) : Prop := SimGR (fun _ => False) K D f g r R

section
variable {Q : Part → Prop} {K D : CKey → Prop} {f g : Nat → Nat} {m M : Market}

theorem SimGR.same (h : SimG Q K D f g m M) (e : Option Err) : SimGR Q K D f g (m, e) (M, e) := ⟨h, rfl⟩

theorem SimGR.andThen {r R : Res} (h : SimGR Q K D f g r R) {F G : Market → Res} (hF : ∀ m M, SimG Q K D f g m M → SimGR Q K D f g (F m) (G M)) :
    SimGR Q K D f g (r.andThen F) (R.andThen G) := by
  obtain ⟨h1, h2⟩ := h
  unfold Res.andThen
  rw [h2]
  cases r.2 with
  | none => exact hF _ _ h1
  | some e => exact ⟨h1, rfl⟩

theorem get?_set_ren {α : Type} {K : CKey → Prop} {d E : Dict CKey α} {r : α → α} (h : ∀ k, ¬ K k → E.get? k = (d.get? k).map r) (k0 : CKey) (v : α) :
    ∀ k, ¬ K k → (E.set k0 (r v)).get? k = ((d.set k0 v).get? k).map r := by
  intro k hk
  by_cases hk0 : k0 = k
  · subst hk0; simp [Dict.get?_set_self]
  · rw [Dict.get?_set_ne _ _ hk0, Dict.get?_set_ne _ _ hk0]; exact h k hk

theorem rowsOf_sim (h : SimG Q K D f g m M) {k : CKey} (hk : ¬ K k) :
    M.rowsOf k = (m.rowsOf k).map (List.map (Row.ren g)) := by
  unfold Market.rowsOf
  rw [h.mktRhs k hk, h.conRhs k hk]
  cases m.mktRhs.get? k <;> rfl

theorem nextAfter_vids {l : List DefVar} : nextAfter ((l.map (DefVar.ren f)).map DefVar.vid) = nextAfter ((l.map DefVar.vid).map f) := by
  simp only [List.map_map]; rfl

theorem deficit_ge (rs : List (Row × ℚ)) (n : Nat) : ∀ i ∈ (deficitVariables rs n).1.map DefVar.vid, n ≤ i := by
  intro i hi
  rw [deficit_vids] at hi
  have := List.mem_range'_1.1 hi
  omega

theorem elastic_sim (h : SimG Q K D f g m M) {k : CKey} (hk : ¬ K k) (c : VCost) :
    SimGR Q K D f g (m.makeElastic k c) (M.makeElastic k c) := by
  unfold Market.makeElastic
  rw [rowsOf_sim h hk]
  cases m.rowsOf k with
  | none => exact ⟨h, rfl⟩
  | some rows =>
    simp only [Option.map_some, costRows_ren]
    cases costRows k rows c with
    | error e => exact ⟨h, rfl⟩
    | ok rs =>
      simp only [Except.map, List.isEmpty_map]
      split
      · exact ⟨h, rfl⟩
      have e1 := deficit_ren h.vars g rs
      rw [e1]
      simp only [renDef, List.isEmpty_map]
      have hd := get?_set_ren h.deficits k (deficitVariables rs m.nextVar)
      simp only [renDef] at hd
      split
      · exact ⟨{ h with deficits := hd }, rfl⟩
      · rename_i hne
        refine ⟨{ h with deficits := hd, vars := ?_ }, rfl⟩
        rw [nextAfter_vids]
        apply nextAfter_ren h.vars
        · simpa [List.isEmpty_iff] using hne
        · exact deficit_ge rs m.nextVar

theorem elasticOpt_sim (h : SimG Q K D f g m M) {k : CKey} (hk : ¬ K k) (c : Option VCost) :
    SimGR Q K D f g (m.elasticOpt k c) (M.elasticOpt k c) := by
  cases c with
  | none => exact ⟨h, rfl⟩
  | some c => exact elastic_sim h hk c

theorem rows_next {rows : List Row} (h : Ren g m.nextCon M.nextCon) (hge : ∀ r ∈ rows, m.nextCon ≤ r.cid) (hne : rows ≠ []) :
    Ren g (nextAfter (rows.map Row.cid)) (nextAfter ((rows.map (Row.ren g)).map Row.cid)) := by
  have : (rows.map (Row.ren g)).map Row.cid = (rows.map Row.cid).map g := by simp only [List.map_map]; rfl
  rw [this]
  apply nextAfter_ren h
  · simpa using hne
  · intro i hi; obtain ⟨r, hr, rfl⟩ := List.mem_map.1 hi; exact hge r hr

theorem unitSet_sim (h : SimG Q K D f g m M) (k : CKey) {t T : List Row × List ConUnit} (hT : T = renUnit g t)
    (ht : FreshUnit m.nextCon t) : SimGR Q K D f g (m.addUnitSet k t) (M.addUnitSet k T) := by
  subst hT
  unfold Market.addUnitSet
  simp only [renUnit, List.isEmpty_map]
  split
  · exact ⟨{ h with conRhs := get?_set_ren h.conRhs k t.1, unitCon := get?_set_ren h.unitCon k t.2 }, rfl⟩
  · rename_i hne
    exact ⟨{ h with conRhs := get?_set_ren h.conRhs k t.1, unitCon := get?_set_ren h.unitCon k t.2,
                    cons := rows_next h.cons ht.ge (by simpa [List.isEmpty_iff] using hne) }, rfl⟩

theorem regSet_sim (h : SimG Q K D f g m M) (k : CKey) {t T : List Row × List ConReg} (hT : T = renReg g t)
    (ht : FreshReg m.nextCon t) : SimGR Q K D f g (m.addRegSet k t) (M.addRegSet k T) := by
  subst hT
  unfold Market.addRegSet
  simp only [renReg, List.isEmpty_map]
  split
  · exact ⟨{ h with mktRhs := get?_set_ren h.mktRhs k t.1, regCon := get?_set_ren h.regCon k t.2 }, rfl⟩
  · rename_i hne
    exact ⟨{ h with mktRhs := get?_set_ren h.mktRhs k t.1, regCon := get?_set_ren h.regCon k t.2,
                    cons := rows_next h.cons ht.ge (by simpa [List.isEmpty_iff] using hne) }, rfl⟩

theorem knows_sim (h : SimG Q K D f g m M) : M.knows = m.knows := by
  funext u; simp only [Market.knows, h.units]

theorem bidi_sim (h : SimG Q K D f g m M) : M.bidi = m.bidi := by
  simp only [Market.bidi, h.units]

theorem has_sim {α : Type} {K : CKey → Prop} {d E : Dict CKey α} {r : α → α} (h : ∀ k, ¬ K k → E.get? k = (d.get? k).map r) {k : CKey} (hk : ¬ K k) :
    E.has k = d.has k := by
  simp only [Dict.has, h k hk, Option.isSome_map]

theorem bids_none (h : SimG Q K D f g m M) (hb : ¬ Q .bids) : M.bids.isNone = m.bids.isNone := by rw [h.bids hb]; simp

theorem elasticIf_sim (h : SimG Q K D f g m M) {k : CKey} (hk : ¬ K k) (c : VCost) :
    SimGR Q K D f g (m.elasticIfPresent k c) (M.elasticIfPresent k c) := by
  unfold Market.elasticIfPresent
  rw [has_sim h.unitCon hk]
  split
  · exact elastic_sim h hk c
  · exact ⟨h, rfl⟩

theorem volumeBids_sim (h : SimG Q K D f g m M) (b : List BidRow) : SimGR Q K D f g (m.setVolumeBids b) (M.setVolumeBids b) := by
  unfold Market.setVolumeBids Market.volumeBidsOk
  rw [knows_sim h, bidi_sim h]
  split
  · exact ⟨h, rfl⟩
  split
  · exact ⟨h, rfl⟩
  simp only [bidVariables_ren h.vars, List.isEmpty_map, h.units, bidUnitMap_ren, bidRegMap_ren]
  split
  · exact ⟨{ h with units := rfl, bids := fun _ => rfl, bidUnit := fun _ => rfl, bidReg := fun _ => rfl }, rfl⟩
  · rename_i hne
    refine ⟨{ h with units := rfl, bids := fun _ => rfl, bidUnit := fun _ => rfl, bidReg := fun _ => rfl, vars := ?_ }, rfl⟩
    have e : ((bidVariables b m.nextVar).map (BidVar.ren f)).map BidVar.vid = ((bidVariables b m.nextVar).map BidVar.vid).map f := by
      simp only [List.map_map]; rfl
    rw [e]
    apply nextAfter_ren h.vars
    · simpa [List.isEmpty_iff] using hne
    · intro i hi
      rw [bidVariables_vids] at hi
      have := List.mem_range'_1.1 hi
      omega

theorem priceBids_sim (h : SimG Q K D f g m M) (hb : ¬ Q .bids) (b : List BidRow) : SimGR Q K D f g (m.setPriceBids b) (M.setPriceBids b) := by
  unfold Market.setPriceBids Market.priceBidsOk
  rw [h.bids hb, knows_sim h, bidi_sim h]
  cases m.bids with
  | none => exact ⟨h, rfl⟩
  | some vars =>
    simp only [Option.map_some]
    split
    · exact ⟨h, rfl⟩
    split
    · exact ⟨h, rfl⟩
    refine ⟨{ h with bids := fun _ => rfl, bidCost := fun _ => ?_ }, rfl⟩
    simp only [bidCosts_ren, h.units, scale_ren, Option.map_some]

theorem capacity_sim (h : SimG Q K D f g m M) (hb : ¬ Q .bids) (hk : ¬ K .unitBidCapacity) (l : List Lim) (vc : Option VCost) :
    SimGR Q K D f g (m.setCapacity l vc) (M.setCapacity l vc) := by
  unfold Market.setCapacity Market.limsOk
  rw [bids_none h hb, knows_sim h, bidi_sim h]
  split
  · exact ⟨h, rfl⟩
  split
  · exact ⟨h, rfl⟩
  exact (unitSet_sim h _ (capacity_ren h.cons l _) (freshUnit_capacity ..)).andThen (fun _ _ h => elasticOpt_sim h hk vc)

theorem uigf_sim (h : SimG Q K D f g m M) (hb : ¬ Q .bids) (hk : ¬ K .uigf) (l : List Lim) (vc : Option VCost) :
    SimGR Q K D f g (m.setUigf l vc) (M.setUigf l vc) := by
  unfold Market.setUigf Market.limsOk
  rw [bids_none h hb, knows_sim h]
  split
  · exact ⟨h, rfl⟩
  split
  · exact ⟨h, rfl⟩
  exact (unitSet_sim h _ (createConstraints_ren h.cons l _) (freshUnit_createConstraints _ _ _ (by decide))).andThen
    (fun _ _ h => elasticOpt_sim h hk vc)

theorem fcasMaxAvail_sim (h : SimG Q K D f g m M) (hk : ¬ K .fcasMaxAvail) (l : List Lim) (vc : Option VCost) :
    SimGR Q K D f g (m.setFcasMaxAvail l vc) (M.setFcasMaxAvail l vc) := by
  unfold Market.setFcasMaxAvail Market.limsOk
  rw [knows_sim h]
  split
  · exact ⟨h, rfl⟩
  exact (unitSet_sim h _ (createConstraints_ren h.cons l _) (freshUnit_createConstraints _ _ _ (by decide))).andThen
    (fun _ _ h => elasticOpt_sim h hk vc)

theorem fsProfilesOk_sim (h : SimG Q K D f g m M) (rt : RunType) (ps : Option (List FsRamp)) :
    M.fsProfilesOk rt ps = m.fsProfilesOk rt ps := by
  unfold Market.fsProfilesOk Market.fsRampOk
  rw [knows_sim h]

theorem scadaOptOk_sim (h : SimG Q K D f g m M) (sc : Option (List Scada)) : M.scadaOptOk sc = m.scadaOptOk sc := by
  unfold Market.scadaOptOk Market.scadaOk
  rw [knows_sim h]

theorem biRamps_sim (h : SimG Q K D f g m M) (bi : List BiRamp) : SimGR Q K D f g (m.addBiRamps bi) (M.addBiRamps bi) := by
  unfold Market.addBiRamps
  split
  · exact ⟨h, rfl⟩
  rw [h.di]
  refine (unitSet_sim h _ (biRamp_ren h.cons bi _ _) (freshUnit_biRamp ..)).andThen (fun m1 M1 h1 => ?_)
  rw [h1.di]
  exact unitSet_sim h1 _ (biRamp_ren h1.cons bi _ _) (freshUnit_biRamp ..)

theorem rampRates_sim (h : SimG Q K D f g m M) (hk : ¬ K .rampUp ∧ ¬ K .rampDown ∧ ¬ K .biRampUp ∧ ¬ K .biRampDown)
    (r : List RampRow) (sc : Option (List Scada)) (ps : Option (List FsRamp)) (rt : RunType) (vc : Option VCost) :
    SimGR Q K D f g (m.setRampRates r sc ps rt vc) (M.setRampRates r sc ps rt vc) := by
  unfold Market.setRampRates Market.rampsOk
  rw [knows_sim h, bidi_sim h, fsProfilesOk_sim h, scadaOptOk_sim h, h.di]
  split
  · exact ⟨h, rfl⟩
  split
  · exact ⟨h, rfl⟩
  split
  · exact ⟨h, rfl⟩
  split
  · exact ⟨h, rfl⟩
  dsimp only
  split
  · exact ⟨h, rfl⟩
  rename_i ord _
  refine (unitSet_sim h _ (createConstraints_ren h.cons _ _) (freshUnit_createConstraints _ _ _ (by decide))).andThen
    (fun m1 M1 h1 => ?_)
  rw [h1.di]
  refine (unitSet_sim h1 _ (createConstraints_ren h1.cons _ _) (freshUnit_createConstraints _ _ _ (by decide))).andThen
    (fun m2 M2 h2 => ?_)
  refine (biRamps_sim h2 _).andThen (fun m3 M3 h3 => ?_)
  cases vc with
  | none => exact ⟨h3, rfl⟩
  | some c =>
    exact (elastic_sim h3 hk.1 c).andThen (fun _ _ h4 => (elastic_sim h4 hk.2.1 c).andThen (fun _ _ h5 =>
      (elasticIf_sim h5 hk.2.2.1 c).andThen (fun _ _ h6 => elasticIf_sim h6 hk.2.2.2 c)))

theorem fastStart_sim (h : SimG Q K D f g m M) (hk : ¬ K .fastStart) (p : List FsInput) (vc : Option VCost) :
    SimGR Q K D f g (m.setFastStart p vc) (M.setFastStart p vc) := by
  unfold Market.setFastStart Market.fsInputsOk
  rw [knows_sim h, h.units]
  split
  · exact ⟨h, rfl⟩
  simp only [fastStart_ren h.cons]
  have : (renUnit g (fastStartConstraints (mergeFsProfiles m.units p) m.nextCon)).1.isEmpty =
      (fastStartConstraints (mergeFsProfiles m.units p) m.nextCon).1.isEmpty := by simp [renUnit]
  rw [this]
  split
  · exact ⟨h, rfl⟩
  exact (unitSet_sim h _ rfl (freshUnit_fastStart ..)).andThen (fun _ _ h => elasticOpt_sim h hk vc)

theorem get?_erase_ren {α : Type} {K : CKey → Prop} {d E : Dict CKey α} {r : α → α} (h : ∀ k, ¬ K k → E.get? k = (d.get? k).map r) (k0 : CKey) :
    ∀ k, ¬ K k → (E.erase k0).get? k = ((d.erase k0).get? k).map r := by
  intro k hk
  by_cases hk0 : k0 = k
  · subst hk0; simp [Dict.get?_erase_self]
  · rw [Dict.get?_erase_ne _ hk0, Dict.get?_erase_ne _ hk0]; exact h k hk

theorem removeFs_sim (h : SimG Q K D f g m M) (hk : ¬ K .fastStart) : SimGR Q K D f g m.removeFastStart M.removeFastStart := by
  unfold Market.removeFastStart
  simp only [has_sim h.conRhs hk]
  have one : ∀ m1 : Market, ∀ k, (if m1.deficits.has .fastStart then { m1 with deficits := m1.deficits.erase .fastStart } else m1).deficits.get? k =
      (m1.deficits.erase .fastStart).get? k := by
    intro m1 k
    split
    · rfl
    · rename_i hh
      by_cases hk : CKey.fastStart = k
      · subst hk
        rw [Dict.get?_erase_self]
        simpa [Dict.has] using hh
      · rw [Dict.get?_erase_ne _ hk]
  have two : ∀ m1 : Market, ∃ d, (if m1.deficits.has .fastStart then { m1 with deficits := m1.deficits.erase .fastStart } else m1) =
      { m1 with deficits := d } := by
    intro m1
    split
    · exact ⟨_, rfl⟩
    · exact ⟨_, rfl⟩
  have key : ∀ m1 M1, SimG Q K D f g m1 M1 → SimG Q K D f g
      (if m1.deficits.has .fastStart then { m1 with deficits := m1.deficits.erase .fastStart } else m1)
      (if M1.deficits.has .fastStart then { M1 with deficits := M1.deficits.erase .fastStart } else M1) := by
    intro m1 M1 h1
    have a := one m1
    have b := one M1
    obtain ⟨d, hd⟩ := two m1
    obtain ⟨e, he⟩ := two M1
    rw [hd] at a ⊢
    rw [he] at b ⊢
    have hde : ∀ k, ¬ D k → e.get? k = (d.get? k).map (renDef f g) := by
      intro k hk
      have a' : d.get? k = (m1.deficits.erase .fastStart).get? k := a k
      have b' : e.get? k = (M1.deficits.erase .fastStart).get? k := b k
      rw [a', b']
      exact get?_erase_ren h1.deficits _ k hk
    exact { h1 with deficits := hde }
  refine ⟨?_, rfl⟩
  apply key
  split
  · exact { h with conRhs := get?_erase_ren h.conRhs _, unitCon := get?_erase_ren h.unitCon _ }
  · exact h

theorem demand_sim (h : SimG Q K D f g m M) (hk : ¬ K .demand) (d : List Demand) (vc : Option VCost) :
    SimGR Q K D f g (m.setDemand d vc) (M.setDemand d vc) := by
  unfold Market.setDemand
  rw [h.regions]
  split
  · exact ⟨h, rfl⟩
  exact (regSet_sim h _ (energy_ren h.cons d) (freshReg_energy ..)).andThen (fun _ _ h => elasticOpt_sim h hk vc)

theorem fcasReq_sim (h : SimG Q K D f g m M) (hk : ¬ K .fcas) (r : List FcasReq) (vc : Option VCost) :
    SimGR Q K D f g (m.setFcasReq r vc) (M.setFcasReq r vc) := by
  unfold Market.setFcasReq
  rw [h.regions]
  split
  · exact ⟨h, rfl⟩
  rename_i hc
  have hty : ∀ x ∈ r, x.ctype ≠ .other := by
    intro x hx
    simp only [Bool.not_eq_true', Bool.not_eq_false, Bool.and_eq_true, List.all_eq_true, decide_eq_true_eq] at hc
    exact (hc.1 x hx).2
  exact (regSet_sim h _ (fcas_ren h.cons r) (freshReg_fcas _ _ hty)).andThen (fun _ _ h => elasticOpt_sim h hk vc)

theorem unitSetIf_sim (h : SimG Q K D f g m M) (k : CKey) (b : Bool) {t T : List Row × List ConUnit} (hT : T = renUnit g t)
    (ht : FreshUnit m.nextCon t) : SimGR Q K D f g (m.addUnitSetIf k b t) (M.addUnitSetIf k b T) := by
  unfold Market.addUnitSetIf
  split
  · exact unitSet_sim h k hT ht
  · exact ⟨h, rfl⟩

theorem jointRamping_sim (h : SimG Q K D f g m M) (hb : ¬ Q .bids) (hk : ¬ K .jrRaise ∧ ¬ K .jrLower ∧ ¬ K .jrRaiseBdu ∧ ¬ K .jrLowerBdu)
    (r : List RampRow) (ps : Option (List FsRamp)) (rt : RunType) (vc : Option VCost) :
    SimGR Q K D f g (m.setJointRamping r ps rt vc) (M.setJointRamping r ps rt vc) := by
  unfold Market.setJointRamping
  rw [knows_sim h, bidi_sim h, fsProfilesOk_sim h, h.di, h.bids hb]
  split
  · exact ⟨h, rfl⟩
  split
  · exact ⟨h, rfl⟩
  cases m.bids with
  | none => exact ⟨h, rfl⟩
  | some vars =>
    simp only [Option.map_some]
    split
    · exact ⟨h, rfl⟩
    simp only [regRates_ren]
    refine (unitSetIf_sim h _ _ (jrConstructor_ren h.cons _ _ _ _) (freshUnit_jr _ _ _ _ _ (by decide) (by decide))).andThen (fun m1 M1 h1 => ?_)
    rw [h1.di]
    refine (unitSetIf_sim h1 _ _ (jrBdu_ren h1.cons _ _ _ _) (freshUnit_jrBdu _ _ _ _ _ (by decide))).andThen (fun m2 M2 h2 => ?_)
    rw [h2.di]
    refine (unitSetIf_sim h2 _ _ (jrConstructor_ren h2.cons _ _ _ _) (freshUnit_jr _ _ _ _ _ (by decide) (by decide))).andThen (fun m3 M3 h3 => ?_)
    rw [h3.di]
    refine (unitSetIf_sim h3 _ _ (jrBdu_ren h3.cons _ _ _ _) (freshUnit_jrBdu _ _ _ _ _ (by decide))).andThen (fun m4 M4 h4 => ?_)
    cases vc with
    | none => exact ⟨h4, rfl⟩
    | some c =>
      exact (elastic_sim h4 hk.1 c).andThen (fun _ _ h5 => (elastic_sim h5 hk.2.1 c).andThen (fun _ _ h6 =>
        (elasticIf_sim h6 hk.2.2.1 c).andThen (fun _ _ h7 => elasticIf_sim h7 hk.2.2.2 c)))

theorem jointCapacity_sim (h : SimG Q K D f g m M) (hk : ¬ K .jointCapacity) (t : List Trap) (vc : Option VCost) :
    SimGR Q K D f g (m.setJointCapacity t vc) (M.setJointCapacity t vc) := by
  unfold Market.setJointCapacity Market.trapsOk
  rw [knows_sim h, bidi_sim h]
  split
  · exact ⟨h, rfl⟩
  split
  · exact ⟨h, rfl⟩
  exact (unitSet_sim h _ (jointCapacity_ren h.cons t _) (freshUnit_jointCapacity ..)).andThen (fun _ _ h => elasticOpt_sim h hk vc)

theorem energyReg_sim (h : SimG Q K D f g m M) (hk : ¬ K .energyReg) (t : List Trap) (vc : Option VCost) :
    SimGR Q K D f g (m.setEnergyReg t vc) (M.setEnergyReg t vc) := by
  unfold Market.setEnergyReg Market.trapsOk
  rw [knows_sim h]
  split
  · exact ⟨h, rfl⟩
  split
  · exact ⟨h, rfl⟩
  exact (unitSet_sim h _ (energyReg_ren h.cons t) (freshUnit_energyReg ..)).andThen (fun _ _ h => elasticOpt_sim h hk vc)

theorem interconnectors_sim (h : SimG Q K D f g m M) (d : List InterDef) :
    SimGR Q K D f g (m.setInterconnectors d) (M.setInterconnectors d) := by
  unfold Market.setInterconnectors Market.interDefsOk
  rw [h.regions]
  split
  · exact ⟨h, rfl⟩
  simp only [interVariables_ren h.vars, interMap_ren h.vars, List.isEmpty_map]
  split
  · exact ⟨{ h with regions := rfl, dirs := fun _ => rfl, inters := fun _ => rfl, interReg := fun _ => rfl }, rfl⟩
  · rename_i hne
    refine ⟨{ h with regions := rfl, dirs := fun _ => rfl, inters := fun _ => rfl, interReg := fun _ => rfl, vars := ?_ }, rfl⟩
    have e : ((interVariables d m.nextVar).map (InterVar.ren f)).map InterVar.vid =
        ((interVariables d m.nextVar).map InterVar.vid).map f := by
      simp only [List.map_map]; rfl
    rw [e]
    apply nextAfter_ren h.vars
    · simpa [List.isEmpty_iff] using hne
    · intro i hi
      rw [interVariables_vids] at hi
      have := List.mem_range'_1.1 hi
      omega

theorem linkUnits_sim (h : SimG Q K D f g m M) (gs : List GUnit) : SimGR Q K D f g (m.linkUnits gs) (M.linkUnits gs) := by
  unfold Market.linkUnits
  rw [knows_sim h]
  split
  · exact ⟨h, rfl⟩
  · exact ⟨{ h with gUnit := fun _ => rfl }, rfl⟩

theorem linkRegions_sim (h : SimG Q K D f g m M) (gs : List GRegion) : SimGR Q K D f g (m.linkRegions gs) (M.linkRegions gs) := by
  unfold Market.linkRegions
  rw [h.regions]
  split
  · exact ⟨h, rfl⟩
  · exact ⟨{ h with regions := rfl, gRegion := fun _ => rfl }, rfl⟩

theorem linkInters_sim (h : SimG Q K D f g m M) (gs : List GInter) : SimGR Q K D f g (m.linkInters gs) (M.linkInters gs) := by
  unfold Market.linkInters
  split
  · exact ⟨h, rfl⟩
  · exact ⟨{ h with gInter := fun _ => rfl }, rfl⟩

theorem generic_sim (h : SimG Q K D f g m M) (hk : ¬ K .generic) (gs : List GenericRow) (vc : Option VCost) :
    SimGR Q K D f g (m.setGeneric gs vc) (M.setGeneric gs vc) := by
  unfold Market.setGeneric
  split
  · exact ⟨h, rfl⟩
  simp only [generic_ren h.cons, List.isEmpty_map]
  apply elasticOpt_sim _ hk
  split
  · exact { h with conRhs := get?_set_ren h.conRhs _ _, nan := rfl }
  · rename_i hne
    refine { h with conRhs := get?_set_ren h.conRhs _ _, cons := ?_ }
    apply rows_next h.cons
    · intro r hr
      obtain ⟨i, l, _, h1, _, rfl⟩ := mem_saveIndex_lt hr
      exact h1
    · simpa [List.isEmpty_iff] using hne

theorem tieBreak_sim (h : SimG Q K D f g m M) (hb : ¬ Q .bids) (hp : ¬ Q .prices) (hk : ¬ K .tieBreak) (c : ℚ) :
    SimGR Q K D f g (m.setTieBreak c) (M.setTieBreak c) := by
  unfold Market.setTieBreak
  rw [h.bidCost hp, h.bids hb]
  cases m.bidCost with
  | none => exact ⟨h, rfl⟩
  | some costs =>
    cases m.bids with
    | none => exact ⟨h, rfl⟩
    | some vars =>
      simp only [Option.map_some, h.units]
      rw [tieBids_ren h.vars.inj, tiePairs_ren]
      simp only [List.isEmpty_map]
      split
      · exact ⟨h, rfl⟩
      rename_i hne
      rw [tieConstraints_ren f h.cons]
      apply elastic_sim _ hk
      refine { h with units := rfl, bids := fun _ => rfl, bidCost := fun _ => rfl, tieLhs := fun _ => rfl, conRhs := get?_set_ren h.conRhs _ _, cons := ?_ }
      apply rows_next h.cons
      · intro r hr
        simp only [tieConstraints] at hr
        obtain ⟨i, l, _, h1, _, rfl⟩ := mem_saveIndex_lt hr
        exact h1
      · intro e
        apply hne
        have := congrArg List.isEmpty e
        simpa [tieConstraints, saveIndex_isEmpty] using this

end

end Verif
