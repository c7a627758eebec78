import Verif.Proofs.ShuffleSet

/-! Every call, given the same tables with the rows in another order, leads to markets that agree up to the order of rows and ids. -/

namespace Verif

section
variable {f g : Nat → Nat} {m M : Market}

theorem all_congr_perm {α : Type} {l L : List α} (h : L.Perm l) {p P : α → Bool} (hp : ∀ a, P a = p a) : L.all P = l.all p := by
  rw [all_perm h]
  congr 1
  funext a
  exact hp a

theorem limsOk_shuf (h : ShufT f g m M) {l L : List Lim} (hl : L.Perm l) : M.limsOk L = m.limsOk l :=
  checks_perm hl (fun a => knows_shuf h a.unit) _

theorem capacityStep_shuf (h : Shuf f g m M) {l L : List Lim} (hl : L.Perm l) {vc VC : Option VCost} (hv : optSame VCost.sameRows vc VC) :
    ShufR (m.setCapacity l vc) (M.setCapacity L VC) := by
  unfold Market.setCapacity
  rw [h.tabs.bids.isNone, limsOk_shuf h.tabs hl, all_perm hl, h.nextC]
  split
  · exact h.same _
  split
  · exact h.same _
  exact (addUnitSet_shuf h _ (capacity_shuf hl _ (mem_bidi h.tabs))).andThen (fun _ _ _ _ h => elasticOpt_shuf h _ hv)

theorem uigfStep_shuf (h : Shuf f g m M) {l L : List Lim} (hl : L.Perm l) {vc VC : Option VCost} (hv : optSame VCost.sameRows vc VC) :
    ShufR (m.setUigf l vc) (M.setUigf L VC) := by
  unfold Market.setUigf
  rw [h.tabs.bids.isNone, limsOk_shuf h.tabs hl, all_perm hl, h.nextC]
  split
  · exact h.same _
  split
  · exact h.same _
  exact (addUnitSet_shuf h _ (createConstraints_shuf hl _ _)).andThen (fun _ _ _ _ h => elasticOpt_shuf h _ hv)

theorem fcasMaxAvailStep_shuf (h : Shuf f g m M) {l L : List Lim} (hl : L.Perm l) {vc VC : Option VCost} (hv : optSame VCost.sameRows vc VC) :
    ShufR (m.setFcasMaxAvail l vc) (M.setFcasMaxAvail L VC) := by
  unfold Market.setFcasMaxAvail
  rw [limsOk_shuf h.tabs hl, all_perm hl, h.nextC]
  split
  · exact h.same _
  exact (addUnitSet_shuf h _ (createConstraints_shuf hl _ _)).andThen (fun _ _ _ _ h => elasticOpt_shuf h _ hv)

theorem demandStep_shuf (h : Shuf f g m M) {l L : List Demand} (hl : L.Perm l) {vc VC : Option VCost} (hv : optSame VCost.sameRows vc VC) :
    ShufR (m.setDemand l vc) (M.setDemand L VC) := by
  unfold Market.setDemand
  rw [checks_perm hl (p := fun d => decide (d.region ∈ m.regions)) (fun a => by rw [decide_eq_decide]; exact h.tabs.regions _) _, h.nextC]
  split
  · exact h.same _
  exact (addRegSet_shuf h _ (energy_shuf hl _)).andThen (fun _ _ _ _ h => elasticOpt_shuf h _ hv)

theorem fcasReqStep_shuf (h : Shuf f g m M) {l L : List FcasReq} (hl : L.Perm l)
    (hs : ∀ a ∈ l, ∀ b ∈ l, a.set = b.set → a.volume = b.volume ∧ a.ctype = b.ctype)
    {vc VC : Option VCost} (hv : optSame VCost.sameRows vc VC) : ShufR (m.setFcasReq l vc) (M.setFcasReq L VC) := by
  unfold Market.setFcasReq
  rw [checks_perm hl (p := fun r => decide (r.region ∈ m.regions) && decide (r.ctype ≠ .other))
    (fun a => by congr 1; rw [decide_eq_decide]; exact h.tabs.regions _) _, h.nextC]
  split
  · exact h.same _
  exact (addRegSet_shuf h _ (fcas_shuf hl hs _)).andThen (fun _ _ _ _ h => elasticOpt_shuf h _ hv)

theorem trapsOk_shuf (h : ShufT f g m M) {l L : List Trap} (hl : L.Perm l) (p : Service → Bool) : M.trapsOk L p = m.trapsOk l p :=
  checks_perm hl (fun a => by rw [knows_shuf h a.unit]) _

theorem jointCapacityStep_shuf (h : Shuf f g m M) {l L : List Trap} (hl : L.Perm l) {vc VC : Option VCost} (hv : optSame VCost.sameRows vc VC) :
    ShufR (m.setJointCapacity l vc) (M.setJointCapacity L VC) := by
  unfold Market.setJointCapacity
  rw [trapsOk_shuf h.tabs hl, isEmpty_perm hl, h.nextC]
  split
  · exact h.same _
  split
  · exact h.same _
  exact (addUnitSet_shuf h _ (jointCapacity_shuf hl (mem_bidi h.tabs) _)).andThen (fun _ _ _ _ h => elasticOpt_shuf h _ hv)

theorem energyRegStep_shuf (h : Shuf f g m M) {l L : List Trap} (hl : L.Perm l) {vc VC : Option VCost} (hv : optSame VCost.sameRows vc VC) :
    ShufR (m.setEnergyReg l vc) (M.setEnergyReg L VC) := by
  unfold Market.setEnergyReg
  rw [trapsOk_shuf h.tabs hl, isEmpty_perm hl, h.nextC]
  split
  · exact h.same _
  split
  · exact h.same _
  exact (addUnitSet_shuf h _ (energyReg_shuf hl _)).andThen (fun _ _ _ _ h => elasticOpt_shuf h _ hv)

theorem fastStartStep_shuf (h : Shuf f g m M) {l L : List FsInput} (hl : L.Perm l) {vc VC : Option VCost} (hv : optSame VCost.sameRows vc VC) :
    ShufR (m.setFastStart l vc) (M.setFastStart L VC) := by
  have hok : M.fsInputsOk L = m.fsInputsOk l := checks_perm hl (fun a => by rw [knows_shuf h.tabs a.unit]) _
  have hp : (mergeFsProfiles M.units L).Perm (mergeFsProfiles m.units l) := flatMap_perm h.tabs.units (fun u => (hl.filter _).map _)
  have ht := fastStart_shuf hp m.nextCon
  unfold Market.setFastStart
  rw [hok, h.nextC]
  split
  · exact h.same _
  dsimp only
  have he : (fastStartConstraints (mergeFsProfiles M.units L) m.nextCon).1.isEmpty =
      (fastStartConstraints (mergeFsProfiles m.units l) m.nextCon).1.isEmpty := by
    obtain ⟨σ, N, _, h1, _, _⟩ := ht.ex
    rw [isEmpty_perm h1, List.isEmpty_map]
  rw [he]
  split
  · exact h.same _
  exact (addUnitSet_shuf h _ ht).andThen (fun _ _ _ _ h => elasticOpt_shuf h _ hv)

theorem tabP_erase {α : Type} {r : α → α} {d D : Dict CKey (List α)} (h : ∀ k, TabP r (d.get? k) (D.get? k)) (k0 : CKey) :
    ∀ k, TabP r ((d.erase k0).get? k) ((D.erase k0).get? k) := by
  intro k
  by_cases hk : k0 = k
  · subst hk; rw [Dict.get?_erase_self, Dict.get?_erase_self]; trivial
  · rw [Dict.get?_erase_ne _ hk, Dict.get?_erase_ne _ hk]; exact h k

theorem bnd_erase {α : Type} {P : α → Prop} {d : Dict CKey α} (h : ∀ k l, d.get? k = some l → P l) (k0 : CKey) :
    ∀ k l, (d.erase k0).get? k = some l → P l := by
  intro k l e
  by_cases hk : k0 = k
  · subst hk; rw [Dict.get?_erase_self] at e; cases e
  · rw [Dict.get?_erase_ne _ hk] at e; exact h k l e

theorem removeFastStart_shuf (h : Shuf f g m M) : ShufR m.removeFastStart M.removeFastStart := by
  have h1 : ∃ f g, Shuf f g (if m.conRhs.has .fastStart then
      { m with conRhs := m.conRhs.erase .fastStart, unitCon := m.unitCon.erase .fastStart } else m) (if M.conRhs.has .fastStart then
      { M with conRhs := M.conRhs.erase .fastStart, unitCon := M.unitCon.erase .fastStart } else M) := by
    rw [has_shuf h.tabs.conRhs]
    split
    · refine ⟨f, g, { h.tabs with conRhs := tabP_erase h.tabs.conRhs _, unitCon := tabP_erase h.tabs.unitCon _ }, h.nextV, h.nextC, h.vars,
        h.cons, { h.bnd with conRhs := bnd_erase h.bnd.conRhs _, unitCon := bnd_erase h.bnd.unitCon _ }⟩
    · exact ⟨f, g, h⟩
  unfold Market.removeFastStart
  dsimp only
  generalize (if m.conRhs.has .fastStart then
      { m with conRhs := m.conRhs.erase .fastStart, unitCon := m.unitCon.erase .fastStart } else m) = m1 at h1 ⊢
  generalize (if M.conRhs.has .fastStart then
      { M with conRhs := M.conRhs.erase .fastStart, unitCon := M.unitCon.erase .fastStart } else M) = M1 at h1 ⊢
  obtain ⟨f, g, h⟩ := h1
  have he : M1.deficits.has .fastStart = m1.deficits.has .fastStart := by
    have := h.tabs.deficits .fastStart
    unfold Dict.has
    cases e1 : m1.deficits.get? .fastStart <;> cases e2 : M1.deficits.get? .fastStart <;> rw [e1, e2] at this <;> first | exact this.elim | rfl
  rw [he]
  split
  · refine ⟨⟨f, g, { h.tabs with deficits := ?_ }, h.nextV, h.nextC, h.vars, h.cons, { h.bnd with deficits := bnd_erase h.bnd.deficits _ }⟩, rfl⟩
    intro k
    by_cases hk : CKey.fastStart = k
    · subst hk; rw [Dict.get?_erase_self, Dict.get?_erase_self]; trivial
    · rw [Dict.get?_erase_ne _ hk, Dict.get?_erase_ne _ hk]; exact h.tabs.deficits k
  · exact h.same _

/-! ### Ramp rates -/

theorem fsProfilesOk_shuf (h : ShufT f g m M) (rt : RunType) {ps PS : Option (List FsRamp)} (hp : optSame List.Perm ps PS) :
    M.fsProfilesOk rt PS = m.fsProfilesOk rt ps := by
  cases ps <;> cases PS <;> first | exact hp.elim | (cases rt <;> rfl) | skip
  rename_i p P
  have : M.fsRampOk P = m.fsRampOk p := checks_perm (List.Perm.symm hp) (fun a => by rw [knows_shuf h a.unit]) _
  cases rt <;> first | rfl | exact this

theorem scadaOptOk_shuf (h : ShufT f g m M) {ps PS : Option (List Scada)} (hp : optSame List.Perm ps PS) :
    M.scadaOptOk PS = m.scadaOptOk ps := by
  cases ps <;> cases PS <;> first | exact hp.elim | rfl | skip
  exact checks_perm (List.Perm.symm hp) (fun a => knows_shuf h a.unit) _

theorem addBiRamps_shuf (h : Shuf f g m M) {bi BI : List BiRamp} (hb : BI.Perm bi) (hn : (bi.map (·.unit)).Nodup) :
    ShufR (m.addBiRamps bi) (M.addBiRamps BI) := by
  unfold Market.addBiRamps
  rw [isEmpty_perm hb]
  split
  · exact h.same _
  rw [h.nextC, h.tabs.di]
  refine (addUnitSet_shuf h _ (biRamp_shuf hb hn true _ _)).andThen (fun f g m M h => ?_)
  rw [h.nextC, h.tabs.di]
  exact addUnitSet_shuf h _ (biRamp_shuf hb hn false _ _)

theorem elasticRamps_shuf (h : Shuf f g m M) {vc VC : Option VCost} (hv : optSame VCost.sameRows vc VC) :
    ShufR (m.elasticRamps vc) (M.elasticRamps VC) := by
  cases vc <;> cases VC <;> first | exact hv.elim | exact h.same _ | skip
  exact (elastic_shuf h _ hv).andThen (fun _ _ _ _ h => (elastic_shuf h _ hv).andThen (fun _ _ _ _ h =>
    (elasticIfPresent_shuf h _ hv).andThen (fun _ _ _ _ h => elasticIfPresent_shuf h _ hv)))

theorem rampUp_shuf {rs RS : List RampRow} (h : RS.Perm rs) (n : Nat) (di : ℚ) : UnitP n (rampUpConstraints rs n di) (rampUpConstraints RS n di) :=
  createConstraints_shuf (h.map _) n _

theorem rampDown_shuf {rs RS : List RampRow} (h : RS.Perm rs) (n : Nat) (di : ℚ) :
    UnitP n (rampDownConstraints rs n di) (rampDownConstraints RS n di) :=
  createConstraints_shuf (h.map _) n _

theorem rampRatesStep_shuf (h : Shuf f g m M) {rs RS : List RampRow} (hr : RS.Perm rs) {sc SC : Option (List Scada)}
    (hs : optSame List.Perm sc SC) {ps PS : Option (List FsRamp)} (hp : optSame List.Perm ps PS) (rt : RunType)
    {vc VC : Option VCost} (hv : optSame VCost.sameRows vc VC) : ShufR (m.setRampRates rs sc ps rt vc) (M.setRampRates RS SC PS rt VC) := by
  have h1 : M.rampsOk RS = m.rampsOk rs := checks_perm hr (fun a => knows_shuf h.tabs a.unit) _
  have h2 := biInputsOk_perm (mem_bidi h.tabs) (hr.map (fun r => r.unit))
  unfold Market.setRampRates
  rw [h1, h2, fsProfilesOk_shuf h.tabs rt hp, scadaOptOk_shuf h.tabs hs]
  split
  · exact h.same _
  rename_i c1
  split
  · exact h.same _
  split
  · exact h.same _
  split
  · exact h.same _
  rename_i c4
  dsimp only
  obtain ⟨p1, p2⟩ := composite_perm hr m.di (mem_bidi h.tabs)
  have hn : ((scadaOpt adjustForScadaBi (compositeRampRates rs m.di m.bidi).2 sc).map (·.unit)).Nodup := by
    rw [scadaOpt_bi]
    · rw [List.map_map]
      apply composite_nodup
      simp only [Market.rampsOk, Bool.not_eq_true', Bool.not_eq_false, Bool.and_eq_true, decide_eq_true_eq] at c1
      exact c1.2
    · rintro s rfl
      simp only [Market.scadaOptOk, Market.scadaOk, Bool.not_eq_true', Bool.not_eq_false, Bool.and_eq_true, decide_eq_true_eq] at c4
      exact c4.2
  rw [h.tabs.di]
  rcases fastStartRamps_perm (scada_perm p1 hs) rt hp m.di with ⟨e, e1, e2⟩ | ⟨q, Q, e1, e2, hq⟩
  · rw [e1, e2]; exact h.same _
  · rw [e1, e2]
    dsimp only
    rw [h.nextC]
    refine (addUnitSet_shuf h _ (rampUp_shuf hq _ _)).andThen (fun f g m M h => ?_)
    rw [h.nextC, h.tabs.di]
    refine (addUnitSet_shuf h _ (rampDown_shuf hq _ _)).andThen (fun f g m M h => ?_)
    exact (addBiRamps_shuf h (scadaBi_perm p2 hs) hn).andThen (fun _ _ _ _ h => elasticRamps_shuf h hv)

/-! ### Joint ramping -/

theorem regRates_perm {vs VS : List BidVar} (f : Nat → Nat) (hv : VS.Perm (vs.map (BidVar.ren f))) (s : Service) {rs RS : List RampRow} (hr : RS.Perm rs)
    (rate : RampRow → ℚ) : (regRates VS s RS rate).Perm (regRates vs s rs rate) := by
  rw [← regRates_ren f vs s rs rate]
  unfold regRates
  exact flatMap_perm (dedup_perm ((hv.filter _).map _)) (fun k => (hr.filter _).map _)

theorem addUnitSetIf_shuf (h : Shuf f g m M) (k : CKey) {b B : Bool} (hb : B = b) {t T : List Row × List ConUnit} (ht : UnitP m.nextCon t T) :
    ShufR (m.addUnitSetIf k b t) (M.addUnitSetIf k B T) := by
  subst hb
  unfold Market.addUnitSetIf
  split
  · exact addUnitSet_shuf h k ht
  · exact h.same _

theorem elasticJr_shuf (h : Shuf f g m M) {vc VC : Option VCost} (hv : optSame VCost.sameRows vc VC) :
    ShufR (m.elasticJr vc) (M.elasticJr VC) := by
  cases vc <;> cases VC <;> first | exact hv.elim | exact h.same _ | skip
  exact (elastic_shuf h _ hv).andThen (fun _ _ _ _ h => (elastic_shuf h _ hv).andThen (fun _ _ _ _ h =>
    (elasticIfPresent_shuf h _ hv).andThen (fun _ _ _ _ h => elasticIfPresent_shuf h _ hv)))

theorem regRates_same {vs : List BidVar} {s : Service} {rs : List RampRow} {rate : RampRow → ℚ} (hn : (rs.map (·.unit)).Nodup) :
    ∀ a ∈ regRates vs s rs rate, ∀ b ∈ regRates vs s rs rate, a.unit = b.unit → a.init = b.init ∧ a.rate = b.rate := by
  intro a ha b hb e
  obtain ⟨v, _, _, r, hr, hu, rfl⟩ := mem_regRates.1 ha
  obtain ⟨w, _, _, q, hq, hu', rfl⟩ := mem_regRates.1 hb
  dsimp only at e ⊢
  have : r = q := nodup_key_unique hn hr hq (by rw [hu, hu', e])
  subst this
  exact ⟨rfl, rfl⟩

theorem jointRampingStep_shuf (h : Shuf f g m M) {rs RS : List RampRow} (hr : RS.Perm rs)
    {ps PS : Option (List FsRamp)} (hp : optSame List.Perm ps PS) (rt : RunType)
    {vc VC : Option VCost} (hv : optSame VCost.sameRows vc VC) : ShufR (m.setJointRamping rs ps rt vc) (M.setJointRamping RS PS rt VC) := by
  have h1 := checks_perm hr (fun a : RampRow => knows_shuf h.tabs a.unit) (fun r => r.unit)
  unfold Market.setJointRamping
  rw [h1, fsProfilesOk_shuf h.tabs rt hp]
  split
  · exact h.same _
  rename_i c1
  split
  · exact h.same _
  rename_i c2
  have hb := h.tabs.bids
  cases e1 : m.bids with
  | none =>
    rw [e1] at hb
    rw [hb.none_iff.2 rfl]
    exact h.same _
  | some vs =>
    obtain ⟨VS, e2, hvs⟩ := hb.some_of e1
    rw [e2]
    dsimp only
    rw [h.tabs.di]
    rcases fastStartRamps_perm hr rt hp m.di with ⟨e, e1, e2⟩ | ⟨q, Q, e1, e2, hq⟩
    · rw [e1, e2]; exact h.same _
    rw [e1, e2]
    dsimp only
    have hn : (q.map (·.unit)).Nodup := by
      refine ord_nodup ?_ ?_ e1
      · simp only [Bool.not_eq_true', Bool.not_eq_false, Bool.and_eq_true, decide_eq_true_eq] at c1
        exact c1.2
      · rintro p hrt rfl
        cases rt <;> first | exact absurd rfl hrt | skip
        all_goals
          simp only [Market.fsProfilesOk, Market.fsRampOk, Bool.not_eq_true', Bool.not_eq_false, Bool.and_eq_true, decide_eq_true_eq] at c2
          exact c2.2
    have pr := regRates_perm f hvs .raiseReg hq (·.up)
    have pl := regRates_perm f hvs .lowerReg hq (·.down)
    have sr := regRates_same (vs := vs) (s := .raiseReg) (rate := (·.up)) hn
    have sl := regRates_same (vs := vs) (s := .lowerReg) (rate := (·.down)) hn
    have ord : ∀ {l L : List RegRate}, L.Perm l →
        (L.filter (fun r => decide (r.unit ∉ M.bidi))).Perm (l.filter (fun r => decide (r.unit ∉ m.bidi))) := by
      intro l L hl
      refine (hl.filter _).trans (.of_eq (List.filter_congr (fun r _ => ?_)))
      rw [decide_eq_decide, mem_bidi h.tabs]
    have bdu : ∀ {l L : List RegRate}, L.Perm l →
        (L.filter (fun r => decide (r.unit ∈ M.bidi))).Perm (l.filter (fun r => decide (r.unit ∈ m.bidi))) := by
      intro l L hl
      refine (hl.filter _).trans (.of_eq (List.filter_congr (fun r _ => ?_)))
      rw [decide_eq_decide, mem_bidi h.tabs]
    have sub : ∀ {l : List RegRate}, (∀ a ∈ l, ∀ b ∈ l, a.unit = b.unit → a.init = b.init ∧ a.rate = b.rate) →
        ∀ a ∈ l.filter (fun r => decide (r.unit ∈ m.bidi)), ∀ b ∈ l.filter (fun r => decide (r.unit ∈ m.bidi)),
          a.unit = b.unit → a.init = b.init ∧ a.rate = b.rate :=
      fun hl a ha b hb => hl a (List.mem_of_mem_filter ha) b (List.mem_of_mem_filter hb)
    rw [h.nextC]
    refine (addUnitSetIf_shuf h _ (by rw [isEmpty_perm (ord pr)]) (jr_shuf (ord pr) _ _ _ _)).andThen (fun f g m' M' h' => ?_)
    rw [h'.nextC, h'.tabs.di]
    refine (addUnitSetIf_shuf h' _ (by rw [isEmpty_perm (bdu pr)]) (jrBdu_shuf (bdu pr) (sub sr) _ _ _ _)).andThen (fun f g m' M' h' => ?_)
    rw [h'.nextC, h'.tabs.di]
    refine (addUnitSetIf_shuf h' _ (by rw [isEmpty_perm (ord pl)]) (jr_shuf (ord pl) _ _ _ _)).andThen (fun f g m' M' h' => ?_)
    rw [h'.nextC, h'.tabs.di]
    refine (addUnitSetIf_shuf h' _ (by rw [isEmpty_perm (bdu pl)]) (jrBdu_shuf (bdu pl) (sub sl) _ _ _ _)).andThen (fun f g m' M' h' => ?_)
    exact elasticJr_shuf h' hv

/-! ### Bids -/

theorem melt_perm {b B : List BidRow} (h : B.Perm b) :
    ((meltVolumes B).insertionSort BidVar.before).Perm ((meltVolumes b).insertionSort BidVar.before) := by
  refine (List.perm_insertionSort _ _).trans (List.Perm.trans ?_ (List.perm_insertionSort _ _).symm)
  exact (h.flatMap_right _).filter _

theorem energyUnits_perm {b B : List BidRow} (h : B.Perm b) : (energyUnits B).Perm (energyUnits b) := (h.filter _).map _

theorem bidUnitMap_perm {vs VS : List BidVar} (hv : VS.Perm (vs.map (BidVar.ren f))) {us US : List UnitInfo} (hu : US.Perm us)
    {b B : List String} (hb : ∀ u, u ∈ B ↔ u ∈ b) : (bidUnitMap VS US B).Perm ((bidUnitMap vs us b).map (VarUnit.ren f)) := by
  rw [← bidUnitMap_ren]
  unfold bidUnitMap
  simp only [hb]
  exact flatMap_perm hv (fun v => (hu.filter _).map _)

theorem bidRegMap_perm {vs VS : List BidVar} (hv : VS.Perm (vs.map (BidVar.ren f))) {us US : List UnitInfo} (hu : US.Perm us) :
    (bidRegMap VS US).Perm ((bidRegMap vs us).map (VarReg.ren f)) := by
  rw [← bidRegMap_ren]
  unfold bidRegMap
  exact flatMap_perm hv (fun v => (hu.filter _).map _)

/-- rows numbered as bid variables -/
def numbered (l : List BidVar) (n : Nat) : List BidVar := saveIndex l n (fun i v => { v with vid := i })

/-- the part of `setVolumeBids` that follows the checks and the sorting -/
def Market.putBids (m : Market) (l : List BidVar) : Res :=
  let vars := numbered l m.nextVar
  let m1 := { m with bids := some vars, bidUnit := some (bidUnitMap vars m.units m.bidi),
                     bidReg := some (bidRegMap vars m.units) }
  if vars.isEmpty then (m1, some .valueError)
  else ({ m1 with nextVar := nextAfter (vars.map BidVar.vid) }, none)

theorem setVolumeBids_put (m : Market) (b : List BidRow) : m.setVolumeBids b =
    if !m.volumeBidsOk b then (m, some .validation)
    else if !biInputsOk m.bidi (energyUnits b) then (m, some .modelBuild)
    else m.putBids ((meltVolumes b).insertionSort BidVar.before) := rfl

theorem putBids_shuf (h : Shuf f g m M) {l L : List BidVar} (hl : L.Perm l) : ShufR (m.putBids l) (M.putBids L) := by
  obtain ⟨σ, hσ, hF⟩ := saveIndex_perm hl m.nextVar
  obtain ⟨a1, a2, a3⟩ := hσ.after h.vars
  generalize hN : l.length = N at hσ a1
  have hvid : (numbered l m.nextVar).map BidVar.vid = List.range' m.nextVar N := by
    unfold numbered; rw [map_saveIndex, saveIndex_ids, hN]
  have hrange : ∀ v ∈ numbered l m.nextVar, m.nextVar ≤ v.vid ∧ v.vid < m.nextVar + N := by
    intro v hv
    have : v.vid ∈ (numbered l m.nextVar).map BidVar.vid := List.mem_map.2 ⟨v, hv, rfl⟩
    rw [hvid] at this
    exact List.mem_range'_1.1 this
  have p1 : (numbered L M.nextVar).Perm ((numbered l m.nextVar).map (BidVar.ren (σ ∘ f))) := by
    rw [h.nextV]
    unfold numbered
    rw [map_saveIndex]
    refine (hF _).trans (.of_eq (saveIndex_ext (fun i r hi _ _ => ?_)))
    simp only [BidVar.ren, a3 i hi]
  have q1 : ((numbered L M.nextVar).map BidVar.vid).Perm (((numbered l m.nextVar).map BidVar.vid).map σ) := by
    refine (p1.map _).trans (.of_eq ?_)
    rw [List.map_map, List.map_map]
    apply List.map_congr_left
    intro v hv
    exact a3 _ (hrange v hv).1
  have hT := h.tabs.congr (f' := σ ∘ f) (g' := g) h.bnd a2 (fun _ _ => rfl)
  have hb := h.bnd.mono (Nat.le_add_right m.nextVar N) (le_refl m.nextCon)
  have hT' : ShufT (σ ∘ f) g { m with bids := some (numbered l m.nextVar), bidUnit := some (bidUnitMap (numbered l m.nextVar) m.units m.bidi),
                                      bidReg := some (bidRegMap (numbered l m.nextVar) m.units) }
      { M with bids := some (numbered L M.nextVar), bidUnit := some (bidUnitMap (numbered L M.nextVar) M.units M.bidi),
               bidReg := some (bidRegMap (numbered L M.nextVar) M.units) } :=
    { hT with
      bids := p1
      bidUnit := bidUnitMap_perm p1 h.tabs.units (mem_bidi h.tabs)
      bidReg := bidRegMap_perm p1 h.tabs.units }
  have hb' : Bnd (m.nextVar + N) m.nextCon { m with bids := some (numbered l m.nextVar),
                                                    bidUnit := some (bidUnitMap (numbered l m.nextVar) m.units m.bidi),
                                                    bidReg := some (bidRegMap (numbered l m.nextVar) m.units) } :=
    { hb with
      bids := by
        intro l' e v hv
        injection e with e; subst e
        exact (hrange v hv).2
      bidUnit := by
        intro l' e v hv
        injection e with e; subst e
        obtain ⟨w, hw, hv'⟩ := List.mem_flatMap.1 hv
        obtain ⟨_, _, rfl⟩ := List.mem_map.1 hv'
        exact (hrange w hw).2
      bidReg := by
        intro l' e v hv
        injection e with e; subst e
        obtain ⟨w, hw, hv'⟩ := List.mem_flatMap.1 hv
        obtain ⟨_, _, rfl⟩ := List.mem_map.1 hv'
        exact (hrange w hw).2 }
  unfold Market.putBids
  dsimp only
  rw [isEmpty_perm p1, List.isEmpty_map]
  have hlen : (numbered l m.nextVar).length = N := by simpa using congrArg List.length hvid
  split
  · rename_i hz
    rw [List.isEmpty_iff_length_eq_zero, hlen] at hz
    rw [hz] at a1 hb'
    exact ⟨⟨σ ∘ f, g, hT', h.nextV, h.nextC, a1, h.cons, hb'⟩, rfl⟩
  · rename_i hz
    rw [List.isEmpty_iff_length_eq_zero, hlen] at hz
    obtain ⟨n1, n2⟩ := nextAfter_moved hσ q1 (.of_eq hvid) (Nat.pos_of_ne_zero hz)
    rw [n1, n2]
    exact ⟨⟨σ ∘ f, g, { hT' with }, rfl, h.nextC, a1, h.cons, { hb' with }⟩, rfl⟩

theorem volumeBidsStep_shuf (h : Shuf f g m M) {b B : List BidRow} (hl : B.Perm b) : ShufR (m.setVolumeBids b) (M.setVolumeBids B) := by
  have h1 : M.volumeBidsOk B = m.volumeBidsOk b := checks_perm hl (fun a => by rw [knows_shuf h.tabs a.unit]) _
  rw [setVolumeBids_put, setVolumeBids_put, h1, biInputsOk_perm (mem_bidi h.tabs) (energyUnits_perm hl)]
  split
  · exact h.same _
  split
  · exact h.same _
  exact putBids_shuf h (melt_perm hl)

theorem priceBidsStep_shuf (h : Shuf f g m M) {b B : List BidRow} (hl : B.Perm b) : ShufR (m.setPriceBids b) (M.setPriceBids B) := by
  have h1 : M.priceBidsOk B = m.priceBidsOk b := checks_perm hl (fun a => by rw [knows_shuf h.tabs a.unit]) _
  unfold Market.setPriceBids
  have hb := h.tabs.bids
  cases e1 : m.bids with
  | none =>
    rw [e1] at hb
    rw [hb.none_iff.2 rfl]
    exact h.same _
  | some vs =>
    obtain ⟨VS, e2, hvs⟩ := hb.some_of e1
    rw [e2]
    dsimp only
    rw [h1, biInputsOk_perm (mem_bidi h.tabs) (energyUnits_perm hl)]
    split
    · exact h.same _
    split
    · exact h.same _
    refine ⟨⟨f, g, { h.tabs with bids := hvs, bidCost := ?_ }, h.nextV, h.nextC, h.vars, h.cons, { h.bnd with bids := ?_, bidCost := ?_ }⟩, rfl⟩
    · show (scaleByLossFactors (bidCosts VS B) M.units).Perm _
      rw [← scale_ren, ← bidCosts_ren]
      unfold scaleByLossFactors
      refine flatMap_perm ?_ (fun c => (h.tabs.units.filter _).map _)
      unfold bidCosts
      exact flatMap_perm hvs (fun v => (hl.filter _).flatMap_right _)
    · intro l e v hv
      injection e with e; subst e
      exact h.bnd.bids _ e1 v hv
    · intro l e v hv
      injection e with e; subst e
      obtain ⟨c, hc, hv'⟩ := List.mem_flatMap.1 hv
      obtain ⟨_, _, rfl⟩ := List.mem_map.1 hv'
      obtain ⟨w, hw, hc'⟩ := List.mem_flatMap.1 hc
      obtain ⟨_, _, hc''⟩ := List.mem_flatMap.1 hc'
      obtain ⟨_, _, rfl⟩ := List.mem_map.1 hc''
      exact h.bnd.bids _ e1 w hw

/-! ### Interconnectors -/

theorem interconnectorsStep_shuf (h : Shuf f g m M) {d D : List InterDef} (hl : D.Perm d) :
    ShufR (m.setInterconnectors d) (M.setInterconnectors D) := by
  have h1 : M.interDefsOk D = m.interDefsOk d := checks_perm hl (fun a => by simp only [h.tabs.regions]) _
  unfold Market.setInterconnectors
  rw [h1]
  split
  · exact h.same _
  obtain ⟨σ, hσ, hF⟩ := saveIndex_perm hl m.nextVar
  obtain ⟨a1, a2, a3⟩ := hσ.after h.vars
  have hvid : (interVariables d m.nextVar).map InterVar.vid = List.range' m.nextVar d.length := by
    unfold interVariables; rw [map_saveIndex, saveIndex_ids]
  have p1 : (interVariables D M.nextVar).Perm ((interVariables d m.nextVar).map (InterVar.ren (σ ∘ f))) := by
    rw [h.nextV]
    unfold interVariables
    rw [map_saveIndex]
    refine (hF _).trans (.of_eq (saveIndex_ext (fun i r hi _ _ => ?_)))
    simp only [InterVar.ren, a3 i hi]
  have p2 : (interMap D M.nextVar).Perm ((interMap d m.nextVar).map (InterMap.ren (σ ∘ f))) := by
    rw [h.nextV]
    unfold interMap
    rw [List.map_append, map_saveIndex, map_saveIndex]
    refine List.Perm.append ((hF _).trans (.of_eq (saveIndex_ext (fun i r hi _ _ => ?_))))
      ((hF _).trans (.of_eq (saveIndex_ext (fun i r hi _ _ => ?_)))) <;> simp only [InterMap.ren, a3 i hi]
  have q1 : ((interVariables D M.nextVar).map InterVar.vid).Perm (((interVariables d m.nextVar).map InterVar.vid).map σ) := by
    refine (p1.map _).trans (.of_eq ?_)
    rw [List.map_map, ← List.comp_map]
    have : (InterVar.vid ∘ InterVar.ren (σ ∘ f)) = fun v => (σ ∘ f) v.vid := rfl
    rw [this]
    rw [show (interVariables d m.nextVar).map (fun v => (σ ∘ f) v.vid) = ((interVariables d m.nextVar).map InterVar.vid).map (σ ∘ f) by
      rw [List.map_map]; rfl, hvid]
    rw [show (interVariables d m.nextVar).map (σ ∘ InterVar.vid) = ((interVariables d m.nextVar).map InterVar.vid).map σ by
      rw [List.map_map], hvid]
    exact List.map_congr_left (fun i hi => a3 i (List.mem_range'_1.1 hi).1)
  have hT := h.tabs.congr (f' := σ ∘ f) (g' := g) h.bnd a2 (fun _ _ => rfl)
  have hb := h.bnd.mono (Nat.le_add_right m.nextVar d.length) (le_refl m.nextCon)
  have hT' : ShufT (σ ∘ f) g { m with dirs := some d, inters := some (interVariables d m.nextVar), interReg := some (interMap d m.nextVar) }
      { M with dirs := some D, inters := some (interVariables D M.nextVar), interReg := some (interMap D M.nextVar) } :=
    { hT with
      dirs := by show D.Perm (d.map id); rw [List.map_id]; exact hl
      inters := p1
      interReg := p2 }
  have hb' : Bnd (m.nextVar + d.length) m.nextCon { m with dirs := some d, inters := some (interVariables d m.nextVar),
                                                           interReg := some (interMap d m.nextVar) } :=
    { hb with
      inters := by
        intro l e v hv
        injection e with e; subst e
        obtain ⟨i, r, _, _, hi, rfl⟩ := mem_saveIndex_lt hv
        exact hi
      interReg := by
        intro l e v hv
        injection e with e; subst e
        rcases List.mem_append.1 hv with hv | hv <;>
        · obtain ⟨i, r, _, _, hi, rfl⟩ := mem_saveIndex_lt hv
          exact hi }
  dsimp only
  rw [isEmpty_perm p1, List.isEmpty_map]
  have hlen : (interVariables d m.nextVar).length = d.length := by simpa using congrArg List.length hvid
  split
  · rename_i hz
    rw [List.isEmpty_iff_length_eq_zero, hlen] at hz
    rw [hz] at a1 hb'
    exact ⟨⟨σ ∘ f, g, hT', h.nextV, h.nextC, a1, h.cons, hb'⟩, rfl⟩
  · rename_i hz
    rw [List.isEmpty_iff_length_eq_zero, hlen] at hz
    obtain ⟨n1, n2⟩ := nextAfter_moved hσ q1 (.of_eq hvid) (Nat.pos_of_ne_zero hz)
    rw [n1, n2]
    exact ⟨⟨σ ∘ f, g, { hT' with }, rfl, h.nextC, a1, h.cons, { hb' with }⟩, rfl⟩

/-! ### Generic constraints -/

theorem genericStep_shuf (h : Shuf f g m M) {l L : List GenericRow} (hl : L.Perm l) {vc VC : Option VCost} (hv : optSame VCost.sameRows vc VC) :
    ShufR (m.setGeneric l vc) (M.setGeneric L VC) := by
  unfold Market.setGeneric
  rw [nodup_perm (hl.map _)]
  split
  · exact h.same _
  obtain ⟨σ, hσ, hF⟩ := saveIndex_perm hl m.nextCon
  obtain ⟨a1, a2, a3⟩ := hσ.after h.cons
  have p1 : (saveIndex L M.nextCon (fun i g => ({ cid := i, ctype := g.ctype, rhs := g.rhs, set := some g.set } : Row))).Perm
      ((saveIndex l m.nextCon (fun i g => ({ cid := i, ctype := g.ctype, rhs := g.rhs, set := some g.set } : Row))).map (Row.ren (σ ∘ g))) := by
    rw [h.nextC, map_saveIndex]
    refine (hF _).trans (.of_eq (saveIndex_ext (fun i r hi _ _ => ?_)))
    simp only [Row.ren, a3 i hi]
  have hcid : (saveIndex l m.nextCon (fun i g => ({ cid := i, ctype := g.ctype, rhs := g.rhs, set := some g.set } : Row))).map Row.cid =
      List.range' m.nextCon l.length := by rw [map_saveIndex, saveIndex_ids]
  have hmem : ∀ r ∈ saveIndex l m.nextCon (fun i g => ({ cid := i, ctype := g.ctype, rhs := g.rhs, set := some g.set } : Row)),
      r.cid < m.nextCon + l.length := by
    intro r hr
    obtain ⟨i, q, _, _, hi, rfl⟩ := mem_saveIndex_lt hr
    exact hi
  generalize hr : saveIndex l m.nextCon (fun i g => ({ cid := i, ctype := g.ctype, rhs := g.rhs, set := some g.set } : Row)) = rows at p1 hcid hmem ⊢
  generalize hR : saveIndex L M.nextCon (fun i g => ({ cid := i, ctype := g.ctype, rhs := g.rhs, set := some g.set } : Row)) = R at p1 ⊢
  have q1 : (R.map Row.cid).Perm ((rows.map Row.cid).map σ) := by
    refine (map_cid_ren p1).trans (.of_eq ?_)
    rw [hcid]
    exact List.map_congr_left (fun i hi => a3 i (List.mem_range'_1.1 hi).1)
  have hT := h.tabs.congr (f' := f) (g' := σ ∘ g) h.bnd (fun _ _ => rfl) a2
  have hb := h.bnd.mono (le_refl m.nextVar) (Nat.le_add_right m.nextCon l.length)
  have hT' : ShufT f (σ ∘ g) { m with conRhs := m.conRhs.set .generic rows } { M with conRhs := M.conRhs.set .generic R } :=
    { hT with conRhs := tabP_set hT.conRhs _ p1 }
  have hb' : Bnd m.nextVar (m.nextCon + l.length) { m with conRhs := m.conRhs.set .generic rows } :=
    { hb with conRhs := bnd_set hb.conRhs _ hmem }
  have hlen : rows.length = l.length := by simpa using congrArg List.length hcid
  dsimp only
  rw [isEmpty_perm p1, List.isEmpty_map]
  split
  · rename_i hz
    rw [List.isEmpty_iff_length_eq_zero, hlen] at hz
    rw [hz] at a1 hb'
    have hs : Shuf f (σ ∘ g) { m with conRhs := m.conRhs.set .generic rows, nanCon := true }
        { M with conRhs := M.conRhs.set .generic R, nanCon := true } :=
      ⟨{ hT' with nan := rfl }, h.nextV, h.nextC, h.vars, a1, { hb' with }⟩
    exact elasticOpt_shuf hs _ hv
  · rename_i hz
    rw [List.isEmpty_iff_length_eq_zero, hlen] at hz
    obtain ⟨n1, n2⟩ := nextAfter_moved hσ q1 (.of_eq hcid) (Nat.pos_of_ne_zero hz)
    rw [n1, n2]
    have hs : Shuf f (σ ∘ g) { m with conRhs := m.conRhs.set .generic rows, nextCon := m.nextCon + l.length }
        { M with conRhs := M.conRhs.set .generic R, nextCon := m.nextCon + l.length } :=
      ⟨{ hT' with }, h.nextV, rfl, h.vars, a1, { hb' with }⟩
    exact elasticOpt_shuf hs _ hv

theorem linkUnits_shuf (h : Shuf f g m M) {l L : List GUnit} (hl : L.Perm l) : ShufR (m.linkUnits l) (M.linkUnits L) := by
  unfold Market.linkUnits
  rw [checks_perm hl (fun a : GUnit => knows_shuf h.tabs a.unit)]
  split
  · exact h.same _
  exact ⟨⟨f, g, { h.tabs with gUnit := by show L.Perm (l.map id); rw [List.map_id]; exact hl }, h.nextV, h.nextC, h.vars, h.cons, { h.bnd with }⟩, rfl⟩

theorem linkRegions_shuf (h : Shuf f g m M) {l L : List GRegion} (hl : L.Perm l) : ShufR (m.linkRegions l) (M.linkRegions L) := by
  unfold Market.linkRegions
  rw [checks_perm hl (p := fun d => decide (d.region ∈ m.regions)) (fun a => by rw [decide_eq_decide]; exact h.tabs.regions _) _]
  split
  · exact h.same _
  exact ⟨⟨f, g, { h.tabs with gRegion := by show L.Perm (l.map id); rw [List.map_id]; exact hl }, h.nextV, h.nextC, h.vars, h.cons, { h.bnd with }⟩, rfl⟩

theorem linkInters_shuf (h : Shuf f g m M) {l L : List GInter} (hl : L.Perm l) : ShufR (m.linkInters l) (M.linkInters L) := by
  unfold Market.linkInters
  rw [nodup_perm (hl.map _)]
  split
  · exact h.same _
  exact ⟨⟨f, g, { h.tabs with gInter := by show L.Perm (l.map id); rw [List.map_id]; exact hl }, h.nextV, h.nextC, h.vars, h.cons, { h.bnd with }⟩, rfl⟩

end

end Verif
