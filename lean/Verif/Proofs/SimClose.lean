import Verif.Proofs.SimRun

/-! A call that replaces a constraint set makes two markets that differ in that set agree again. -/

namespace Verif

/-- all but `k` -/
def minus (K : CKey → Prop) (k : CKey) : CKey → Prop := fun j => K j ∧ j ≠ k

/-- results of a call: the same exception, and related markets if there is none -/
def SimC (K D : CKey → Prop) (f g : Nat → Nat) (r R : Res) : Prop := R.2 = r.2 ∧ (R.2 = none → Sim K D f g r.1 R.1)

section
variable {K D : CKey → Prop} {f g : Nat → Nat} {m M : Market}

theorem SimC.err (e : Err) : SimC K D f g (m, some e) (M, some e) := ⟨rfl, fun h => by cases h⟩

theorem SimGR.toC {r R : Res} (h : SimR K D f g r R) : SimC K D f g r R := ⟨h.2, fun _ => h.1⟩

theorem SimC.andThen {K' D' : CKey → Prop} {r R : Res} (h : SimC K D f g r R) {F G : Market → Res}
    (hF : R.2 = none → Sim K D f g r.1 R.1 → SimC K' D' f g (F r.1) (G R.1)) : SimC K' D' f g (r.andThen F) (R.andThen G) := by
  obtain ⟨h1, h2⟩ := h
  unfold Res.andThen
  cases hR : R.2 with
  | none =>
    rw [← h1, hR]
    exact hF hR (h2 hR)
  | some e =>
    rw [← h1, hR]
    exact SimC.err e

theorem minus_self {k : CKey} : ¬ minus K k k := fun h => h.2 rfl

theorem minus_cases {k j : CKey} (h : ¬ minus K k j) : ¬ K j ∨ j = k := by
  by_cases hj : j = k
  · exact Or.inr hj
  · exact Or.inl (fun hK => h ⟨hK, hj⟩)

theorem SimG.dropK (h : Sim K D f g m M) {k : CKey} (hw : k ≠ .interpWeights) (ht : k ≠ .tieBreak)
    (h1 : M.unitCon.get? k = (m.unitCon.get? k).map (List.map (ConUnit.ren g)))
    (h2 : M.regCon.get? k = (m.regCon.get? k).map (List.map (ConReg.ren g)))
    (h3 : M.conRhs.get? k = (m.conRhs.get? k).map (List.map (Row.ren g)))
    (h4 : M.mktRhs.get? k = (m.mktRhs.get? k).map (List.map (Row.ren g))) : Sim (minus K k) D f g m M := by
  have w : ¬ minus K k .interpWeights → ¬ K .interpWeights := fun h => (minus_cases h).resolve_right (Ne.symm hw)
  have t : ¬ minus K k .tieBreak → ¬ K .tieBreak := fun h => (minus_cases h).resolve_right (Ne.symm ht)
  exact { h with
    lossShares := fun a => h.lossShares (w a), losses := fun a => h.losses (w a), lossReg := fun a => h.lossReg (w a)
    weights := fun a => h.weights (w a), lossLhs := fun a => h.lossLhs (w a), dynRhs := fun a => h.dynRhs (w a)
    tieLhs := fun a => h.tieLhs (t a)
    unitCon := fun j hj => (minus_cases hj).elim (h.unitCon j) (fun e => e ▸ h1)
    regCon := fun j hj => (minus_cases hj).elim (h.regCon j) (fun e => e ▸ h2)
    conRhs := fun j hj => (minus_cases hj).elim (h.conRhs j) (fun e => e ▸ h3)
    mktRhs := fun j hj => (minus_cases hj).elim (h.mktRhs j) (fun e => e ▸ h4) }

theorem SimG.dropD (h : Sim K D f g m M) {k : CKey} (h1 : M.deficits.get? k = (m.deficits.get? k).map (renDef f g)) :
    Sim K (minus D k) f g m M :=
  { h with deficits := fun j hj => (minus_cases hj).elim (h.deficits j) (fun e => e ▸ h1) }

/-! ### Tables that hold no entry of a set -/

theorem WF.noReg {m : Market} (h : WF m) {k : CKey} (hk : k.isMarket = false) : m.mktRhs.get? k = none ∧ m.regCon.get? k = none := by
  constructor
  · cases e : m.mktRhs.get? k with
    | none => rfl
    | some t => have := h.con.mktMkt _ (Dict.mem_of_get? e); rw [hk] at this; cases this
  · cases e : m.regCon.get? k with
    | none => rfl
    | some t => have := h.key.2 _ (Dict.mem_of_get? e); rw [hk] at this; cases this

theorem WF.noUnit {m : Market} (h : WF m) {k : CKey} (hk : k.isUnit = false) : m.unitCon.get? k = none := by
  cases e : m.unitCon.get? k with
  | none => rfl
  | some t => have := h.key.1 _ (Dict.mem_of_get? e); rw [hk] at this; cases this

theorem WF.noCon {m : Market} (h : WF m) {k : CKey} (hk : k.isMarket = true) : m.conRhs.get? k = none := by
  cases e : m.conRhs.get? k with
  | none => rfl
  | some t => have := h.con.conMkt _ (Dict.mem_of_get? e); rw [hk] at this; cases this

theorem isUnit_facts {k : CKey} (h : k.isUnit = true) :
    k.isMarket = false ∧ k.hasSetColumn = false ∧ k ≠ .interpWeights ∧ k ≠ .tieBreak := by
  cases k <;> simp [CKey.isUnit, CKey.isMarket, CKey.hasSetColumn] at *

/-! ### Storing a set -/

theorem addUnitSet_get (m : Market) (k : CKey) (t : List Row × List ConUnit) :
    (m.addUnitSet k t).1.unitCon = m.unitCon.set k t.2 ∧ (m.addUnitSet k t).1.conRhs = m.conRhs.set k t.1 ∧
    (m.addUnitSet k t).1.regCon = m.regCon ∧ (m.addUnitSet k t).1.mktRhs = m.mktRhs ∧
    (m.addUnitSet k t).1.deficits = m.deficits := by
  unfold Market.addUnitSet
  dsimp only
  split <;> exact ⟨rfl, rfl, rfl, rfl, rfl⟩

theorem addRegSet_get (m : Market) (k : CKey) (t : List Row × List ConReg) :
    (m.addRegSet k t).1.unitCon = m.unitCon ∧ (m.addRegSet k t).1.conRhs = m.conRhs ∧
    (m.addRegSet k t).1.regCon = m.regCon.set k t.2 ∧ (m.addRegSet k t).1.mktRhs = m.mktRhs.set k t.1 ∧
    (m.addRegSet k t).1.deficits = m.deficits := by
  unfold Market.addRegSet
  dsimp only
  split <;> exact ⟨rfl, rfl, rfl, rfl, rfl⟩

theorem unitSet_close (h : Sim K D f g m M) {k : CKey} (hk : k.isUnit = true)
    (hm : m.mktRhs.get? k = none ∧ m.regCon.get? k = none) (hM : M.mktRhs.get? k = none ∧ M.regCon.get? k = none)
    {t T : List Row × List ConUnit} (hT : T = renUnit g t)
    (ht : FreshUnit m.nextCon t) : SimR (minus K k) D f g (m.addUnitSet k t) (M.addUnitSet k T) := by
  obtain ⟨s1, s2⟩ := unitSet_sim h k hT ht
  obtain ⟨_, _, f3, f4⟩ := isUnit_facts hk
  obtain ⟨a1, a2, a3, a4, _⟩ := addUnitSet_get m k t
  obtain ⟨b1, b2, b3, b4, _⟩ := addUnitSet_get M k T
  refine ⟨s1.dropK f3 f4 ?_ ?_ ?_ ?_, s2⟩
  · rw [a1, b1, Dict.get?_set_self, Dict.get?_set_self, hT]; rfl
  · rw [a3, b3, hm.2, hM.2]; rfl
  · rw [a2, b2, Dict.get?_set_self, Dict.get?_set_self, hT]; rfl
  · rw [a4, b4, hm.1, hM.1]; rfl

theorem regSet_close (h : Sim K D f g m M) {k : CKey} (hk : k.isMarket = true) (hm : WF m) (hM : WF M)
    {t T : List Row × List ConReg} (hT : T = renReg g t)
    (ht : FreshReg m.nextCon t) : SimR (minus K k) D f g (m.addRegSet k t) (M.addRegSet k T) := by
  obtain ⟨s1, s2⟩ := regSet_sim h k hT ht
  obtain ⟨a1, a2, a3, a4, _⟩ := addRegSet_get m k t
  obtain ⟨b1, b2, b3, b4, _⟩ := addRegSet_get M k T
  have f1 : k.isUnit = false := by cases k <;> simp [CKey.isUnit, CKey.isMarket] at *
  refine ⟨s1.dropK (by rintro rfl; cases hk) (by rintro rfl; cases hk) ?_ ?_ ?_ ?_, s2⟩
  · rw [a1, b1, hm.noUnit f1, hM.noUnit f1]; rfl
  · rw [a3, b3, Dict.get?_set_self, Dict.get?_set_self, hT]; rfl
  · rw [a2, b2, hm.noCon hk, hM.noCon hk]; rfl
  · rw [a4, b4, Dict.get?_set_self, Dict.get?_set_self, hT]; rfl

/-! ### Replacing the violation variables of a set -/

theorem makeElastic_def {m : Market} {k : CKey} {rows : List Row} (hr : m.rowsOf k = some rows) {c : VCost}
    {rs : List (Row × ℚ)} (hc : costRows k rows c = .ok rs) (hne : rs ≠ []) :
    (m.makeElastic k c).1.deficits.get? k = some (deficitVariables rs m.nextVar) := by
  unfold Market.makeElastic
  rw [hr]
  simp only [hc]
  rw [if_neg (by simpa [List.isEmpty_iff] using hne)]
  split <;> exact Dict.get?_set_self _ _ _

theorem makeElastic_err {m : Market} {k : CKey} {rows : List Row} (hr : m.rowsOf k = some rows) {c : VCost}
    {e : Err} (hc : costRows k rows c = .error e) : (m.makeElastic k c).2 = some e := by
  unfold Market.makeElastic
  rw [hr]
  simp only [hc]

theorem elastic_close (h : Sim K D f g m M) {k : CKey} (hk : ¬ K k) {rows : List Row} (hr : m.rowsOf k = some rows)
    {c : VCost} (hc : ∀ rs, costRows k rows c = .ok rs → rs ≠ []) :
    SimC K (minus D k) f g (m.makeElastic k c) (M.makeElastic k c) := by
  obtain ⟨s1, s2⟩ := elastic_sim h hk c
  refine ⟨s2, fun hok => s1.dropD ?_⟩
  have hR : M.rowsOf k = some (rows.map (Row.ren g)) := by rw [rowsOf_sim h hk, hr]; rfl
  cases hcr : costRows k rows c with
  | error e => rw [s2, makeElastic_err hr hcr] at hok; cases hok
  | ok rs =>
    have hne := hc rs hcr
    have hcR := costRows_ren (g := g) k rows c
    rw [hcr] at hcR
    rw [makeElastic_def hr hcr hne, makeElastic_def hR hcR (by simpa using hne), deficit_ren h.vars g rs]
    rfl

/-- how the violation variables of a set come to agree: they are written by the call, or there are none -/
def DefOk (k : CKey) (rows : List Row) (vc : Option VCost) (m M : Market) : Prop :=
  (m.deficits.get? k = none ∧ M.deficits.get? k = none) ∨
  ∃ c, vc = some c ∧ ∀ rs, costRows k rows c = .ok rs → rs ≠ []

theorem elasticOpt_close (h : Sim K D f g m M) {k : CKey} (hk : ¬ K k) {rows : List Row} (hr : m.rowsOf k = some rows)
    {vc : Option VCost} (hd : DefOk k rows vc m M) :
    SimC K (minus D k) f g (m.elasticOpt k vc) (M.elasticOpt k vc) := by
  rcases hd with ⟨h1, h2⟩ | ⟨c, rfl, hc⟩
  · exact (elasticOpt_sim (h.dropD (k := k) (by rw [h1, h2]; rfl)) hk vc).toC
  · exact elastic_close h hk hr hc

theorem unit_hits {k : CKey} (hk : k.isUnit = true) {rows : List Row} (hne : rows ≠ []) (c : VCost) :
    ∀ rs, costRows k rows c = .ok rs → rs ≠ [] := by
  intro rs h
  cases c with
  | num q => simp only [costRows, Except.ok.injEq] at h; subst h; simpa using hne
  | table t =>
    simp only [costRows, (isUnit_facts hk).2.1] at h
    split at h
    · cases h
    · simp at h

theorem unitCore_close (h : Sim K D f g m M) (hm : WF m) (hM : WF M) {k : CKey} (hk : k.isUnit = true)
    {t T : List Row × List ConUnit} (hT : T = renUnit g t) (ht : FreshUnit m.nextCon t) {vc : Option VCost}
    (hd : vc.isSome = true ∨ (m.deficits.get? k = none ∧ M.deficits.get? k = none)) :
    SimC (minus K k) (minus D k) f g ((m.addUnitSet k t).andThen (fun m => m.elasticOpt k vc))
      ((M.addUnitSet k T).andThen (fun m => m.elasticOpt k vc)) := by
  have f1 := (isUnit_facts hk).1
  refine (unitSet_close h hk (hm.noReg f1) (hM.noReg f1) hT ht).toC.andThen (fun hok s => ?_)
  obtain ⟨a1, a2, a3, a4, a5⟩ := addUnitSet_get m k t
  obtain ⟨b1, b2, b3, b4, b5⟩ := addUnitSet_get M k T
  have hr : (m.addUnitSet k t).1.rowsOf k = some t.1 := by
    unfold Market.rowsOf
    rw [a4, (hm.noReg f1).1, a2, Dict.get?_set_self]
  have hne : t.1 ≠ [] := by
    rintro e
    unfold Market.addUnitSet at hok
    rw [hT, renUnit, e] at hok
    simp at hok
  apply elasticOpt_close s minus_self hr
  rcases hd with hd | ⟨hd1, hd2⟩
  · obtain ⟨c, rfl⟩ := Option.isSome_iff_exists.1 hd
    exact Or.inr ⟨c, rfl, unit_hits hk hne c⟩
  · exact Or.inl ⟨by rw [a5]; exact hd1, by rw [b5]; exact hd2⟩

theorem regCore_close (h : Sim K D f g m M) (hm : WF m) (hM : WF M) {k : CKey} (hk : k.isMarket = true)
    {t T : List Row × List ConReg} (hT : T = renReg g t) (ht : FreshReg m.nextCon t) {vc : Option VCost}
    (hd : t.1 ≠ [] → DefOk k t.1 vc m M) :
    SimC (minus K k) (minus D k) f g ((m.addRegSet k t).andThen (fun m => m.elasticOpt k vc))
      ((M.addRegSet k T).andThen (fun m => m.elasticOpt k vc)) := by
  refine (regSet_close h hk hm hM hT ht).toC.andThen (fun hok s => ?_)
  obtain ⟨a1, a2, a3, a4, a5⟩ := addRegSet_get m k t
  obtain ⟨b1, b2, b3, b4, b5⟩ := addRegSet_get M k T
  have hr : (m.addRegSet k t).1.rowsOf k = some t.1 := by
    unfold Market.rowsOf
    rw [a4, Dict.get?_set_self]
  have hne : t.1 ≠ [] := by
    rintro e
    unfold Market.addRegSet at hok
    rw [hT, renReg, e] at hok
    simp at hok
  apply elasticOpt_close s minus_self hr
  rcases hd hne with ⟨hd1, hd2⟩ | hd
  · exact Or.inl ⟨by rw [a5]; exact hd1, by rw [b5]; exact hd2⟩
  · exact Or.inr hd

/-! ### Calls -/

theorem capacity_close (h : Sim K D f g m M) (hm : WF m) (hM : WF M) (l : List Lim) (vc : Option VCost)
    (hd : vc.isSome = true ∨ (m.deficits.get? .unitBidCapacity = none ∧ M.deficits.get? .unitBidCapacity = none)) :
    SimC (minus K .unitBidCapacity) (minus D .unitBidCapacity) f g (m.setCapacity l vc) (M.setCapacity l vc) := by
  unfold Market.setCapacity Market.limsOk
  rw [bids_none h id, knows_sim h, bidi_sim h]
  split
  · exact .err _
  split
  · exact .err _
  exact unitCore_close h hm hM rfl (capacity_ren h.cons l _) (freshUnit_capacity ..) hd

theorem uigf_close (h : Sim K D f g m M) (hm : WF m) (hM : WF M) (l : List Lim) (vc : Option VCost)
    (hd : vc.isSome = true ∨ (m.deficits.get? .uigf = none ∧ M.deficits.get? .uigf = none)) :
    SimC (minus K .uigf) (minus D .uigf) f g (m.setUigf l vc) (M.setUigf l vc) := by
  unfold Market.setUigf Market.limsOk
  rw [bids_none h id, knows_sim h]
  split
  · exact .err _
  split
  · exact .err _
  exact unitCore_close h hm hM rfl (createConstraints_ren h.cons l _) (freshUnit_createConstraints _ _ _ (by decide)) hd

theorem fcasMaxAvail_close (h : Sim K D f g m M) (hm : WF m) (hM : WF M) (l : List Lim) (vc : Option VCost)
    (hd : vc.isSome = true ∨ (m.deficits.get? .fcasMaxAvail = none ∧ M.deficits.get? .fcasMaxAvail = none)) :
    SimC (minus K .fcasMaxAvail) (minus D .fcasMaxAvail) f g (m.setFcasMaxAvail l vc) (M.setFcasMaxAvail l vc) := by
  unfold Market.setFcasMaxAvail Market.limsOk
  rw [knows_sim h]
  split
  · exact .err _
  exact unitCore_close h hm hM rfl (createConstraints_ren h.cons l _) (freshUnit_createConstraints _ _ _ (by decide)) hd

theorem fastStart_close (h : Sim K D f g m M) (hm : WF m) (hM : WF M) (p : List FsInput) (vc : Option VCost)
    (hp : ∃ q ∈ p, q.endMode ≤ 4)
    (hd : vc.isSome = true ∨ (m.deficits.get? .fastStart = none ∧ M.deficits.get? .fastStart = none)) :
    SimC (minus K .fastStart) (minus D .fastStart) f g (m.setFastStart p vc) (M.setFastStart p vc) := by
  unfold Market.setFastStart Market.fsInputsOk
  rw [knows_sim h, h.units]
  split
  · exact .err _
  rename_i hv
  simp only [fastStart_ren h.cons]
  have : (renUnit g (fastStartConstraints (mergeFsProfiles m.units p) m.nextCon)).1.isEmpty =
      (fastStartConstraints (mergeFsProfiles m.units p) m.nextCon).1.isEmpty := by simp [renUnit]
  rw [this]
  rw [if_neg, if_neg]
  · exact unitCore_close h hm hM rfl rfl (freshUnit_fastStart ..) hd
  all_goals
    obtain ⟨q, hq, hq4⟩ := hp
    simp only [Bool.not_eq_true', Bool.not_eq_false, Bool.and_eq_true, List.all_eq_true, decide_eq_true_eq, Market.knows] at hv
    obtain ⟨u, hu, hu2⟩ := List.mem_map.1 (hv.1 q hq).1.1.1.1
    have hmem : (⟨u.unit, u.dtype, q.endMode, q.time, q.len2, q.len4, q.minLoading⟩ : FsProfile) ∈ mergeFsProfiles m.units p := by
      simp only [mergeFsProfiles, List.mem_flatMap, List.mem_map, List.mem_filter, decide_eq_true_eq]
      exact ⟨u, hu, q, ⟨hq, hu2.symm⟩, rfl⟩
    generalize mergeFsProfiles m.units p = ps at hmem ⊢
    have key : ∀ (F : List FsProfile → List Lim) (n : Nat) (d : CType), F ps ≠ [] → (createConstraints (F ps) n d).1 ≠ [] := by
      intro F n d hF hc
      apply hF
      have := congrArg List.isEmpty hc
      simpa [createConstraints, saveIndex_isEmpty] using this
    rw [List.isEmpty_iff]
    intro e
    simp only [fastStartConstraints, List.append_eq_nil_iff] at e
    obtain ⟨⟨⟨⟨e1, e2⟩, _⟩, e3⟩, e4⟩ := e
    have hm4 : q.endMode = 0 ∨ q.endMode = 1 ∨ q.endMode = 2 ∨ q.endMode = 3 ∨ q.endMode = 4 := by omega
    rcases hm4 with a | a | a | a | a
    · exact key fsModeOne _ _ (List.ne_nil_of_mem (List.mem_map.2 ⟨_, List.mem_filter.2 ⟨hmem, by simp [a]⟩, rfl⟩)) e1
    · exact key fsModeOne _ _ (List.ne_nil_of_mem (List.mem_map.2 ⟨_, List.mem_filter.2 ⟨hmem, by simp [a]⟩, rfl⟩)) e1
    · exact key fsModeTwo _ _ (List.ne_nil_of_mem (List.mem_map.2 ⟨_, List.mem_filter.2 ⟨hmem, by simp [a]⟩, rfl⟩)) e2
    · exact key fsModeThree _ _ (List.ne_nil_of_mem (List.mem_map.2 ⟨_, List.mem_filter.2 ⟨hmem, by simp [a]⟩, rfl⟩)) e3
    · exact key fsModeFour _ _ (List.ne_nil_of_mem (List.mem_map.2 ⟨_, List.mem_filter.2 ⟨hmem, by simp [a]⟩, rfl⟩)) e4

theorem demand_close (h : Sim K D f g m M) (hm : WF m) (hM : WF M) (d : List Demand) (vc : Option VCost)
    (hd : vc.isSome = true ∨ (m.deficits.get? .demand = none ∧ M.deficits.get? .demand = none)) :
    SimC (minus K .demand) (minus D .demand) f g (m.setDemand d vc) (M.setDemand d vc) := by
  unfold Market.setDemand
  rw [h.regions]
  split
  · exact .err _
  refine regCore_close h hm hM rfl (energy_ren h.cons d) (freshReg_energy ..) (fun hne => ?_)
  rcases hd with hd | hd
  · obtain ⟨c, rfl⟩ := Option.isSome_iff_exists.1 hd
    refine Or.inr ⟨c, rfl, fun rs hrs => ?_⟩
    cases c with
    | num q => simp only [costRows, Except.ok.injEq] at hrs; subst hrs; simpa using hne
    | table t =>
      simp only [costRows, CKey.hasSetColumn] at hrs
      split at hrs
      · cases hrs
      · simp at hrs
  · exact Or.inl hd

theorem fcasReq_close (h : Sim K D f g m M) (hm : WF m) (hM : WF M) (r : List FcasReq) (vc : Option VCost)
    (hd : (∃ c, vc = some (.num c)) ∨ (∃ t, vc = some (.table t) ∧ ∃ q ∈ r, q.set ∈ t.map Prod.fst) ∨
      (m.deficits.get? .fcas = none ∧ M.deficits.get? .fcas = none)) :
    SimC (minus K .fcas) (minus D .fcas) f g (m.setFcasReq r vc) (M.setFcasReq r vc) := by
  unfold Market.setFcasReq
  rw [h.regions]
  split
  · exact .err _
  rename_i hc
  have hty : ∀ x ∈ r, x.ctype ≠ .other := by
    intro x hx
    simp only [Bool.not_eq_true', Bool.not_eq_false, Bool.and_eq_true, List.all_eq_true, decide_eq_true_eq] at hc
    exact (hc.1 x hx).2
  refine regCore_close h hm hM rfl (fcas_ren h.cons r) (freshReg_fcas _ _ hty) (fun hne => ?_)
  rcases hd with ⟨c, rfl⟩ | ⟨t, rfl, q, hq, hqt⟩ | hd
  · refine Or.inr ⟨_, rfl, fun rs hrs => ?_⟩
    simp only [costRows, Except.ok.injEq] at hrs; subst hrs; simpa using hne
  · refine Or.inr ⟨_, rfl, fun rs hrs => ?_⟩
    simp only [costRows, CKey.hasSetColumn] at hrs
    split at hrs
    · cases hrs
    · simp only [Bool.not_true, Bool.false_eq_true, if_false, Except.ok.injEq] at hrs
      subst hrs
      obtain ⟨b, hb, hb2⟩ := exists_dropDup (key := fun q : FcasReq => q.set) hq
      obtain ⟨i, hi⟩ := List.mem_iff_getElem?.1 hb
      obtain ⟨e, he, he2⟩ := List.mem_map.1 hqt
      apply List.ne_nil_of_mem (a := ((⟨m.nextCon + i, b.ctype, b.volume, some b.set, none⟩ : Row), e.2))
      simp only [List.mem_flatMap, List.mem_map, List.mem_filter, decide_eq_true_eq]
      refine ⟨_, mem_saveIndex.2 ⟨i, b, hi, rfl⟩, e, ⟨he, ?_⟩, rfl⟩
      rw [he2, ← hb2]
  · exact Or.inl hd

theorem jointCapacity_close (h : Sim K D f g m M) (hm : WF m) (hM : WF M) (t : List Trap) (vc : Option VCost)
    (hd : vc.isSome = true ∨ (m.deficits.get? .jointCapacity = none ∧ M.deficits.get? .jointCapacity = none)) :
    SimC (minus K .jointCapacity) (minus D .jointCapacity) f g (m.setJointCapacity t vc) (M.setJointCapacity t vc) := by
  unfold Market.setJointCapacity Market.trapsOk
  rw [knows_sim h, bidi_sim h]
  split
  · exact .err _
  split
  · exact .err _
  exact unitCore_close h hm hM rfl (jointCapacity_ren h.cons t _) (freshUnit_jointCapacity ..) hd

theorem energyReg_close (h : Sim K D f g m M) (hm : WF m) (hM : WF M) (t : List Trap) (vc : Option VCost)
    (hd : vc.isSome = true ∨ (m.deficits.get? .energyReg = none ∧ M.deficits.get? .energyReg = none)) :
    SimC (minus K .energyReg) (minus D .energyReg) f g (m.setEnergyReg t vc) (M.setEnergyReg t vc) := by
  unfold Market.setEnergyReg Market.trapsOk
  rw [knows_sim h]
  split
  · exact .err _
  split
  · exact .err _
  exact unitCore_close h hm hM rfl (energyReg_ren h.cons t) (freshUnit_energyReg ..) hd

theorem generic_close (h : Sim K D f g m M) (hm : WF m) (hM : WF M) (gs : List GenericRow) (vc : Option VCost)
    (hd : (gs ≠ [] ∧ ∃ c, vc = some (.num c)) ∨ (∃ t, vc = some (.table t) ∧ ∃ q ∈ gs, q.set ∈ t.map Prod.fst) ∨
      (m.deficits.get? .generic = none ∧ M.deficits.get? .generic = none)) :
    SimC (minus K .generic) (minus D .generic) f g (m.setGeneric gs vc) (M.setGeneric gs vc) := by
  unfold Market.setGeneric
  split
  · exact .err _
  simp only [generic_ren h.cons, List.isEmpty_map]
  set rows := saveIndex gs m.nextCon (fun i g => ({ cid := i, ctype := g.ctype, rhs := g.rhs, set := some g.set } : Row)) with hrows
  have hS : Sim K D f g
      (if rows.isEmpty then { m with conRhs := m.conRhs.set .generic rows, nanCon := true }
        else { m with conRhs := m.conRhs.set .generic rows, nextCon := nextAfter (rows.map Row.cid) })
      (if rows.isEmpty then { M with conRhs := M.conRhs.set .generic (rows.map (Row.ren g)), nanCon := true }
        else { M with conRhs := M.conRhs.set .generic (rows.map (Row.ren g)), nextCon := nextAfter ((rows.map (Row.ren g)).map Row.cid) }) := by
    split
    · exact { h with conRhs := get?_set_ren h.conRhs _ _, nan := rfl }
    · rename_i hne
      refine { h with conRhs := get?_set_ren h.conRhs _ _, cons := ?_ }
      apply rows_next h.cons
      · intro r hr
        obtain ⟨i, l, _, h1, _, rfl⟩ := mem_saveIndex_lt hr
        exact h1
      · simpa [List.isEmpty_iff] using hne
  have tab : ∀ (m : Market) (r : List Row), WF m → ∀ m2, m2 = (if r.isEmpty then { m with conRhs := m.conRhs.set .generic r, nanCon := true }
        else { m with conRhs := m.conRhs.set .generic r, nextCon := nextAfter (r.map Row.cid) }) →
      m2.unitCon.get? .generic = none ∧ m2.regCon.get? .generic = none ∧ m2.conRhs.get? .generic = some r ∧
      m2.mktRhs.get? .generic = none ∧ m2.deficits = m.deficits := by
    intro m r hm m2 e
    subst e
    have a := hm.noReg (k := .generic) rfl
    have b := hm.noUnit (k := .generic) rfl
    split <;> exact ⟨b, a.2, Dict.get?_set_self _ _ _, a.1, rfl⟩
  obtain ⟨a1, a2, a3, a4, a5⟩ := tab m rows hm _ rfl
  obtain ⟨b1, b2, b3, b4, b5⟩ := tab M (rows.map (Row.ren g)) hM _ rfl
  simp only [List.isEmpty_map] at b1 b2 b3 b4 b5
  have s := hS.dropK (k := .generic) (by decide) (by decide) (by rw [a1, b1]; rfl) (by rw [a2, b2]; rfl) (by rw [a3, b3]; rfl) (by rw [a4, b4]; rfl)
  refine elasticOpt_close s minus_self (rows := rows) ?_ ?_
  · unfold Market.rowsOf; rw [a4, a3]
  · rcases hd with ⟨hne, c, rfl⟩ | ⟨t, rfl, q, hq, hqt⟩ | hd
    · refine Or.inr ⟨_, rfl, fun rs hrs => ?_⟩
      simp only [costRows, Except.ok.injEq] at hrs; subst hrs
      intro e
      apply hne
      have := congrArg List.isEmpty e
      simpa [hrows, saveIndex_isEmpty] using this
    · refine Or.inr ⟨_, rfl, fun rs hrs => ?_⟩
      simp only [costRows, CKey.hasSetColumn] at hrs
      split at hrs
      · cases hrs
      · simp only [Bool.not_true, Bool.false_eq_true, if_false, Except.ok.injEq] at hrs
        subst hrs
        obtain ⟨i, hi⟩ := List.mem_iff_getElem?.1 hq
        obtain ⟨e, he, he2⟩ := List.mem_map.1 hqt
        apply List.ne_nil_of_mem (a := ((⟨m.nextCon + i, q.ctype, q.rhs, some q.set, none⟩ : Row), e.2))
        simp only [List.mem_flatMap, List.mem_map, List.mem_filter, decide_eq_true_eq]
        refine ⟨_, mem_saveIndex.2 ⟨i, q, hi, rfl⟩, e, ⟨he, ?_⟩, rfl⟩
        rw [he2]
    · exact Or.inl ⟨by rw [a5]; exact hd.1, by rw [b5]; exact hd.2⟩

/-- without the tie break constraints -/
def Market.resetTie (m : Market) : Market :=
  { m with tieLhs := none, conRhs := m.conRhs.set .tieBreak [], deficits := m.deficits.set .tieBreak ([], []) }

/-- without the interpolation constraints -/
def Market.resetLoss (m : Market) : Market :=
  { m with lossShares := none, losses := none, lossReg := none, weights := none, lossLhs := none, dynRhs := none,
           conRhs := m.conRhs.set .interpWeights [] }

theorem set_set {α : Type} (d : Dict CKey α) (k : CKey) (a b : α) : (d.set k a).set k b = d.set k b := by
  induction d with
  | nil => simp [Dict.set]
  | cons e d ih =>
    obtain ⟨k', v⟩ := e
    simp only [Dict.set]
    split
    · simp [Dict.set, *]
    · rename_i hk
      simp [Dict.set, hk, ih]

theorem tieBreak_reset (m : Market) (hm : m.mktRhs.get? .tieBreak = none) (c : ℚ) :
    (m.resetTie.setTieBreak c).2 = (m.setTieBreak c).2 ∧ ((m.setTieBreak c).2 = none → m.resetTie.setTieBreak c = m.setTieBreak c) := by
  cases hb : m.bidCost with
  | none =>
    have e1 : m.setTieBreak c = (m, some .keyError) := by unfold Market.setTieBreak; rw [hb]
    have e2 : m.resetTie.setTieBreak c = (m.resetTie, some .keyError) := by
      unfold Market.setTieBreak; rw [show m.resetTie.bidCost = none from hb]
    rw [e1, e2]; exact ⟨rfl, fun h => by cases h⟩
  | some costs =>
    cases hv : m.bids with
    | none =>
      have e1 : m.setTieBreak c = (m, some .keyError) := by unfold Market.setTieBreak; rw [hb, hv]
      have e2 : m.resetTie.setTieBreak c = (m.resetTie, some .keyError) := by
        unfold Market.setTieBreak; rw [show m.resetTie.bidCost = _ from hb, show m.resetTie.bids = none from hv]
      rw [e1, e2]; exact ⟨rfl, fun h => by cases h⟩
    | some vars =>
      have e1 : ∀ a : Market, a.bidCost = some costs → a.bids = some vars → a.setTieBreak c =
          (if (tiePairs (tieBids costs vars a.units)).isEmpty then (a, some .valueError)
          else Market.makeElastic { a with
                 tieLhs := some (tieConstraints (tiePairs (tieBids costs vars a.units)) a.nextCon).1,
                 conRhs := a.conRhs.set .tieBreak (tieConstraints (tiePairs (tieBids costs vars a.units)) a.nextCon).2,
                 nextCon := nextAfter ((tieConstraints (tiePairs (tieBids costs vars a.units)) a.nextCon).2.map Row.cid) } .tieBreak (.num c)) := by
        intro a h1 h2
        unfold Market.setTieBreak; rw [h1, h2]
      rw [e1 m hb hv, e1 m.resetTie hb hv]
      have hu : m.resetTie.units = m.units := rfl
      have hc' : m.resetTie.nextCon = m.nextCon := rfl
      rw [hu, hc']
      by_cases hne : (tiePairs (tieBids costs vars m.units)).isEmpty = true
      · rw [if_pos hne, if_pos hne]
        exact ⟨rfl, fun h => by cases h⟩
      rw [if_neg hne, if_neg hne]
      have hrne : (tieConstraints (tiePairs (tieBids costs vars m.units)) m.nextCon).2 ≠ [] := by
        intro e
        apply hne
        have := congrArg List.isEmpty e
        simpa [tieConstraints, saveIndex_isEmpty] using this
      generalize tieConstraints (tiePairs (tieBids costs vars m.units)) m.nextCon = t at hrne ⊢
      have e3 : ∀ (a : Market), a.mktRhs.get? .tieBreak = none → a.conRhs.get? .tieBreak = some t.2 →
          a.makeElastic .tieBreak (.num c) =
            (if (deficitVariables (t.2.map (fun r => (r, c))) a.nextVar).1.isEmpty
              then ({ a with deficits := a.deficits.set .tieBreak (deficitVariables (t.2.map (fun r => (r, c))) a.nextVar) }, some .valueError)
              else ({ a with deficits := a.deficits.set .tieBreak (deficitVariables (t.2.map (fun r => (r, c))) a.nextVar),
                             nextVar := nextAfter ((deficitVariables (t.2.map (fun r => (r, c))) a.nextVar).1.map DefVar.vid) }, none)) := by
        intro a h1 h2
        unfold Market.makeElastic Market.rowsOf
        rw [h1, h2]
        simp only [costRows]
        rw [if_neg (by simpa [List.isEmpty_iff] using hrne)]
      have A := e3 { m with tieLhs := some t.1, conRhs := m.conRhs.set .tieBreak t.2, nextCon := nextAfter (t.2.map Row.cid) } hm
        (Dict.get?_set_self _ _ _)
      have B : ∀ a : Market, a.mktRhs.get? .tieBreak = none → Market.makeElastic { a with tieLhs := some t.1, conRhs := a.conRhs.set .tieBreak t.2, nextCon := nextAfter (t.2.map Row.cid) }
          .tieBreak (.num c) = _ := fun a ha => e3 _ ha (Dict.get?_set_self _ _ _)
      have B' := B m.resetTie hm
      rw [A]
      have goal : ∀ {r r' s : Res}, r = r' → r' = s → r.2 = s.2 ∧ (s.2 = none → r = s) := by
        rintro r r' s rfl rfl; exact ⟨rfl, fun _ => rfl⟩
      refine goal B' ?_
      simp only [Market.resetTie, set_set]

theorem tieBreak_close (h : Sim K D f g m M) (hm : WF m) (hM : WF M) (c : ℚ) :
    SimC (minus K .tieBreak) (minus D .tieBreak) f g (m.setTieBreak c) (M.setTieBreak c) := by
  have hs : Sim (minus K .tieBreak) (minus D .tieBreak) f g m.resetTie M.resetTie := by
    have w : ¬ minus K .tieBreak .interpWeights → ¬ K .interpWeights := fun h => (minus_cases h).resolve_right (by decide)
    have a := hm.noReg (k := .tieBreak) rfl
    have b := hM.noReg (k := .tieBreak) rfl
    have a' := hm.noUnit (k := .tieBreak) rfl
    have b' := hM.noUnit (k := .tieBreak) rfl
    exact { h with
      lossShares := fun a => h.lossShares (w a), losses := fun a => h.losses (w a), lossReg := fun a => h.lossReg (w a)
      weights := fun a => h.weights (w a), lossLhs := fun a => h.lossLhs (w a), dynRhs := fun a => h.dynRhs (w a)
      tieLhs := fun _ => rfl
      deficits := fun j hj => by
        unfold Market.resetTie
        rcases minus_cases hj with hj | rfl
        · by_cases e : CKey.tieBreak = j
          · subst e; simp only [Dict.get?_set_self]; rfl
          · simp only [Dict.get?_set_ne _ _ e]; exact h.deficits j hj
        · simp only [Dict.get?_set_self]; rfl
      unitCon := fun j hj => (minus_cases hj).elim (h.unitCon j) (fun e => by subst e; show M.unitCon.get? _ = (m.unitCon.get? _).map _; rw [a', b']; rfl)
      regCon := fun j hj => (minus_cases hj).elim (h.regCon j) (fun e => by subst e; show M.regCon.get? _ = (m.regCon.get? _).map _; rw [a.2, b.2]; rfl)
      mktRhs := fun j hj => (minus_cases hj).elim (h.mktRhs j) (fun e => by subst e; show M.mktRhs.get? _ = (m.mktRhs.get? _).map _; rw [a.1, b.1]; rfl)
      conRhs := fun j hj => by
        unfold Market.resetTie
        rcases minus_cases hj with hj | rfl
        · by_cases e : CKey.tieBreak = j
          · subst e; simp only [Dict.get?_set_self]; rfl
          · simp only [Dict.get?_set_ne _ _ e]; exact h.conRhs j hj
        · simp only [Dict.get?_set_self]; rfl }
  obtain ⟨s1, s2⟩ := tieBreak_sim hs id id minus_self c
  obtain ⟨p1, p2⟩ := tieBreak_reset m (hm.noReg rfl).1 c
  obtain ⟨q1, q2⟩ := tieBreak_reset M (hM.noReg rfl).1 c
  refine ⟨by rw [← p1, ← q1]; exact s2, fun hok => ?_⟩
  rw [← q2 hok, ← p2 (by rw [← p1, ← s2, q1]; exact hok)]
  exact s1

theorem losses_reset (m : Market) (hI : InterWF m) (fs : List LossFn) (bs : List BreakPt) :
    (m.resetLoss.setLosses fs bs).2 = (m.setLosses fs bs).2 ∧
      ((m.setLosses fs bs).2 = none → m.resetLoss.setLosses fs bs = m.setLosses fs bs) := by
  rcases hI with ⟨h1, h2, h3⟩ | ⟨ds, n0, h1, h2, h3, h4⟩
  · rw [setLosses_none m fs bs h1, setLosses_none m.resetLoss fs bs h1]
    split
    · exact ⟨rfl, fun h => by cases h⟩
    · exact ⟨rfl, fun h => by cases h⟩
  · rw [setLosses_some m fs bs h1 h2 h3, setLosses_some m.resetLoss fs bs h1 h2 h3]
    split
    · exact ⟨rfl, fun h => by cases h⟩
    · unfold lossCore
      simp only [Market.resetLoss, set_set]
      split
      · exact ⟨rfl, fun h => by cases h⟩
      · exact ⟨rfl, fun _ => rfl⟩

theorem losses_close (h : Sim K D f g m M) (hm : WF m) (hM : WF M) (fs : List LossFn) (bs : List BreakPt)
    (hd : m.deficits.get? .interpWeights = none ∧ M.deficits.get? .interpWeights = none) :
    SimC (minus K .interpWeights) (minus D .interpWeights) f g (m.setLosses fs bs) (M.setLosses fs bs) := by
  have hs : Sim (minus K .interpWeights) (minus D .interpWeights) f g m.resetLoss M.resetLoss := by
    have w : ¬ minus K .interpWeights .tieBreak → ¬ K .tieBreak := fun h => (minus_cases h).resolve_right (by decide)
    have a := hm.noReg (k := .interpWeights) rfl
    have b := hM.noReg (k := .interpWeights) rfl
    have a' := hm.noUnit (k := .interpWeights) rfl
    have b' := hM.noUnit (k := .interpWeights) rfl
    exact { h with
      lossShares := fun _ => rfl, losses := fun _ => rfl, lossReg := fun _ => rfl
      weights := fun _ => rfl, lossLhs := fun _ => rfl, dynRhs := fun _ => rfl
      tieLhs := fun a => h.tieLhs (w a)
      deficits := fun j hj => (minus_cases hj).elim (h.deficits j) (fun e => by
        subst e; show M.deficits.get? _ = (m.deficits.get? _).map _; rw [hd.1, hd.2]; rfl)
      unitCon := fun j hj => (minus_cases hj).elim (h.unitCon j) (fun e => by subst e; show M.unitCon.get? _ = (m.unitCon.get? _).map _; rw [a', b']; rfl)
      regCon := fun j hj => (minus_cases hj).elim (h.regCon j) (fun e => by subst e; show M.regCon.get? _ = (m.regCon.get? _).map _; rw [a.2, b.2]; rfl)
      mktRhs := fun j hj => (minus_cases hj).elim (h.mktRhs j) (fun e => by subst e; show M.mktRhs.get? _ = (m.mktRhs.get? _).map _; rw [a.1, b.1]; rfl)
      conRhs := fun j hj => by
        unfold Market.resetLoss
        rcases minus_cases hj with hj | rfl
        · by_cases e : CKey.interpWeights = j
          · subst e; simp only [Dict.get?_set_self]; rfl
          · simp only [Dict.get?_set_ne _ _ e]; exact h.conRhs j hj
        · simp only [Dict.get?_set_self]; rfl }
  obtain ⟨s1, s2⟩ := losses_sim hs id hm.inter fs bs
  obtain ⟨p1, p2⟩ := losses_reset m hm.inter fs bs
  obtain ⟨q1, q2⟩ := losses_reset M hM.inter fs bs
  refine ⟨by rw [← p1, ← q1]; exact s2, fun hok => ?_⟩
  rw [← q2 hok, ← p2 (by rw [← p1, ← s2, q1]; exact hok)]
  exact s1

end

/-! ### Rows and maps of a unit level set come together -/

def PairWF (m : Market) : Prop := ∀ k, (m.unitCon.get? k).isSome = true → (m.conRhs.get? k).isSome = true

theorem PairWF.set {m m' : Market} (h : PairWF m) {k : CKey} {r : List Row} (h1 : m'.unitCon = m.unitCon)
    (h2 : m'.conRhs = m.conRhs.set k r) : PairWF m' := by
  intro j hj
  rw [h1] at hj
  rw [h2]
  by_cases e : k = j
  · subst e; rw [Dict.get?_set_self]; rfl
  · rw [Dict.get?_set_ne _ _ e]; exact h j hj

theorem PairWF.same {m m' : Market} (h : PairWF m) (h1 : m'.unitCon = m.unitCon) (h2 : m'.conRhs = m.conRhs) : PairWF m' := by
  intro j hj; rw [h2]; rw [h1] at hj; exact h j hj

theorem makeElastic_tabs (m : Market) (k : CKey) (c : VCost) :
    (m.makeElastic k c).1.unitCon = m.unitCon ∧ (m.makeElastic k c).1.conRhs = m.conRhs := by
  unfold Market.makeElastic
  split
  · exact ⟨rfl, rfl⟩
  split
  · exact ⟨rfl, rfl⟩
  split
  · exact ⟨rfl, rfl⟩
  dsimp only
  split <;> exact ⟨rfl, rfl⟩

theorem pairWF_prim {good : Prop} {ks : List Part} {m m' : Market} (h : Prim good ks m m') (hp : PairWF m) : PairWF m' := by
  cases h with
  | bids _ b =>
    apply hp.same <;>
    · unfold Market.setVolumeBids
      split
      · rfl
      split
      · rfl
      dsimp only
      split <;> rfl
  | prices _ b =>
    apply hp.same <;>
    · unfold Market.setPriceBids
      split
      · rfl
      split
      · rfl
      split <;> rfl
  | unitSet _ k t _ _ =>
    intro j hj
    obtain ⟨a1, a2, _⟩ := addUnitSet_get m k t
    rw [a1] at hj
    rw [a2]
    by_cases e : k = j
    · subst e; rw [Dict.get?_set_self]; rfl
    · rw [Dict.get?_set_ne _ _ e] at hj ⊢; exact hp j hj
  | regSet _ k t _ _ =>
    obtain ⟨a1, a2, _⟩ := addRegSet_get m k t
    exact hp.same a1 a2
  | elastic _ k c => exact hp.same (makeElastic_tabs m k c).1 (makeElastic_tabs m k c).2
  | removeFs _ =>
    unfold Market.removeFastStart
    dsimp only
    have key : ∀ a : Market, PairWF a → PairWF (if a.deficits.has .fastStart then { a with deficits := a.deficits.erase .fastStart } else a) := by
      intro a ha; split
      · exact ha.same rfl rfl
      · exact ha
    apply key
    split
    · intro j hj
      by_cases e : CKey.fastStart = j
      · subst e; simp [Dict.get?_erase_self] at hj
      · simp only [Dict.get?_erase_ne _ e] at hj ⊢; exact hp j hj
    · exact hp
  | inters _ d =>
    apply hp.same <;>
    · unfold Market.setInterconnectors
      split
      · rfl
      dsimp only
      split <;> rfl
  | losses _ f b _ =>
    unfold Market.setLosses
    split
    · exact hp
    dsimp only
    split
    · split
      · exact hp.same rfl rfl
      · exact hp.set rfl rfl
    · exact hp.same rfl rfl
  | generic _ g =>
    unfold Market.setGeneric Market.elasticOpt
    split
    · exact hp
    dsimp only
    split <;> exact hp.set rfl rfl
  | linkUnits _ g => unfold Market.linkUnits; split <;> exact hp.same rfl rfl
  | linkRegions _ g => unfold Market.linkRegions; split <;> exact hp.same rfl rfl
  | linkInters _ g => unfold Market.linkInters; split <;> exact hp.same rfl rfl
  | tie _ _ _ => exact hp.set (k := .tieBreak) rfl rfl

theorem Reached.pair {m : Market} (h : Reached m) : PairWF m := by
  obtain ⟨r, u, d, m0, ops, h1, h2, rfl⟩ := h
  refine run_invariant (good := False) (P := PairWF) (fun _ _ _ p => pairWF_prim p) (fun h => h.elim) ?_
  intro k hk
  unfold Market.init at h1
  split at h1
  · cases h1; simp [Dict.get?] at hk
  · cases h1

section
variable {K D : CKey → Prop} {f g : Nat → Nat} {m M : Market}

theorem removeFs_tabs (m : Market) (hp : PairWF m) : m.removeFastStart.1.unitCon.get? .fastStart = none ∧
    m.removeFastStart.1.conRhs.get? .fastStart = none ∧ m.removeFastStart.1.deficits.get? .fastStart = none ∧
    m.removeFastStart.1.regCon = m.regCon ∧ m.removeFastStart.1.mktRhs = m.mktRhs := by
  have key : ∀ a : Market, (if a.deficits.has .fastStart then { a with deficits := a.deficits.erase .fastStart } else a).deficits.get? .fastStart = none ∧
      (if a.deficits.has .fastStart then { a with deficits := a.deficits.erase .fastStart } else a).unitCon = a.unitCon ∧
      (if a.deficits.has .fastStart then { a with deficits := a.deficits.erase .fastStart } else a).conRhs = a.conRhs ∧
      (if a.deficits.has .fastStart then { a with deficits := a.deficits.erase .fastStart } else a).regCon = a.regCon ∧
      (if a.deficits.has .fastStart then { a with deficits := a.deficits.erase .fastStart } else a).mktRhs = a.mktRhs := by
    intro a
    split
    · exact ⟨Dict.get?_erase_self _ _, rfl, rfl, rfl, rfl⟩
    · rename_i hd
      refine ⟨?_, rfl, rfl, rfl, rfl⟩
      simpa [Dict.has] using hd
  unfold Market.removeFastStart
  dsimp only
  obtain ⟨k1, k2, k3, k4, k5⟩ := key (if m.conRhs.has .fastStart then
      { m with conRhs := m.conRhs.erase .fastStart, unitCon := m.unitCon.erase .fastStart } else m)
  rw [k1, k2, k3, k4, k5]
  split
  · exact ⟨Dict.get?_erase_self _ _, Dict.get?_erase_self _ _, rfl, rfl, rfl⟩
  · rename_i hd
    have hc : m.conRhs.get? .fastStart = none := by simpa [Dict.has] using hd
    refine ⟨?_, hc, rfl, rfl, rfl⟩
    cases hu : m.unitCon.get? .fastStart with
    | none => rfl
    | some t => have := hp .fastStart (by rw [hu]; rfl); rw [hc] at this; cases this

theorem removeFs_close (h : Sim K D f g m M) (hm : WF m) (hM : WF M) (pm : PairWF m) (pM : PairWF M)
    (hD : ∀ k, K k → k = .fastStart) (hD' : ∀ k, D k → k = .fastStart) :
    SimC (minus K .fastStart) (minus D .fastStart) f g m.removeFastStart M.removeFastStart := by
  refine ⟨rfl, fun _ => ?_⟩
  obtain ⟨a1, a2, a3, a4, a5⟩ := removeFs_tabs m pm
  obtain ⟨b1, b2, b3, b4, b5⟩ := removeFs_tabs M pM
  have key : ∀ (m : Market), m.removeFastStart.1 = { m with
      conRhs := m.removeFastStart.1.conRhs, unitCon := m.removeFastStart.1.unitCon, deficits := m.removeFastStart.1.deficits } := by
    intro m
    unfold Market.removeFastStart
    dsimp only
    split <;> split <;> rfl
  have other : ∀ (m : Market) (j : CKey), j ≠ .fastStart → m.removeFastStart.1.conRhs.get? j = m.conRhs.get? j ∧
      m.removeFastStart.1.unitCon.get? j = m.unitCon.get? j ∧ m.removeFastStart.1.deficits.get? j = m.deficits.get? j := by
    intro m j hj
    have := frame_prim (Prim.removeFs (good := False) m) (k := j) (by simpa using hj)
    exact ⟨this.conRhs, this.unitCon, this.deficits⟩
  have ne : ∀ {P : CKey → Prop} {j : CKey}, ¬ minus P .fastStart j → j ≠ .fastStart → ¬ P j :=
    fun h hj => (minus_cases h).resolve_right hj
  have aM := hm.noReg (k := .fastStart) rfl
  have bM := hM.noReg (k := .fastStart) rfl
  have s : Sim K D f g m.removeFastStart.1 M.removeFastStart.1 := by
    rw [key m, key M]
    exact { h with
      conRhs := fun j hj => by
        by_cases e : j = .fastStart
        · subst e; show M.removeFastStart.1.conRhs.get? _ = (m.removeFastStart.1.conRhs.get? _).map _; rw [a2, b2]; rfl
        · show M.removeFastStart.1.conRhs.get? _ = (m.removeFastStart.1.conRhs.get? _).map _
          rw [(other m j e).1, (other M j e).1]; exact h.conRhs j hj
      unitCon := fun j hj => by
        by_cases e : j = .fastStart
        · subst e; show M.removeFastStart.1.unitCon.get? _ = (m.removeFastStart.1.unitCon.get? _).map _; rw [a1, b1]; rfl
        · show M.removeFastStart.1.unitCon.get? _ = (m.removeFastStart.1.unitCon.get? _).map _
          rw [(other m j e).2.1, (other M j e).2.1]; exact h.unitCon j hj
      deficits := fun j hj => by
        by_cases e : j = .fastStart
        · subst e; show M.removeFastStart.1.deficits.get? _ = (m.removeFastStart.1.deficits.get? _).map _; rw [a3, b3]; rfl
        · show M.removeFastStart.1.deficits.get? _ = (m.removeFastStart.1.deficits.get? _).map _
          rw [(other m j e).2.2, (other M j e).2.2]; exact h.deficits j hj }
  refine (s.dropK (by decide) (by decide) ?_ ?_ ?_ ?_).dropD ?_
  · rw [a1, b1]; rfl
  · rw [a4, b4, aM.2, bM.2]; rfl
  · rw [a2, b2]; rfl
  · rw [a5, b5, aM.1, bM.1]; rfl
  · rw [a3, b3]; rfl

/-! ### Markets without bidirectional units -/

/-- the sets for bidirectional units -/
def CKey.isBdu : CKey → Bool
  | .biRampUp | .biRampDown | .jrRaiseBdu | .jrLowerBdu => true
  | _ => false

/-- there are no sets for bidirectional units -/
def NoBdu (m : Market) : Prop :=
  ∀ k : CKey, k.isBdu = true → m.unitCon.get? k = none ∧ m.conRhs.get? k = none ∧ m.deficits.get? k = none ∧
    m.mktRhs.get? k = none

theorem makeElastic_none {m : Market} {k : CKey} (h : m.rowsOf k = none) (c : VCost) : (m.makeElastic k c).1 = m := by
  unfold Market.makeElastic; rw [h]

theorem NoBdu.of_same {m m' : Market} (h : NoBdu m) (hs : ∀ k : CKey, k.isBdu = true → SameSet k m m') : NoBdu m' := by
  intro k hk
  obtain ⟨a, b, c, d⟩ := h k hk
  have := hs k hk
  exact ⟨by rw [this.unitCon, a], by rw [this.conRhs, b], by rw [this.deficits, c], by rw [this.mktRhs, d]⟩

theorem NoBdu.unitSet {m : Market} (h : NoBdu m) {k : CKey} (hk : k.isBdu = false) (t : List Row × List ConUnit) :
    NoBdu (m.addUnitSet k t).1 := by
  intro j hj
  obtain ⟨a, b, c, d⟩ := h j hj
  obtain ⟨a1, a2, _, a4, a5⟩ := addUnitSet_get m k t
  have e : k ≠ j := by rintro rfl; rw [hk] at hj; cases hj
  rw [a1, a2, a4, a5, Dict.get?_set_ne _ _ e, Dict.get?_set_ne _ _ e]
  exact ⟨a, b, c, d⟩

theorem NoBdu.elastic {m : Market} (h : NoBdu m) {k : CKey} (hk : k.isBdu = false) (c : VCost) :
    NoBdu (m.makeElastic k c).1 :=
  h.of_same (fun j hj => sameSet_elastic m c (by rintro rfl; rw [hk] at hj; cases hj))

theorem NoBdu.andThen {r : Res} (h : NoBdu r.1) {F : Market → Res} (hF : NoBdu (F r.1).1) : NoBdu (r.andThen F).1 := by
  unfold Res.andThen
  split
  · exact hF
  · exact h

theorem NoBdu.elasticIf {m : Market} (h : NoBdu m) {k : CKey} (hk : k.isBdu = true) (c : VCost) :
    m.elasticIfPresent k c = (m, none) := by
  unfold Market.elasticIfPresent
  rw [if_neg]
  simp [Dict.has, (h k hk).1]

theorem comp_nil (rs : List RampRow) (di : ℚ) (sc : Option (List Scada)) :
    scadaOpt adjustForScadaBi (compositeRampRates rs di []).2 sc = [] := by
  have : (compositeRampRates rs di []).2 = [] := by
    simp [compositeRampRates]
  rw [this]
  cases sc <;> rfl

theorem NoBdu.elasticRamps {m : Market} (h : NoBdu m) (vc : Option VCost) : NoBdu (m.elasticRamps vc).1 := by
  cases vc with
  | none => exact h
  | some c =>
    have h1 := h.elastic (k := .rampUp) rfl c
    have h2 := h1.elastic (k := .rampDown) rfl c
    refine NoBdu.andThen h1 (NoBdu.andThen h2 ?_)
    rw [h2.elasticIf (k := .biRampUp) rfl c]
    show NoBdu (Market.elasticIfPresent _ _ _).1
    rw [h2.elasticIf (k := .biRampDown) rfl c]
    exact h2

theorem NoBdu.elasticJr {m : Market} (h : NoBdu m) (vc : Option VCost) : NoBdu (m.elasticJr vc).1 := by
  cases vc with
  | none => exact h
  | some c =>
    have h1 := h.elastic (k := .jrRaise) rfl c
    have h2 := h1.elastic (k := .jrLower) rfl c
    refine NoBdu.andThen h1 (NoBdu.andThen h2 ?_)
    rw [h2.elasticIf (k := .jrRaiseBdu) rfl c]
    show NoBdu (Market.elasticIfPresent _ _ _).1
    rw [h2.elasticIf (k := .jrLowerBdu) rfl c]
    exact h2

theorem noBdu_ramp {m : Market} (hb : m.bidi = []) (h : NoBdu m) (rs : List RampRow) (sc : Option (List Scada))
    (ps : Option (List FsRamp)) (rt : RunType) (vc : Option VCost) : NoBdu (m.setRampRates rs sc ps rt vc).1 := by
  unfold Market.setRampRates
  rw [hb]
  split
  · exact h
  split
  · exact h
  split
  · exact h
  split
  · exact h
  dsimp only
  split
  · exact h
  rename_i ord _
  have h1 := h.unitSet (k := .rampUp) rfl (rampUpConstraints ord m.nextCon m.di)
  refine NoBdu.andThen h1 ?_
  generalize (m.addUnitSet .rampUp (rampUpConstraints ord m.nextCon m.di)).1 = m1 at h1 ⊢
  have h2 := h1.unitSet (k := .rampDown) rfl (rampDownConstraints ord m1.nextCon m1.di)
  refine NoBdu.andThen h2 ?_
  generalize (m1.addUnitSet .rampDown (rampDownConstraints ord m1.nextCon m1.di)).1 = m2 at h2 ⊢
  rw [comp_nil]
  exact h2.elasticRamps vc

theorem NoBdu.unitSetIf {m : Market} (h : NoBdu m) {k : CKey} (hk : k.isBdu = false) (b : Bool) (t : List Row × List ConUnit) :
    NoBdu (m.addUnitSetIf k b t).1 := by
  unfold Market.addUnitSetIf
  split
  · exact h.unitSet hk t
  · exact h

theorem unitSetIf_false (m : Market) (k : CKey) (t : List Row × List ConUnit) : m.addUnitSetIf k false t = (m, none) := rfl

theorem andThen_none (m : Market) (F : Market → Res) : Res.andThen (m, none) F = F m := rfl

theorem noBdu_jr {m : Market} (hb : m.bidi = []) (h : NoBdu m) (rs : List RampRow)
    (ps : Option (List FsRamp)) (rt : RunType) (vc : Option VCost) : NoBdu (m.setJointRamping rs ps rt vc).1 := by
  unfold Market.setJointRamping
  rw [hb]
  split
  · exact h
  split
  · exact h
  split
  · exact h
  split
  · exact h
  rename_i vars _ _ ord _
  dsimp only
  simp only [List.not_mem_nil, decide_false, List.filter_false, List.isEmpty_nil, Bool.not_true, unitSetIf_false,
    andThen_none]
  have h1 := h.unitSetIf (k := .jrRaise) rfl
    (!((regRates vars .raiseReg ord (·.up)).filter (fun _ => decide ¬ False)).isEmpty)
    (jrRaiseReg ((regRates vars .raiseReg ord (·.up)).filter (fun _ => decide ¬ False)) m.di m.nextCon)
  refine NoBdu.andThen h1 ?_
  generalize (m.addUnitSetIf .jrRaise _ _).1 = m1 at h1 ⊢
  refine NoBdu.andThen (h1.unitSetIf (k := .jrLower) rfl _ _) ?_
  have h2 := h1.unitSetIf (k := .jrLower) rfl
    (!((regRates vars .lowerReg ord (·.down)).filter (fun _ => decide ¬ False)).isEmpty)
    (jrLowerReg ((regRates vars .lowerReg ord (·.down)).filter (fun _ => decide ¬ False)) m1.di m1.nextCon)
  generalize (m1.addUnitSetIf .jrLower _ _).1 = m2 at h2 ⊢
  exact h2.elasticJr vc

theorem noBdu_step {m : Market} (hb : m.bidi = []) (h : NoBdu m) (op : Op) : NoBdu (m.step op).1 := by
  by_cases hp : ∀ k : CKey, k.isBdu = true → Part.set k ∉ op.parts
  · exact h.of_same (fun k hk => frame_steps (good := False) (step_steps m op (fun h => h.elim)) (hp k hk))
  unfold Market.step
  split
  · exact h
  cases op with
  | rampRates r sc ps rt vc => exact noBdu_ramp hb h r sc ps rt vc
  | jointRamping r ps rt vc => exact noBdu_jr hb h r ps rt vc
  | elastic k c =>
    by_cases hk : k.isBdu = true
    · show NoBdu (m.makeElastic k c).1
      rw [makeElastic_none (by unfold Market.rowsOf; rw [(h k hk).2.2.2, (h k hk).2.1])]; exact h
    · exact h.elastic (by simpa using hk) c
  | _ =>
    exfalso; apply hp; intro k hk; simp only [Op.parts, List.mem_cons, List.not_mem_nil, or_false, reduceCtorEq, not_false_eq_true, Part.set.injEq]
    try (rintro rfl; cases hk)

theorem rampRates_close (h : Sim K D f g m M) (hm : WF m) (hM : WF M) (hb : m.bidi = []) (nm : NoBdu m) (nM : NoBdu M)
    (r : List RampRow) (sc : Option (List Scada)) (ps : Option (List FsRamp)) (rt : RunType) (vc : Option VCost)
    (hd : vc.isSome = true ∨ (m.deficits.get? .rampUp = none ∧ M.deficits.get? .rampUp = none ∧
      m.deficits.get? .rampDown = none ∧ M.deficits.get? .rampDown = none)) :
    SimC (minus (minus (minus (minus K .rampUp) .rampDown) .biRampUp) .biRampDown)
      (minus (minus (minus (minus D .rampUp) .rampDown) .biRampUp) .biRampDown) f g
      (m.setRampRates r sc ps rt vc) (M.setRampRates r sc ps rt vc) := by
  unfold Market.setRampRates Market.rampsOk
  rw [knows_sim h, bidi_sim h, fsProfilesOk_sim h, scadaOptOk_sim h, h.di, hb]
  split
  · exact .err _
  split
  · exact .err _
  split
  · exact .err _
  split
  · exact .err _
  dsimp only
  split
  · exact .err _
  rename_i ord _
  rw [comp_nil]
  generalize ht1 : rampUpConstraints ord m.nextCon m.di = t1
  have hT1 : rampUpConstraints ord M.nextCon m.di = renUnit g t1 := by
    rw [← ht1]; exact createConstraints_ren h.cons _ _
  have hf1 : FreshUnit m.nextCon t1 := by rw [← ht1]; exact freshUnit_createConstraints _ _ _ (by decide)
  rw [hT1]
  refine (unitSet_close h (k := .rampUp) rfl (hm.noReg rfl) (hM.noReg rfl) rfl hf1).toC.andThen (fun ok1 s1 => ?_)
  obtain ⟨a1, a2, a3, a4, a5⟩ := addUnitSet_get m .rampUp t1
  obtain ⟨b1, b2, b3, b4, b5⟩ := addUnitSet_get M .rampUp (renUnit g t1)
  have nm1 := nm.unitSet (k := .rampUp) rfl t1
  have nM1 := nM.unitSet (k := .rampUp) rfl (renUnit g t1)
  have ne1 : t1.1 ≠ [] := by
    rintro e
    unfold Market.addUnitSet at ok1
    rw [renUnit, e] at ok1
    simp at ok1
  have um := hm.noReg (k := .rampUp) rfl
  have uM := hM.noReg (k := .rampUp) rfl
  have vm := hm.noReg (k := .rampDown) rfl
  have vM := hM.noReg (k := .rampDown) rfl
  have wm := hm.noReg (k := .biRampUp) rfl
  have wM := hM.noReg (k := .biRampUp) rfl
  have xm := hm.noReg (k := .biRampDown) rfl
  have xM := hM.noReg (k := .biRampDown) rfl
  generalize (m.addUnitSet .rampUp t1).1 = m1 at *
  generalize (M.addUnitSet .rampUp (renUnit g t1)).1 = M1 at *
  rw [s1.di]
  generalize ht2 : rampDownConstraints ord m1.nextCon m1.di = t2
  have hT2 : rampDownConstraints ord M1.nextCon m1.di = renUnit g t2 := by
    rw [← ht2]; exact createConstraints_ren s1.cons _ _
  have hf2 : FreshUnit m1.nextCon t2 := by rw [← ht2]; exact freshUnit_createConstraints _ _ _ (by decide)
  rw [hT2]
  refine (unitSet_close s1 (k := .rampDown) rfl ⟨by rw [a4]; exact vm.1, by rw [a3]; exact vm.2⟩
    ⟨by rw [b4]; exact vM.1, by rw [b3]; exact vM.2⟩ rfl hf2).toC.andThen (fun ok2 s2 => ?_)
  obtain ⟨c1, c2, c3, c4, c5⟩ := addUnitSet_get m1 .rampDown t2
  obtain ⟨d1, d2, d3, d4, d5⟩ := addUnitSet_get M1 .rampDown (renUnit g t2)
  have nm2 := nm1.unitSet (k := .rampDown) rfl t2
  have nM2 := nM1.unitSet (k := .rampDown) rfl (renUnit g t2)
  have ne2 : t2.1 ≠ [] := by
    rintro e
    unfold Market.addUnitSet at ok2
    rw [renUnit, e] at ok2
    simp at ok2
  generalize (m1.addUnitSet .rampDown t2).1 = m2 at *
  generalize (M1.addUnitSet .rampDown (renUnit g t2)).1 = M2 at *
  have r1 : m2.rowsOf .rampUp = some t1.1 := by
    unfold Market.rowsOf
    rw [c4, a4, um.1, c2, Dict.get?_set_ne _ _ (by decide), a2, Dict.get?_set_self]
  have r2 : m2.rowsOf .rampDown = some t2.1 := by
    unfold Market.rowsOf
    rw [c4, a4, vm.1, c2, Dict.get?_set_self]
  have s3 := ((s2.dropK (k := .biRampUp) (by decide) (by decide)
      (by rw [(nm2 _ rfl).1, (nM2 _ rfl).1]; rfl)
      (by rw [c3, a3, d3, b3, wm.2, wM.2]; rfl)
      (by rw [(nm2 _ rfl).2.1, (nM2 _ rfl).2.1]; rfl)
      (by rw [(nm2 _ rfl).2.2.2, (nM2 _ rfl).2.2.2]; rfl)).dropK (k := .biRampDown) (by decide) (by decide)
      (by rw [(nm2 _ rfl).1, (nM2 _ rfl).1]; rfl)
      (by rw [c3, a3, d3, b3, xm.2, xM.2]; rfl)
      (by rw [(nm2 _ rfl).2.1, (nM2 _ rfl).2.1]; rfl)
      (by rw [(nm2 _ rfl).2.2.2, (nM2 _ rfl).2.2.2]; rfl))
  show SimC _ _ f g (m2.elasticRamps vc) (M2.elasticRamps vc)
  have fin : ∀ {m M : Market} {D : CKey → Prop}, NoBdu m → NoBdu M →
      Sim (minus (minus (minus (minus K .rampUp) .rampDown) .biRampUp) .biRampDown) D f g m M →
      Sim (minus (minus (minus (minus K .rampUp) .rampDown) .biRampUp) .biRampDown)
        (minus (minus D .biRampUp) .biRampDown) f g m M := by
    intro m M D nm nM s
    exact (s.dropD (k := .biRampUp) (by rw [(nm _ rfl).2.2.1, (nM _ rfl).2.2.1]; rfl)).dropD
      (by rw [(nm _ rfl).2.2.1, (nM _ rfl).2.2.1]; rfl)
  cases vc with
  | none =>
    obtain ⟨e1, e2, e3, e4⟩ := hd.resolve_left (by simp)
    refine ⟨rfl, fun _ => fin nm2 nM2 ((s3.dropD ?_).dropD ?_)⟩
    · rw [c5, a5, d5, b5, e1, e2]; rfl
    · rw [c5, a5, d5, b5, e3, e4]; rfl
  | some c =>
    have k1 : ¬ (minus (minus (minus (minus K .rampUp) .rampDown) .biRampUp) .biRampDown) .rampUp :=
      fun h => h.1.1.1.2 rfl
    have k2 : ¬ (minus (minus (minus (minus K .rampUp) .rampDown) .biRampUp) .biRampDown) .rampDown :=
      fun h => h.1.1.2 rfl
    refine (elastic_close s3 k1 r1 (unit_hits rfl ne1 c)).andThen (fun _ s4 => ?_)
    have r3 : (m2.makeElastic .rampUp c).1.rowsOf .rampDown = some t2.1 := by
      have := sameSet_elastic m2 (k' := .rampUp) (k := .rampDown) c (by decide)
      unfold Market.rowsOf at r2 ⊢
      rw [this.mktRhs, this.conRhs]
      exact r2
    refine (elastic_close s4 k2 r3 (unit_hits rfl ne2 c)).andThen (fun _ s5 => ?_)
    have nm3 := (nm2.elastic (k := .rampUp) rfl c).elastic (k := .rampDown) rfl c
    have nM3 := (nM2.elastic (k := .rampUp) rfl c).elastic (k := .rampDown) rfl c
    rw [nm3.elasticIf (k := .biRampUp) rfl, nM3.elasticIf (k := .biRampUp) rfl, andThen_none, andThen_none,
      nm3.elasticIf (k := .biRampDown) rfl, nM3.elasticIf (k := .biRampDown) rfl]
    exact ⟨rfl, fun _ => fin nm3 nM3 s5⟩

end

end Verif
