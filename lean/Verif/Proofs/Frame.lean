import Verif.Proofs.Eval

/-! Calls about other constraint sets leave a constraint set alone; the data given to the constructor
never changes; the bid tables come from one call. -/

namespace Verif

/-- Everything stored for constraint set `k` is the same in both markets. -/
structure SameSet (k : CKey) (m m' : Market) : Prop where
  conRhs : m'.conRhs.get? k = m.conRhs.get? k
  unitCon : m'.unitCon.get? k = m.unitCon.get? k
  regCon : m'.regCon.get? k = m.regCon.get? k
  mktRhs : m'.mktRhs.get? k = m.mktRhs.get? k
  deficits : m'.deficits.get? k = m.deficits.get? k
  loss : k = .interpWeights → m'.lossLhs = m.lossLhs ∧ m'.dynRhs = m.dynRhs ∧ m'.weights = m.weights ∧
    m'.losses = m.losses ∧ m'.lossReg = m.lossReg
  tie : k = .tieBreak → m'.tieLhs = m.tieLhs

theorem SameSet.refl (k : CKey) (m : Market) : SameSet k m m := by
  constructor <;> intros <;> simp

theorem SameSet.trans {k : CKey} {m m1 m2 : Market} (h : SameSet k m m1) (h' : SameSet k m1 m2) : SameSet k m m2 where
  conRhs := h'.conRhs.trans h.conRhs
  unitCon := h'.unitCon.trans h.unitCon
  regCon := h'.regCon.trans h.regCon
  mktRhs := h'.mktRhs.trans h.mktRhs
  deficits := h'.deficits.trans h.deficits
  loss hk := by
    obtain ⟨a, b, c, d, e⟩ := h.loss hk
    obtain ⟨a', b', c', d', e'⟩ := h'.loss hk
    exact ⟨a'.trans a, b'.trans b, c'.trans c, d'.trans d, e'.trans e⟩
  tie hk := (h'.tie hk).trans (h.tie hk)

theorem sameSet_elastic (m : Market) {k k' : CKey} (c : VCost) (h : k' ≠ k) : SameSet k m (m.makeElastic k' c).1 := by
  unfold Market.makeElastic
  split
  · exact .refl k m
  split
  · exact .refl k m
  split
  · exact .refl k m
  dsimp only
  split
  · constructor <;> intros <;> simp [Dict.get?_set_ne _ _ h]
  · constructor <;> intros <;> simp [Dict.get?_set_ne _ _ h]

theorem frame_prim {good : Prop} {ks : List Part} {m m' : Market} (h : Prim good ks m m') {k : CKey} (hk : Part.set k ∉ ks) :
    SameSet k m m' := by
  cases h with
  | bids _ b =>
    unfold Market.setVolumeBids
    split
    · exact .refl k m
    split
    · exact .refl k m
    dsimp only
    split <;> constructor <;> intros <;> simp
  | prices _ b =>
    unfold Market.setPriceBids
    split
    · exact .refl k m
    split
    · exact .refl k m
    split
    · exact .refl k m
    constructor <;> intros <;> simp
  | unitSet _ k' t hk' ht =>
    have hne : k' ≠ k := fun h => hk (by simp [h])
    unfold Market.addUnitSet
    dsimp only
    split <;> constructor <;> intros <;> simp [Dict.get?_set_ne _ _ hne]
  | regSet _ k' t hk' ht =>
    have hne : k' ≠ k := fun h => hk (by simp [h])
    unfold Market.addRegSet
    dsimp only
    split <;> constructor <;> intros <;> simp [Dict.get?_set_ne _ _ hne]
  | elastic _ k' c => exact sameSet_elastic m c (fun h => hk (by simp [h]))
  | removeFs _ =>
    have hne : CKey.fastStart ≠ k := fun h => hk (by simp [h])
    unfold Market.removeFastStart
    dsimp only
    split <;> split <;> constructor <;> intros <;> simp [Dict.get?_erase_ne _ hne]
  | inters _ d =>
    unfold Market.setInterconnectors
    split
    · exact .refl k m
    dsimp only
    split <;> constructor <;> intros <;> simp
  | losses _ f b hb =>
    have hne : CKey.interpWeights ≠ k := fun h => hk (by simp [h])
    unfold Market.setLosses
    split
    · exact .refl k m
    dsimp only
    split
    · split
      · constructor <;> intros <;> simp
      · constructor
        · simp [Dict.get?_set_ne _ _ hne]
        · simp
        · simp
        · simp
        · simp
        · intro h; exact absurd h.symm hne
        · intro; simp
    · constructor <;> intros <;> simp
  | generic _ g =>
    have hne : CKey.generic ≠ k := fun h => hk (by simp [h])
    unfold Market.setGeneric
    split
    · exact .refl k m
    dsimp only [Market.elasticOpt]
    split <;> constructor <;> intros <;> simp [Dict.get?_set_ne _ _ hne]
  | linkUnits _ g => unfold Market.linkUnits; split <;> constructor <;> intros <;> simp
  | linkRegions _ g => unfold Market.linkRegions; split <;> constructor <;> intros <;> simp
  | linkInters _ g => unfold Market.linkInters; split <;> constructor <;> intros <;> simp
  | tie _ ps hps =>
    have hne : CKey.tieBreak ≠ k := fun h => hk (by simp [h])
    constructor
    · simp [Dict.get?_set_ne _ _ hne]
    · simp
    · simp
    · simp
    · simp
    · intro; simp
    · intro h; exact absurd h.symm hne

theorem frame_steps {good : Prop} {ks : List Part} {m m' : Market} (h : Steps good ks m m') {k : CKey} (hk : Part.set k ∉ ks) :
    SameSet k m m' := by
  induction h with
  | refl => exact .refl k _
  | tail _ p hks ih => exact ih.trans (frame_prim p (fun h => hk (hks h)))

theorem frame_run {m : Market} {ops : List Op} {k : CKey} (hk : ∀ o ∈ ops, Part.set k ∉ o.parts) : SameSet k m (m.run ops) := by
  induction ops generalizing m with
  | nil => exact .refl k m
  | cons op ops ih =>
    refine SameSet.trans (frame_steps (good := False) (step_steps m op (fun h => h.elim)) (hk op (by simp))) ?_
    exact ih (fun o ho => hk o (by simp [ho]))

/-! ### The other parts -/

/-- What is stored for a part is the same in both markets. -/
def SamePart (m m' : Market) : Part → Prop
  | .set k => SameSet k m m'
  | .bids => m'.bids = m.bids ∧ m'.bidUnit = m.bidUnit ∧ m'.bidReg = m.bidReg
  | .prices => m'.bidCost = m.bidCost
  | .inters => m'.dirs = m.dirs ∧ m'.inters = m.inters ∧ m'.interReg = m.interReg
  | .gUnit => m'.gUnit = m.gUnit
  | .gRegion => m'.gRegion = m.gRegion
  | .gInter => m'.gInter = m.gInter

theorem SamePart.refl (m : Market) (p : Part) : SamePart m m p := by
  cases p <;> simp [SamePart, SameSet.refl]

theorem SamePart.trans {m m1 m2 : Market} {p : Part} (h : SamePart m m1 p) (h' : SamePart m1 m2 p) : SamePart m m2 p := by
  cases p with
  | set k => exact SameSet.trans h h'
  | bids => exact ⟨h'.1.trans h.1, h'.2.1.trans h.2.1, h'.2.2.trans h.2.2⟩
  | inters => exact ⟨h'.1.trans h.1, h'.2.1.trans h.2.1, h'.2.2.trans h.2.2⟩
  | prices => exact Eq.trans h' h
  | gUnit => exact Eq.trans h' h
  | gRegion => exact Eq.trans h' h
  | gInter => exact Eq.trans h' h

theorem part_prim {good : Prop} {ks : List Part} {m m' : Market} (h : Prim good ks m m') {p : Part} (hk : p ∉ ks) :
    SamePart m m' p := by
  by_cases hp : ∃ k, p = .set k
  · obtain ⟨k, rfl⟩ := hp; exact frame_prim h hk
  cases h with
  | bids _ b =>
    unfold Market.setVolumeBids
    split
    · exact .refl m p
    split
    · exact .refl m p
    dsimp only
    split <;> cases p <;> simp_all [SamePart]
  | prices _ b =>
    unfold Market.setPriceBids
    split
    · exact .refl m p
    split
    · exact .refl m p
    split
    · exact .refl m p
    cases p <;> simp_all [SamePart]
  | unitSet _ k' t hk' ht =>
    unfold Market.addUnitSet
    dsimp only
    split <;> cases p <;> simp_all [SamePart]
  | regSet _ k' t hk' ht =>
    unfold Market.addRegSet
    dsimp only
    split <;> cases p <;> simp_all [SamePart]
  | elastic _ k' c =>
    unfold Market.makeElastic
    split
    · exact .refl m p
    split
    · exact .refl m p
    split
    · exact .refl m p
    dsimp only
    split <;> cases p <;> simp_all [SamePart]
  | removeFs _ =>
    unfold Market.removeFastStart
    dsimp only
    split <;> split <;> cases p <;> simp_all [SamePart]
  | inters _ d =>
    unfold Market.setInterconnectors
    split
    · exact .refl m p
    dsimp only
    split <;> cases p <;> simp_all [SamePart]
  | losses _ f b hb =>
    unfold Market.setLosses
    split
    · exact .refl m p
    dsimp only
    split
    · split <;> cases p <;> simp_all [SamePart]
    · cases p <;> simp_all [SamePart]
  | generic _ g =>
    unfold Market.setGeneric
    split
    · exact .refl m p
    dsimp only [Market.elasticOpt]
    split <;> cases p <;> simp_all [SamePart]
  | linkUnits _ g => unfold Market.linkUnits; split <;> cases p <;> simp_all [SamePart]
  | linkRegions _ g => unfold Market.linkRegions; split <;> cases p <;> simp_all [SamePart]
  | linkInters _ g => unfold Market.linkInters; split <;> cases p <;> simp_all [SamePart]
  | tie _ ps hps => cases p <;> simp_all [SamePart]

theorem part_steps {good : Prop} {ks : List Part} {m m' : Market} (h : Steps good ks m m') {p : Part} (hk : p ∉ ks) :
    SamePart m m' p := by
  induction h with
  | refl => exact .refl _ p
  | tail _ q hks ih => exact ih.trans (part_prim q (fun h => hk (hks h)))

theorem part_run {m : Market} {ops : List Op} {p : Part} (hk : ∀ o ∈ ops, p ∉ o.parts) : SamePart m (m.run ops) p := by
  induction ops generalizing m with
  | nil => exact .refl m p
  | cons op ops ih =>
    refine SamePart.trans (part_steps (good := False) (step_steps m op (fun h => h.elim)) (hk op (by simp))) ?_
    exact ih (fun o ho => hk o (by simp [ho]))

/-! ### Constants -/

/-- regions, unit_info and dispatch interval are the same -/
def SameBase (m m' : Market) : Prop := m'.regions = m.regions ∧ m'.units = m.units ∧ m'.di = m.di

theorem sameBase_prim {good : Prop} {ks : List Part} {m m' : Market} (h : Prim good ks m m') : SameBase m m' := by
  cases h with
  | bids _ b => unfold Market.setVolumeBids; split <;> [skip; split <;> [skip; (dsimp only; split)]] <;> exact ⟨rfl, rfl, rfl⟩
  | prices _ b =>
    unfold Market.setPriceBids
    split
    · exact ⟨rfl, rfl, rfl⟩
    split
    · exact ⟨rfl, rfl, rfl⟩
    split <;> exact ⟨rfl, rfl, rfl⟩
  | unitSet _ k' t hk' ht => unfold Market.addUnitSet; dsimp only; split <;> exact ⟨rfl, rfl, rfl⟩
  | regSet _ k' t hk' ht => unfold Market.addRegSet; dsimp only; split <;> exact ⟨rfl, rfl, rfl⟩
  | elastic _ k' c =>
    unfold Market.makeElastic
    split
    · exact ⟨rfl, rfl, rfl⟩
    split
    · exact ⟨rfl, rfl, rfl⟩
    split
    · exact ⟨rfl, rfl, rfl⟩
    dsimp only
    split <;> exact ⟨rfl, rfl, rfl⟩
  | removeFs _ => unfold Market.removeFastStart; dsimp only; split <;> split <;> exact ⟨rfl, rfl, rfl⟩
  | inters _ d =>
    unfold Market.setInterconnectors
    split
    · exact ⟨rfl, rfl, rfl⟩
    dsimp only
    split <;> exact ⟨rfl, rfl, rfl⟩
  | losses _ f b hb =>
    unfold Market.setLosses
    split
    · exact ⟨rfl, rfl, rfl⟩
    dsimp only
    split
    · split <;> exact ⟨rfl, rfl, rfl⟩
    · exact ⟨rfl, rfl, rfl⟩
  | generic _ g =>
    unfold Market.setGeneric
    split
    · exact ⟨rfl, rfl, rfl⟩
    dsimp only [Market.elasticOpt]
    split <;> exact ⟨rfl, rfl, rfl⟩
  | linkUnits _ g => unfold Market.linkUnits; split <;> exact ⟨rfl, rfl, rfl⟩
  | linkRegions _ g => unfold Market.linkRegions; split <;> exact ⟨rfl, rfl, rfl⟩
  | linkInters _ g => unfold Market.linkInters; split <;> exact ⟨rfl, rfl, rfl⟩
  | tie _ ps hps => exact ⟨rfl, rfl, rfl⟩

theorem sameBase_steps {good : Prop} {ks : List Part} {m m' : Market} (h : Steps good ks m m') : SameBase m m' := by
  induction h with
  | refl => exact ⟨rfl, rfl, rfl⟩
  | tail _ p _ ih =>
    obtain ⟨a, b, c⟩ := ih
    obtain ⟨a', b', c'⟩ := sameBase_prim p
    exact ⟨a'.trans a, b'.trans b, c'.trans c⟩

theorem sameBase_step (m : Market) (op : Op) : SameBase m (m.step op).1 :=
  sameBase_steps (good := False) (step_steps m op (fun h => h.elim))

theorem sameBase_run (m : Market) (ops : List Op) : SameBase m (m.run ops) := by
  induction ops generalizing m with
  | nil => exact ⟨rfl, rfl, rfl⟩
  | cons op ops ih =>
    obtain ⟨a, b, c⟩ := sameBase_step m op
    obtain ⟨a', b', c'⟩ := ih (m.step op).1
    exact ⟨a'.trans a, b'.trans b, c'.trans c⟩

/-! ### Bids -/

/-- The bid tables are unset or come from one accepted call of `set_unit_volume_bids`. -/
def BidWF (m : Market) : Prop :=
  (m.bids = none ∧ m.bidUnit = none ∧ m.bidReg = none) ∨
  ∃ b n, m.volumeBidsOk b = true ∧ biInputsOk m.bidi (energyUnits b) = true ∧ m.bids = some (bidVariables b n) ∧
    m.bidUnit = some (bidUnitMap (bidVariables b n) m.units m.bidi) ∧
    m.bidReg = some (bidRegMap (bidVariables b n) m.units)

theorem bidWF_of_same {m m' : Market} (hm : BidWF m) (hu : m'.units = m.units) (h1 : m'.bids = m.bids)
    (h2 : m'.bidUnit = m.bidUnit) (h3 : m'.bidReg = m.bidReg) : BidWF m' := by
  rcases hm with ⟨a, b, c⟩ | ⟨b, n, h, h', e1, e2, e3⟩
  · exact Or.inl ⟨h1.trans a, h2.trans b, h3.trans c⟩
  · refine Or.inr ⟨b, n, ?_, ?_, h1.trans e1, ?_, ?_⟩
    · rw [← h]; unfold Market.volumeBidsOk Market.knows; rw [hu]
    · rw [← h']; unfold Market.bidi; rw [hu]
    · rw [h2, e2, hu]; unfold Market.bidi; rw [hu]
    · rw [h3, e3, hu]

theorem bidWF_prim {good : Prop} {ks : List Part} {m m' : Market} (h : Prim good ks m m') (hm : BidWF m) : BidWF m' := by
  have hb := (sameBase_prim h).2.1
  cases h with
  | bids _ b =>
    revert hb
    unfold Market.setVolumeBids
    split
    · intro; exact hm
    split
    · intro; exact hm
    rename_i h1 h2
    simp only [Bool.not_eq_true', Bool.not_eq_false] at h1 h2
    dsimp only
    split
    · intro _; exact Or.inr ⟨b, m.nextVar, h1, h2, rfl, rfl, rfl⟩
    · intro _; exact Or.inr ⟨b, m.nextVar, h1, h2, rfl, rfl, rfl⟩
  | prices _ b =>
    revert hb
    unfold Market.setPriceBids
    split
    · intro; exact hm
    split
    · intro; exact hm
    split
    · intro; exact hm
    intro _; exact bidWF_of_same hm rfl rfl rfl rfl
  | unitSet _ k' t hk' ht => revert hb; unfold Market.addUnitSet; dsimp only; split <;> exact fun _ => bidWF_of_same hm rfl rfl rfl rfl
  | regSet _ k' t hk' ht => revert hb; unfold Market.addRegSet; dsimp only; split <;> exact fun _ => bidWF_of_same hm rfl rfl rfl rfl
  | elastic _ k' c =>
    revert hb
    unfold Market.makeElastic
    split
    · exact fun _ => hm
    split
    · exact fun _ => hm
    split
    · exact fun _ => hm
    dsimp only
    split <;> exact fun _ => bidWF_of_same hm rfl rfl rfl rfl
  | removeFs _ => revert hb; unfold Market.removeFastStart; dsimp only; split <;> split <;> exact fun _ => bidWF_of_same hm rfl rfl rfl rfl
  | inters _ d =>
    revert hb
    unfold Market.setInterconnectors
    split
    · exact fun _ => hm
    dsimp only
    split <;> exact fun _ => bidWF_of_same hm rfl rfl rfl rfl
  | losses _ f b hb' =>
    revert hb
    unfold Market.setLosses
    split
    · exact fun _ => hm
    dsimp only
    split
    · split <;> exact fun _ => bidWF_of_same hm rfl rfl rfl rfl
    · exact fun _ => bidWF_of_same hm rfl rfl rfl rfl
  | generic _ g =>
    revert hb
    unfold Market.setGeneric
    split
    · exact fun _ => hm
    dsimp only [Market.elasticOpt]
    split <;> exact fun _ => bidWF_of_same hm rfl rfl rfl rfl
  | linkUnits _ g => revert hb; unfold Market.linkUnits; split <;> exact fun _ => bidWF_of_same hm rfl rfl rfl rfl
  | linkRegions _ g => revert hb; unfold Market.linkRegions; split <;> exact fun _ => bidWF_of_same hm rfl rfl rfl rfl
  | linkInters _ g => revert hb; unfold Market.linkInters; split <;> exact fun _ => bidWF_of_same hm rfl rfl rfl rfl
  | tie _ ps hps => exact bidWF_of_same hm rfl rfl rfl rfl

/-! ### Keys -/

/-- unit level maps belong to unit level sets, regional maps to market sets -/
def KeyWF (m : Market) : Prop :=
  (∀ e ∈ m.unitCon, e.1.isUnit = true) ∧ (∀ e ∈ m.regCon, e.1.isMarket = true)

theorem keyWF_of_same {m m' : Market} (hm : KeyWF m) (h1 : m'.unitCon = m.unitCon) (h2 : m'.regCon = m.regCon) :
    KeyWF m' := by
  unfold KeyWF; rw [h1, h2]; exact hm

theorem keyWF_prim {good : Prop} {ks : List Part} {m m' : Market} (h : Prim good ks m m') (hm : KeyWF m) : KeyWF m' := by
  cases h with
  | bids _ b =>
    unfold Market.setVolumeBids
    split
    · exact hm
    split
    · exact hm
    dsimp only
    split <;> exact hm
  | prices _ b =>
    unfold Market.setPriceBids
    split
    · exact hm
    split
    · exact hm
    split <;> exact hm
  | unitSet _ k' t hk' ht =>
    have : ∀ e ∈ m.unitCon.set k' t.2, e.1.isUnit = true := by
      intro e he
      rcases Dict.mem_set he with rfl | he
      · exact hk'
      · exact hm.1 e he
    unfold Market.addUnitSet; dsimp only; split <;> exact ⟨this, hm.2⟩
  | regSet _ k' t hk' ht =>
    have : ∀ e ∈ m.regCon.set k' t.2, e.1.isMarket = true := by
      intro e he
      rcases Dict.mem_set he with rfl | he
      · exact hk'
      · exact hm.2 e he
    unfold Market.addRegSet; dsimp only; split <;> exact ⟨hm.1, this⟩
  | elastic _ k' c =>
    unfold Market.makeElastic
    split
    · exact hm
    split
    · exact hm
    split
    · exact hm
    dsimp only
    split <;> exact hm
  | removeFs _ =>
    unfold Market.removeFastStart
    dsimp only
    split <;> split <;> first | exact hm | exact ⟨fun e he => hm.1 e (Dict.mem_erase he), hm.2⟩
  | inters _ d =>
    unfold Market.setInterconnectors
    split
    · exact hm
    dsimp only
    split <;> exact hm
  | losses _ f b hb' =>
    unfold Market.setLosses
    split
    · exact hm
    dsimp only
    split
    · split <;> exact hm
    · exact hm
  | generic _ g =>
    unfold Market.setGeneric
    split
    · exact hm
    dsimp only [Market.elasticOpt]
    split <;> exact hm
  | linkUnits _ g => unfold Market.linkUnits; split <;> exact hm
  | linkRegions _ g => unfold Market.linkRegions; split <;> exact hm
  | linkInters _ g => unfold Market.linkInters; split <;> exact hm
  | tie _ ps hps => exact hm

/-! ### Reachable markets -/

/-- The invariants of reachable markets. -/
structure WF (m : Market) : Prop where
  con : ConWF m
  var : VarWF m
  inter : InterWF m
  bid : BidWF m
  key : KeyWF m
  units : (m.units.map (fun u => (u.unit, u.dtype))).Nodup
  lfs : ∀ u ∈ m.units, u.region ∈ m.regions ∧ 0 ≤ u.lf

theorem wf_run {regions : List String} {units : List UnitInfo} {di : ℚ} {m0 : Market} {ops : List Op}
    (h : Market.init regions units di = .ok m0) (hb : Benign m0 ops) : WF (m0.run ops) := by
  obtain ⟨h1, h2⟩ := run_varWF h ops
  have h3 := run_conWF h hb
  have hu := sameBase_run m0 ops
  have hi := h
  unfold Market.init at hi
  split at hi
  · rename_i hc
    injection hi with hi
    simp only [Bool.and_eq_true, decide_eq_true_eq, List.all_eq_true] at hc
    refine ⟨h3, h1, h2, ?_, ?_, ?_, ?_⟩
    · refine run_invariant (good := False) (P := BidWF) (fun _ _ _ p => bidWF_prim p) (fun h => h.elim) ?_
      subst hi; exact Or.inl ⟨rfl, rfl, rfl⟩
    · refine run_invariant (good := False) (P := KeyWF) (fun _ _ _ p => keyWF_prim p) (fun h => h.elim) ?_
      subst hi; exact ⟨by simp, by simp⟩
    · rw [hu.2.1]; subst hi; exact hc.2
    · rw [hu.2.1, hu.1]; subst hi; exact hc.1
  · cases hi

theorem Reached.wf {m : Market} (h : Reached m) : WF m := by
  obtain ⟨r, u, d, m0, ops, h1, h2, rfl⟩ := h
  exact wf_run h1 h2

/-- What `InForce` gives: well formed markets before (`a`), the successful call, and a final market in
which the parts of the call are those right after the call. -/
theorem InForce.unpack {op : Op} {m : Market} (h : InForce op m) :
    ∃ a : Market, WF a ∧ WF m ∧ (a.step op).2 = none ∧ SameBase a m ∧ ∀ p ∈ op.parts, SamePart (a.step op).1 m p := by
  obtain ⟨r, u, d, m0, before, after, h1, h2, h3, h4, rfl⟩ := h
  refine ⟨m0.run before, wf_run h1 (benign_append.1 h2).1, wf_run h1 h2, h3, ?_, ?_⟩
  · rw [run_append]; exact sameBase_run _ _
  · intro p hp
    rw [run_append, run_cons]
    exact part_run (fun o ho => h4 o ho p hp)

theorem InForceKeeping.inForce {keep : List Part} {op : Op} {m : Market} (h : InForceKeeping keep op m) : InForce op m := by
  obtain ⟨r, u, d, m0, before, after, h1, h2, h3, h4, h5⟩ := h
  exact ⟨r, u, d, m0, before, after, h1, h2, h3, fun o ho p hp => h4 o ho p (List.mem_append_right _ hp), h5⟩

theorem InForceKeeping.unpack {keep : List Part} {op : Op} {m : Market} (h : InForceKeeping keep op m) :
    ∃ a : Market, WF a ∧ WF m ∧ (a.step op).2 = none ∧ SameBase a m ∧
      (∀ p ∈ op.parts, SamePart (a.step op).1 m p) ∧ ∀ p ∈ keep, p ∉ op.parts → SamePart a m p := by
  obtain ⟨r, u, d, m0, before, after, h1, h2, h3, h4, rfl⟩ := h
  refine ⟨m0.run before, wf_run h1 (benign_append.1 h2).1, wf_run h1 h2, h3, ?_, ?_, ?_⟩
  · rw [run_append]; exact sameBase_run _ _
  · intro p hp
    rw [run_append, run_cons]
    exact part_run (fun o ho => h4 o ho p (List.mem_append_right _ hp))
  · intro p hp hno
    rw [run_append, run_cons]
    exact SamePart.trans (part_steps (good := False) (step_steps _ op (fun h => h.elim)) hno)
      (part_run (fun o ho => h4 o ho p (List.mem_append_left _ hp)))

theorem InForce.reached {op : Op} {m : Market} (h : InForce op m) : Reached m := by
  obtain ⟨r, u, d, m0, before, after, h1, h2, h3, h4, rfl⟩ := h
  exact ⟨r, u, d, m0, _, h1, h2, rfl⟩

end Verif
