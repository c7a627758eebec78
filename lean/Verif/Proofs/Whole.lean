import Verif.Proofs.TrapBidi
import Verif.Spec.Soft
import Verif.Props.Limits
import Verif.Props.Ramp
import Verif.Props.FastStart
import Verif.Props.JointRamp
import Verif.Props.Trap
import Verif.Props.Regional
import Verif.Props.Availability

/-! Helper lemmas about markets defined by a history of calls. -/

namespace Verif

theorem DefinedBy.made {ops : List Op} {m : Market} (h : DefinedBy ops m) : MadeBy ops m :=
  ⟨h.history, h.once, fun op ho => Or.inl (h.plain op ho), h.oneWay, h.proper, fun c hc => (h.plain _ hc).elim⟩

theorem accepted_append {m : Market} {a b : List Op} : Accepted m (a ++ b) ↔ Accepted m a ∧ Accepted (m.run a) b := by
  induction a generalizing m with
  | nil => simp [Accepted, Market.run]
  | cons op a ih => simp only [List.cons_append, Accepted, ih, run_cons, and_assoc]

theorem once_split {before after : List Op} {op : Op} (h : OncePerPart (before ++ op :: after)) :
    (∀ o ∈ after, ∀ p ∈ op.parts, p ∉ o.parts) ∧ (∀ o ∈ before, ∀ p ∈ op.parts, p ∉ o.parts) ∧
    ∀ o ∈ before, ∀ o' ∈ after, ∀ p ∈ o'.parts, p ∉ o.parts := by
  unfold OncePerPart at h
  rw [List.pairwise_append, List.pairwise_cons] at h
  exact ⟨fun o ho p hp => h.2.1.1 o ho p hp, fun o ho p hp hq => h.2.2 o ho op (by simp) p hq hp,
    fun o ho o' ho' p hp hq => h.2.2 o ho o' (by simp [ho']) p hq hp⟩

/-- a defined market, seen at one of its calls -/
theorem MadeBy.at {ops : List Op} {m : Market} (h : MadeBy ops m) {op : Op} (ho : op ∈ ops) :
    ∃ (regions : List String) (units : List UnitInfo) (di : ℚ) (m0 : Market) (before after : List Op),
      Market.init regions units di = .ok m0 ∧ Benign m0 (before ++ op :: after) ∧ ((m0.run before).step op).2 = none ∧
      ops = before ++ op :: after ∧ m = m0.run (before ++ op :: after) := by
  obtain ⟨r, u, d, m0, h1, h2, h3, rfl⟩ := h.history
  obtain ⟨before, after, rfl⟩ := List.append_of_mem ho
  exact ⟨r, u, d, m0, before, after, h1, h2, (accepted_append.1 h3).2.1, rfl, rfl⟩

theorem MadeBy.inForce {ops : List Op} {m : Market} (h : MadeBy ops m) {op : Op} (ho : op ∈ ops) : InForce op m := by
  obtain ⟨r, u, d, m0, before, after, h1, h2, h3, rfl, rfl⟩ := h.at ho
  exact ⟨r, u, d, m0, before, after, h1, h2, h3, (once_split h.once).1, rfl⟩

/-- a call that needs a part that is not there at the start is made after the call that sets it -/
theorem MadeBy.keeping {ops : List Op} {m : Market} (h : MadeBy ops m) {op : Op} (ho : op ∈ ops) {p : Part}
    (hp : ∀ (r : List String) (u : List UnitInfo) (d : ℚ) (m0 a : Market), Market.init r u d = .ok m0 → SamePart m0 a p → (a.step op).2 ≠ none) :
    InForceKeeping [p] op m := by
  obtain ⟨r, u, d, m0, before, after, h1, h2, h3, rfl, rfl⟩ := h.at ho
  obtain ⟨o1, o2, o3⟩ := once_split h.once
  refine ⟨r, u, d, m0, before, after, h1, h2, h3, ?_, rfl⟩
  intro o hoa q hq
  rcases List.mem_append.1 hq with hq | hq
  · rw [List.mem_singleton] at hq
    subst hq
    intro hin
    exact hp r u d m0 _ h1 (part_run (fun o' ho' => o3 o' ho' o hoa q hin)) h3
  · exact o1 o hoa q hq

theorem MadeBy.wf {ops : List Op} {m : Market} (h : MadeBy ops m) : WF m := by
  obtain ⟨r, u, d, m0, h1, h2, h3, rfl⟩ := h.history
  exact wf_run h1 h2

theorem MadeBy.reached {ops : List Op} {m : Market} (h : MadeBy ops m) : Reached m := by
  obtain ⟨r, u, d, m0, h1, h2, h3, rfl⟩ := h.history
  exact ⟨r, u, d, m0, ops, h1, h2, rfl⟩

theorem MadeBy.di {ops : List Op} {m : Market} (h : MadeBy ops m) {op : Op} (ho : op ∈ ops)
    (hb : ∀ a : Market, op.benign a → a.di ≠ 0) : m.di ≠ 0 := by
  obtain ⟨r, u, d, m0, before, after, h1, h2, h3, rfl, rfl⟩ := h.at ho
  have := hb _ (benign_append.1 h2).2.1
  rw [(sameBase_run m0 before).2.2] at this
  rw [(sameBase_run m0 _).2.2]
  exact this

/-- sets no call is about are empty -/
theorem MadeBy.unset {ops : List Op} {m : Market} (h : MadeBy ops m) {k : CKey} (hk : ∀ o ∈ ops, Part.set k ∉ o.parts)
    {lp : Lp} {x : Nat → ℚ} : m.obeys lp x k := by
  obtain ⟨r, u, d, m0, h1, h2, h3, rfl⟩ := h.history
  have hs : SameSet k m0 (m0.run ops) := part_run (p := .set k) hk
  have e0 := (init_fresh h1).1
  intro q _ ho
  rcases ho with ⟨rows, h1, _⟩ | ⟨rows, h1, _⟩ | ⟨hk, q', hq, _⟩
  · rw [hs.conRhs, e0] at h1; simp [Dict.get?] at h1
  · rw [hs.mktRhs, e0] at h1; simp [Dict.get?] at h1
  · rw [(hs.loss hk).2.1, e0] at hq; simp at hq

/-- A set whose call did not store it is empty. -/
theorem MadeBy.absent {ops : List Op} {m : Market} (h : MadeBy ops m) {op : Op} (ho : op ∈ ops) {k : CKey} (hk : Part.set k ∈ op.parts)
    (hp : ∀ a : Market, (a.step op).2 = none → a.units = m.units → a.conRhs.get? k = none →
      (∀ p, p ∉ op.parts → (∀ (r : List String) (u : List UnitInfo) (d : ℚ) (m0 a' : Market), Market.init r u d = .ok m0 →
        SamePart m0 a' p → (a'.step op).2 ≠ none) → SamePart a m p) → (a.step op).1.conRhs.get? k = none)
    : m.conRhs.get? k = none := by
  obtain ⟨r, u, d, m0, before, after, h1, h2, h3, e, e'⟩ := h.at ho
  subst e e'
  obtain ⟨o1, o2, o3⟩ := once_split h.once
  have e0 := (init_fresh h1).1
  have hs : SameSet k m0 (m0.run before) := part_run (p := .set k) (fun o ho => o2 o ho _ hk)
  have hs' : SameSet k ((m0.run before).step op).1 (m0.run (before ++ op :: after)) := by
    rw [run_append, run_cons]
    exact part_run (p := .set k) (fun o ho => o1 o ho _ hk)
  rw [hs'.conRhs]
  refine hp _ h3 ?_ ?_ ?_
  · rw [(sameBase_run m0 before).2.1, (sameBase_run m0 _).2.1]
  · rw [hs.conRhs, e0]; rfl
  · intro p hpo hne
    rw [run_append]
    refine part_run (p := p) (fun o ho => ?_)
    rcases List.mem_cons.1 ho with rfl | ho
    · exact hpo
    · intro hin
      exact hne r u d m0 _ h1 (part_run (fun o' ho' => o3 o' ho' o ho p hin)) h3

theorem MadeBy.notStored {ops : List Op} {m : Market} (h : MadeBy ops m) {op : Op} (ho : op ∈ ops) {k : CKey} (hk : Part.set k ∈ op.parts)
    (hu : k.isUnit = true)
    (hp : ∀ a : Market, (a.step op).2 = none → a.units = m.units → a.conRhs.get? k = none →
      (∀ p, p ∉ op.parts → (∀ (r : List String) (u : List UnitInfo) (d : ℚ) (m0 a' : Market), Market.init r u d = .ok m0 →
        SamePart m0 a' p → (a'.step op).2 ≠ none) → SamePart a m p) → (a.step op).1.conRhs.get? k = none)
    {lp : Lp} {x : Nat → ℚ} : m.obeys lp x k := by
  exact obeys_none h.wf.con hu (h.absent ho hk hp)

/-- the loss functions of a defined market are those given -/
theorem lossesOf_nil {ops : List Op} (h : ∀ o ∈ ops, Part.set .interpWeights ∉ o.parts) : lossesOf ops = [] := by
  unfold lossesOf
  rw [List.flatMap_eq_nil_iff]
  intro o ho
  have := h o ho
  cases o <;> first | rfl | simp [Op.parts] at this

theorem MadeBy.lossesOf_eq {ops : List Op} {m : Market} (h : MadeBy ops m) {fs : List LossFn} {bs : List BreakPt}
    (ho : Op.losses fs bs ∈ ops) : lossesOf ops = fs := by
  obtain ⟨before, after, rfl⟩ := List.append_of_mem ho
  obtain ⟨o1, o2, _⟩ := once_split h.once
  have e1 := lossesOf_nil (ops := before) (fun o ho => o2 o ho _ (by simp [Op.parts]))
  have e2 := lossesOf_nil (ops := after) (fun o ho => o1 o ho _ (by simp [Op.parts]))
  unfold lossesOf at e1 e2 ⊢
  rw [List.flatMap_append, List.flatMap_cons, e1, e2]
  simp

theorem MadeBy.lossesKeeping {ops : List Op} {m : Market} (h : MadeBy ops m) {fs : List LossFn} {bs : List BreakPt}
    (ho : Op.losses fs bs ∈ ops) : InForceKeeping [.inters] (.losses fs bs) m := by
  refine h.keeping ho (fun r u d m0 a h0 hs hok => ?_)
  have e0 := (init_fresh h0).1
  have hn := step_ok hok
  simp only [SamePart] at hs
  have hd : a.dirs = none := by rw [hs.1, e0]
  simp only [Market.step, hn, Market.setLosses, hd, Bool.false_eq_true, if_false] at hok
  split at hok <;> simp at hok

theorem MadeBy.lossFunctions {ops : List Op} {m : Market} (h : MadeBy ops m) : LossFunctions (lossesOf ops) m := by
  by_cases hc : ∃ fs bs, Op.losses fs bs ∈ ops
  · obtain ⟨fs, bs, ho⟩ := hc
    rw [h.lossesOf_eq ho]
    exact Or.inr ⟨bs, h.lossesKeeping ho⟩
  · have hn : ∀ o ∈ ops, Part.set .interpWeights ∉ o.parts := by
      intro o ho hp
      rcases h.kinds o ho with this | this <;>
      · cases o <;> first | exact hc ⟨_, _, ho⟩ | exact this | simp [Op.parts] at hp
    refine Or.inl ⟨lossesOf_nil hn, ?_⟩
    obtain ⟨r, u, d, m0, h1, h2, h3, rfl⟩ := h.history
    exact ⟨r, u, d, m0, ops, h1, h2, hn, rfl⟩

theorem jr_needs_bids {r : List String} {u : List UnitInfo} {d : ℚ} {m0 a : Market} {rs : List RampRow} {ps : Option (List FsRamp)}
    {rt : RunType} {vc : Option VCost} (h0 : Market.init r u d = .ok m0) (hs : SamePart m0 a .bids) :
    (a.step (.jointRamping rs ps rt vc)).2 ≠ none := by
  intro hok
  have e0 := (init_fresh h0).1
  have hn := step_ok hok
  simp only [SamePart] at hs
  have hd : a.bids = none := by rw [hs.1, e0]
  simp only [Market.step, hn, Market.setJointRamping, hd, Bool.false_eq_true, if_false] at hok
  split at hok
  · simp at hok
  · split at hok <;> simp at hok

theorem MadeBy.bidsKeeping {ops : List Op} {m : Market} (h : MadeBy ops m) {rs : List RampRow} {ps : Option (List FsRamp)}
    {rt : RunType} {vc : Option VCost} (ho : Op.jointRamping rs ps rt vc ∈ ops) : InForceKeeping [.bids] (.jointRamping rs ps rt vc) m :=
  h.keeping ho (fun _ _ _ _ _ h0 hs => jr_needs_bids h0 hs)

theorem MadeBy.priceKeeping {ops : List Op} {m : Market} (h : MadeBy ops m) {ps : List BidRow} (ho : Op.priceBids ps ∈ ops) :
    InForceKeeping [.bids] (.priceBids ps) m := by
  refine h.keeping ho (fun r u d m0 a h0 hs hok => ?_)
  have e0 := (init_fresh h0).1
  have hn := step_ok hok
  simp only [SamePart] at hs
  have hd : a.bids = none := by rw [hs.1, e0]
  simp [Market.step, hn, Market.setPriceBids, hd] at hok

theorem MadeBy.fastStart_iff {ops : List Op} {m : Market} (h : MadeBy ops m) {ps : List FsInput}
    (ho : Op.fastStart ps none ∈ ops) {lp : Lp} (hl : m.assemble = .ok lp) {x : Nat → ℚ} :
    m.obeys lp x .fastStart ↔ ∀ p ∈ ps, ∀ d, m.lists p.unit d → m.bidsFor p.unit .energy d →
      p.allows (m.dispatched x p.unit .energy d) := by
  by_cases hne : ∃ p ∈ ps, p.endMode ≤ 4
  · exact C11_fast_start_exact (h.inForce ho) hne (h.oneWay _ ho) hl
  · push Not at hne
    refine ⟨fun _ p hp d _ _ => ?_, fun _ => ?_⟩
    · have := hne p hp
      refine ⟨?_, ?_, ?_, ?_⟩ <;> intro e <;> omega
    · refine h.notStored ho (by simp [Op.parts]) rfl (fun a hok hu hk _ => ?_)
      have hn := step_ok hok
      have he : (fastStartConstraints (mergeFsProfiles a.units ps) a.nextCon).1 = [] := by
        have hq : ∀ q ∈ mergeFsProfiles a.units ps, 4 < q.endMode := by
          intro q hq
          obtain ⟨u, _, p, hp, _, rfl⟩ := mem_mergeFs.1 hq
          exact hne p hp
        have g : ∀ P : FsProfile → Bool, (∀ q, P q = true → q.endMode ≤ 4) → (mergeFsProfiles a.units ps).filter P = [] := by
          intro P hP
          rw [List.filter_eq_nil_iff]
          intro q hq' hc
          have := hP q hc
          have := hq q hq'
          omega
        unfold fastStartConstraints fsModeOne fsModeTwo fsModeThree fsModeFour
        rw [g _ (by simp; omega), g _ (by simp; omega), g _ (by simp; omega), g _ (by simp; omega)]
        rfl
      simp only [Market.step, hn, Market.setFastStart, Bool.false_eq_true, if_false, he]
      split
      · exact hk
      · simpa using hk

theorem andThen_inv {P : Market → Prop} {r : Res} {f : Market → Res} (h1 : P r.1) (h2 : ∀ m, P m → P (f m).1) : P (r.andThen f).1 := by
  obtain ⟨m, e⟩ := r
  cases e with
  | none => exact h2 _ h1
  | some e => exact h1

theorem setIf_other {a : Market} {k k' : CKey} {b : Bool} {t : List Row × List ConUnit} (hk : k' ≠ k ∨ b = false)
    (h : a.conRhs.get? k = none) : (a.addUnitSetIf k' b t).1.conRhs.get? k = none := by
  unfold Market.addUnitSetIf Market.addUnitSet
  rcases hk with hk | hk
  · split
    · split <;> dsimp only <;> rw [Dict.get?_set_ne _ _ hk] <;> exact h
    · exact h
  · rw [hk]; exact h

theorem makeElastic_conRhs (m : Market) (k : CKey) (c : VCost) : (m.makeElastic k c).1.conRhs = m.conRhs := by
  unfold Market.makeElastic
  dsimp only
  repeat' split
  all_goals rfl

theorem elasticJr_conRhs (m : Market) (o : Option VCost) : (m.elasticJr o).1.conRhs = m.conRhs := by
  cases o with
  | none => rfl
  | some c =>
    have hif : ∀ (b : Market) (k : CKey), (b.elasticIfPresent k c).1.conRhs = b.conRhs := by
      intro b k
      unfold Market.elasticIfPresent
      split
      · exact makeElastic_conRhs b k c
      · rfl
    exact andThen_inv (P := fun b => b.conRhs = m.conRhs) (makeElastic_conRhs m _ c) (fun b hb =>
      andThen_inv (P := fun b => b.conRhs = m.conRhs) ((makeElastic_conRhs b _ c).trans hb) (fun b hb =>
        andThen_inv (P := fun b => b.conRhs = m.conRhs) ((hif b _).trans hb) (fun b hb => (hif b _).trans hb)))

theorem jr_notStored {a : Market} {o : Option VCost} {rs : List RampRow} {ps : Option (List FsRamp)} {k : CKey} (h : a.conRhs.get? k = none)
    (hn : a.nanCon = false)
    (h1 : k = .jrRaise → (regRates (a.bids.getD []) .raiseReg rs (·.up)).filter (fun r => decide (r.unit ∉ a.bidi)) = [])
    (h2 : k = .jrRaiseBdu → (regRates (a.bids.getD []) .raiseReg rs (·.up)).filter (fun r => decide (r.unit ∈ a.bidi)) = [])
    (h3 : k = .jrLower → (regRates (a.bids.getD []) .lowerReg rs (·.down)).filter (fun r => decide (r.unit ∉ a.bidi)) = [])
    (h4 : k = .jrLowerBdu → (regRates (a.bids.getD []) .lowerReg rs (·.down)).filter (fun r => decide (r.unit ∈ a.bidi)) = []) :
    (a.step (.jointRamping rs ps .noFastStart o)).1.conRhs.get? k = none := by
  simp only [Market.step, hn, Market.setJointRamping, Bool.false_eq_true, if_false]
  split
  · exact h
  split
  · exact h
  split
  · exact h
  · rename_i vars hv
    rw [hv, Option.getD_some] at h1 h2 h3 h4
    simp only [adjustForFastStart]
    refine andThen_inv (P := fun m => m.conRhs.get? k = none) (setIf_other ?_ h) (fun b hb =>
      andThen_inv (P := fun m => m.conRhs.get? k = none) (setIf_other ?_ hb) (fun b hb =>
      andThen_inv (P := fun m => m.conRhs.get? k = none) (setIf_other ?_ hb) (fun b hb =>
      andThen_inv (P := fun m => m.conRhs.get? k = none) (setIf_other ?_ hb) (fun b hb => by show (b.elasticJr o).1.conRhs.get? k = none; rw [elasticJr_conRhs]; exact hb))))
    · by_cases e : CKey.jrRaise = k
      · right; rw [h1 e.symm]; rfl
      · exact Or.inl e
    · by_cases e : CKey.jrRaiseBdu = k
      · right; rw [h2 e.symm]; rfl
      · exact Or.inl e
    · by_cases e : CKey.jrLower = k
      · right; rw [h3 e.symm]; rfl
      · exact Or.inl e
    · by_cases e : CKey.jrLowerBdu = k
      · right; rw [h4 e.symm]; rfl
      · exact Or.inl e

theorem regRates_unit {bs : List BidVar} {s : Service} {rs : List RampRow} {rate : RampRow → ℚ} {q : RegRate} (hq : q ∈ regRates bs s rs rate) :
    ∃ r ∈ rs, r.unit = q.unit := by
  simp only [regRates, List.mem_flatMap, List.mem_map, List.mem_filter, decide_eq_true_eq] at hq
  obtain ⟨k, _, r, ⟨hr, hu⟩, rfl⟩ := hq
  exact ⟨r, hr, hu⟩

theorem regRates_bdu {rs : List RampRow} {bidi : List String} (h : ∀ r ∈ rs, r.unit ∉ bidi) (bs : List BidVar) (s : Service) (rate : RampRow → ℚ) :
    (regRates bs s rs rate).filter (fun r => decide (r.unit ∈ bidi)) = [] := by
  rw [List.filter_eq_nil_iff]
  intro q hq hc
  obtain ⟨r, hr, e⟩ := regRates_unit hq
  exact h r hr (by rw [e]; simpa using hc)

theorem bidding_iff {m : Market} {u : String} {s : Service} {d : DType} : m.bidding u s d = true ↔ m.bidsFor u s d := by
  simp [Market.bidding, Market.bidsFor]

theorem regEnergy_eq (m : Market) (x : Nat → ℚ) (u : String) (s : Service) : m.biddingEnergy x u s = m.regEnergy x u s := by
  simp only [Market.biddingEnergy, Market.regEnergy, bidding_iff]

theorem MadeBy.jr_iff_plain {ops : List Op} {m : Market} (h : MadeBy ops m) {rs : List RampRow} {ps : Option (List FsRamp)}
    (ho : Op.jointRamping rs ps .noFastStart none ∈ ops) {lp : Lp} (hl : m.assemble = .ok lp) {x : Nat → ℚ} :
    (∀ k, Part.set k ∈ (Op.jointRamping rs ps .noFastStart none).parts → m.obeys lp x k) ↔
      (Op.jointRamping rs ps .noFastStart none).meets m (lossesOf ops) x := by
  have hf := h.bidsKeeping ho
  have hdi : m.di ≠ 0 := h.di ho (fun a ha => ha)
  obtain ⟨k1, k2⟩ := C16_joint_ramping_exact hf hl (x := x)
  obtain ⟨k3, k4⟩ := jointRamping_bidirectional_exact hf hdi hl (x := x)
  simp only [upLimit, downLimit, ne_eq, reduceCtorEq, not_false_eq_true, and_true, Option.some.injEq, forall_eq', regEnergy_eq] at k3 k4
  have sbids : ∀ a : Market, (∀ p, p ∉ (Op.jointRamping rs ps .noFastStart none).parts → (∀ (r : List String) (u : List UnitInfo) (d : ℚ) (m0 a' : Market), Market.init r u d = .ok m0 →
        SamePart m0 a' p → (a'.step (Op.jointRamping rs ps .noFastStart none)).2 ≠ none) → SamePart a m p) → a.bids = m.bids := by
    intro a ha
    have := ha .bids (by simp [Op.parts]) (fun r u d m0 a' h0 hs hok => jr_needs_bids h0 hs hok)
    simp only [SamePart] at this
    exact this.1.symm
  have empty : ∀ (s : Service) (rate : RampRow → ℚ), (¬ ∃ r ∈ rs, r.unit ∉ m.bidi ∧ ∃ d, m.bidsFor r.unit s d) →
      (regRates (m.bids.getD []) s rs rate).filter (fun r => decide (r.unit ∉ m.bidi)) = [] := by
    intro s rate hc
    rw [List.eq_nil_iff_forall_not_mem]
    exact regRates_iff (P := fun _ => False).2 (fun r hr hb d hd => hc ⟨r, hr, hb, d, hd⟩)
  have emptyBdu : ∀ (s : Service) (rate : RampRow → ℚ), (¬ ∃ r ∈ rs, r.unit ∈ m.bidi ∧ ∃ d, m.bidsFor r.unit s d) →
      (regRates (m.bids.getD []) s rs rate).filter (fun r => decide (r.unit ∈ m.bidi)) = [] := by
    intro s rate hc
    rw [List.filter_eq_nil_iff]
    intro q hq hb
    rw [mem_regRates] at hq
    obtain ⟨v, hv, hs, r, hr, hu, rfl⟩ := hq
    dsimp only at hb
    rw [← hu] at hb
    exact hc ⟨r, hr, by simpa using hb, v.dtype, v, hv, hu.symm, hs, rfl⟩
  have stored : ∀ k, Part.set k ∈ (Op.jointRamping rs ps .noFastStart none).parts →
      (k = .jrRaise → ¬ ∃ r ∈ rs, r.unit ∉ m.bidi ∧ ∃ d, m.bidsFor r.unit .raiseReg d) →
      (k = .jrRaiseBdu → ¬ ∃ r ∈ rs, r.unit ∈ m.bidi ∧ ∃ d, m.bidsFor r.unit .raiseReg d) →
      (k = .jrLower → ¬ ∃ r ∈ rs, r.unit ∉ m.bidi ∧ ∃ d, m.bidsFor r.unit .lowerReg d) →
      (k = .jrLowerBdu → ¬ ∃ r ∈ rs, r.unit ∈ m.bidi ∧ ∃ d, m.bidsFor r.unit .lowerReg d) → m.obeys lp x k := by
    intro k hk c1 c2 c3 c4
    refine h.notStored ho hk (by simp [Op.parts] at hk; rcases hk with rfl | rfl | rfl | rfl <;> rfl) (fun a hok hu hk' hsame => ?_)
    have hbids := sbids a hsame
    have hbi : a.bidi = m.bidi := by unfold Market.bidi; rw [hu]
    refine jr_notStored hk' (step_ok hok) ?_ ?_ ?_ ?_
    · intro e; rw [hbids, hbi]; exact empty _ _ (c1 e)
    · intro e; rw [hbids, hbi]; exact emptyBdu _ _ (c2 e)
    · intro e; rw [hbids, hbi]; exact empty _ _ (c3 e)
    · intro e; rw [hbids, hbi]; exact emptyBdu _ _ (c4 e)
  simp only [Op.meets, upLimit, downLimit, Option.some.injEq, forall_eq']
  constructor
  · intro hall r hr
    refine ⟨fun hb => ⟨fun h1 h2 => ?_, fun h1 h2 => ?_, fun h1 h2 => ?_, fun h1 h2 => ?_⟩, fun hb => ⟨fun hd => ?_, fun hd => ?_⟩⟩
    · exact (((k1 ⟨r, hr, hb, _, h2⟩).1 (hall _ (by simp [Op.parts]))) r hr hb).1 h1 h2
    · exact (((k1 ⟨r, hr, hb, _, h2⟩).1 (hall _ (by simp [Op.parts]))) r hr hb).2 h1 h2
    · exact (((k2 ⟨r, hr, hb, _, h2⟩).1 (hall _ (by simp [Op.parts]))) r hr hb).1 h1 h2
    · exact (((k2 ⟨r, hr, hb, _, h2⟩).1 (hall _ (by simp [Op.parts]))) r hr hb).2 h1 h2
    · exact (k3 ⟨r, hr, hb, hd⟩).1 (hall _ (by simp [Op.parts])) r hr hb hd
    · exact (k4 ⟨r, hr, hb, hd⟩).1 (hall _ (by simp [Op.parts])) r hr hb hd
  · intro hm k hk
    have ne : ∀ {a b : CKey} {P : Prop}, k = a → a ≠ b → k = b → P := fun e1 e2 e3 => absurd (e1.symm.trans e3) e2
    have hk' := hk
    simp only [Op.parts, List.mem_cons, Part.set.injEq, List.not_mem_nil, or_false] at hk'
    rcases hk' with e | e | e | e
    · by_cases c : ∃ r ∈ rs, r.unit ∉ m.bidi ∧ ∃ d, m.bidsFor r.unit .raiseReg d
      · subst e
        exact (k1 c).2 (fun r hr hb => ⟨((hm r hr).1 hb).1, ((hm r hr).1 hb).2.1⟩)
      · exact stored k hk (fun _ => c) (ne e (by simp)) (ne e (by simp)) (ne e (by simp))
    · by_cases c : ∃ r ∈ rs, r.unit ∈ m.bidi ∧ ∃ d, m.bidsFor r.unit .raiseReg d
      · subst e
        exact (k3 c).2 (fun r hr hb hd => ((hm r hr).2 hb).1 hd)
      · exact stored k hk (ne e (by simp)) (fun _ => c) (ne e (by simp)) (ne e (by simp))
    · by_cases c : ∃ r ∈ rs, r.unit ∉ m.bidi ∧ ∃ d, m.bidsFor r.unit .lowerReg d
      · subst e
        exact (k2 c).2 (fun r hr hb => ⟨((hm r hr).1 hb).2.2.1, ((hm r hr).1 hb).2.2.2⟩)
      · exact stored k hk (ne e (by simp)) (ne e (by simp)) (fun _ => c) (ne e (by simp))
    · by_cases c : ∃ r ∈ rs, r.unit ∈ m.bidi ∧ ∃ d, m.bidsFor r.unit .lowerReg d
      · subst e
        exact (k4 c).2 (fun r hr hb hd => ((hm r hr).2 hb).2 hd)
      · exact stored k hk (ne e (by simp)) (ne e (by simp)) (ne e (by simp)) (fun _ => c)

/-- joint ramping with profiles is joint ramping with the adjusted rates -/
theorem jr_same {a : Market} {rs : List RampRow} {ps : Option (List FsRamp)} {rt : RunType} {vc : Option VCost}
    (hok : (a.step (.jointRamping rs ps rt vc)).2 = none) :
    ∃ ord, adjustForFastStart rs rt ps a.di = .ok ord ∧ (∀ p, rt ≠ .noFastStart → ps = some p → (p.map (·.unit)).Nodup) ∧
      a.step (.jointRamping ord none .noFastStart vc) = a.step (.jointRamping rs ps rt vc) := by
  have hn := step_ok hok
  simp only [Market.step, hn, Market.setJointRamping, Bool.false_eq_true, if_false] at hok ⊢
  split at hok
  · simp at hok
  rename_i c1
  split at hok
  · simp at hok
  rename_i c2
  have hp : ∀ p, rt ≠ .noFastStart → ps = some p → (p.map (·.unit)).Nodup := by
    intro p hrt hps
    subst hps
    simp only [Bool.not_eq_true', Bool.not_eq_false] at c2
    unfold Market.fsProfilesOk at c2
    cases rt with
    | noFastStart => exact absurd rfl hrt
    | _ => simp only [Market.fsRampOk, Bool.and_eq_true, decide_eq_true_eq] at c2; exact c2.2
  split at hok
  · simp at hok
  rename_i vars hv
  split at hok
  · simp at hok
  rename_i ord ho
  refine ⟨ord, ho, hp, ?_⟩
  have c1' : (rs.all (fun r => a.knows r.unit) && decide ((rs.map (·.unit)).Nodup)) = true := by simpa using c1
  have c3 : (ord.all (fun r => a.knows r.unit) && decide ((ord.map (·.unit)).Nodup)) = true := by
    rw [Bool.and_eq_true, decide_eq_true_eq, List.all_eq_true] at c1' ⊢
    refine ⟨fun q hq => ?_, ord_nodup c1'.2 hp ho⟩
    obtain ⟨r, hr, e, _⟩ := ord_from ho hq
    rw [← e]; exact c1'.1 r hr
  have c2' : a.fsProfilesOk rt ps = true := by simpa using c2
  have c4 : a.fsProfilesOk .noFastStart none = true := rfl
  simp only [c1', c2', c3, c4, Bool.not_true, Bool.false_eq_true, if_false, hv, ho, adjustForFastStart]

/-- the same market, made with the adjusted rates -/
theorem MadeBy.jrPlain {ops : List Op} {m : Market} (h : MadeBy ops m) {rs : List RampRow} {ps : Option (List FsRamp)} {rt : RunType}
    {vc : Option VCost} (ho : Op.jointRamping rs ps rt vc ∈ ops) :
    ∃ ord ops', adjustForFastStart rs rt ps m.di = .ok ord ∧ (∀ p, rt ≠ .noFastStart → ps = some p → (p.map (·.unit)).Nodup) ∧
      MadeBy ops' m ∧ Op.jointRamping ord none .noFastStart vc ∈ ops' ∧ lossesOf ops' = lossesOf ops := by
  obtain ⟨hh, h2, h3, h4, h5, h6⟩ := h
  obtain ⟨r, u, d, m0, a1, a2, a3, rfl⟩ := hh
  obtain ⟨pre, post, rfl⟩ := List.append_of_mem ho
  obtain ⟨b1, b2, b3⟩ := accepted_append.1 a3
  obtain ⟨d1, d2, d3⟩ := benign_append.1 a2
  obtain ⟨ord, o1, o2, o3⟩ := jr_same b2
  have hdi : (m0.run (pre ++ Op.jointRamping rs ps rt vc :: post)).di = (m0.run pre).di := by
    rw [(sameBase_run m0 _).2.2, (sameBase_run m0 _).2.2]
  have hrun : m0.run (pre ++ Op.jointRamping ord none .noFastStart vc :: post) = m0.run (pre ++ Op.jointRamping rs ps rt vc :: post) := by
    rw [run_append, run_append, run_cons, run_cons, o3]
  have hmem : ∀ op, op ∈ pre ++ Op.jointRamping ord none .noFastStart vc :: post → op = .jointRamping ord none .noFastStart vc ∨
      op ∈ pre ++ Op.jointRamping rs ps rt vc :: post := by
    intro op hop
    simp only [List.mem_append, List.mem_cons] at hop ⊢
    tauto
  have hfl : ∀ {β : Type} (f : Op → List β), (f (.jointRamping ord none .noFastStart vc) = f (.jointRamping rs ps rt vc)) →
      (pre ++ Op.jointRamping ord none .noFastStart vc :: post).flatMap f = (pre ++ Op.jointRamping rs ps rt vc :: post).flatMap f := by
    intro β f hf
    simp only [List.flatMap_append, List.flatMap_cons, hf]
  have hl : lossesOf (pre ++ Op.jointRamping ord none .noFastStart vc :: post) = lossesOf (pre ++ Op.jointRamping rs ps rt vc :: post) :=
    hfl _ rfl
  have hpr : pricesOf (pre ++ Op.jointRamping ord none .noFastStart vc :: post) = pricesOf (pre ++ Op.jointRamping rs ps rt vc :: post) :=
    hfl _ rfl
  refine ⟨ord, pre ++ .jointRamping ord none .noFastStart vc :: post, by rw [hdi]; exact o1, o2, ?_, by simp, hl⟩
  refine ⟨⟨r, u, d, m0, a1, benign_append.2 ⟨d1, d2, by rw [o3]; exact d3⟩, accepted_append.2 ⟨b1, by rw [o3]; exact b2, by rw [o3]; exact b3⟩, hrun.symm⟩,
    ?_, ?_, ?_, by rw [hl]; exact h5, ?_⟩
  · unfold OncePerPart at h2 ⊢
    rw [List.pairwise_append, List.pairwise_cons] at h2 ⊢
    refine ⟨h2.1, ⟨h2.2.1.1, h2.2.1.2⟩, ?_⟩
    intro p hp q hq
    rcases List.mem_cons.1 hq with rfl | hq
    · exact h2.2.2 p hp (.jointRamping rs ps rt vc) (by simp)
    · exact h2.2.2 p hp q (by simp [hq])
  · intro op hop
    rcases hmem op hop with rfl | hop
    · have := h3 _ ho
      cases vc with
      | none => exact this
      | some v => cases v <;> exact this
    · exact h3 op hop
  · intro op hop
    rcases hmem op hop with rfl | hop
    · intro q hq
      exact fun _ => Or.inl rfl
    · exact h4 op hop
  · intro c hc
    obtain ⟨t1, t2⟩ := h6 c (by rcases hmem _ hc with e | e; · cases e
                                · exact e)
    refine ⟨fun ps hps => t1 ps ?_, by rw [hpr]; exact t2⟩
    rcases hmem _ hps with e | e
    · cases e
    · exact e

theorem ord_plain {rs ord : List RampRow} {rt : RunType} {ps : Option (List FsRamp)} {di : ℚ}
    (h : adjustForFastStart rs rt ps di = .ok ord) {q : RampRow} (hq : q ∈ ord)
    (hp : rt = .noFastStart ∨ ∀ p ∈ ps.getD [], p.unit ≠ q.unit) : q ∈ rs := by
  cases rt with
  | other => simp [adjustForFastStart] at h
  | noFastStart => simp only [adjustForFastStart, Except.ok.injEq] at h; subst h; exact hq
  | first =>
    cases ps with
    | none => simp [adjustForFastStart] at h
    | some ps =>
      simp only [adjustForFastStart, Except.ok.injEq] at h
      subst h
      exact (mem_first.1 hq).1
  | second =>
    cases ps with
    | none => simp [adjustForFastStart] at h
    | some ps =>
      simp only [adjustForFastStart, Except.ok.injEq] at h
      subst h
      simp only [reduceCtorEq, false_or, Option.getD_some] at hp
      obtain ⟨r, hr, _, (⟨p, hp', s, hs, _, rfl⟩ | ⟨_, rfl⟩)⟩ := mem_second.1 hq
      · exact absurd (by first | exact hs | assumption) (hp p hp')
      · exact hr

theorem MadeBy.jr_iff {ops : List Op} {m : Market} (h : MadeBy ops m) {rs : List RampRow} {ps : Option (List FsRamp)} {rt : RunType}
    (ho : Op.jointRamping rs ps rt none ∈ ops) {lp : Lp} (hl : m.assemble = .ok lp) {x : Nat → ℚ} :
    (∀ k, Part.set k ∈ (Op.jointRamping rs ps rt none).parts → m.obeys lp x k) ↔
      (Op.jointRamping rs ps rt none).meets m (lossesOf ops) x := by
  have hdi : m.di ≠ 0 := h.di ho (fun a ha => ha)
  have hs := h.oneWay _ ho
  obtain ⟨ord, ops', o1, o2, h', ho', hls⟩ := h.jrPlain ho
  have hplain := h'.jr_iff_plain ho' hl (x := x)
  have hload : ∀ u s, u ∉ m.bidi → m.bidsFor u s .load → (∃ r ∈ rs, r.unit = u) → (rt = .noFastStart ∨ ∀ p ∈ ps.getD [], p.unit ≠ u) := by
    rintro u s hu ⟨b, hb, hbu, _, hbd⟩ ⟨r, hr, rfl⟩
    rcases hs r hr hu with e | e
    · exact Or.inl e
    · refine Or.inr (fun p hp hu => ?_)
      have := e p hp hu b hb hbu
      rw [hbd] at this
      cases this
  refine hplain.trans ?_
  simp only [Op.meets, upLimit.eq_def .noFastStart, downLimit.eq_def .noFastStart, Option.some.injEq, forall_eq']
  have g1 := (mem_ord o2 hdi o1 (fun u _ L => u ∉ m.bidi → m.lists u .generator → m.bidsFor u .raiseReg .generator →
      m.dispatched x u .energy .generator + m.dispatched x u .raiseReg .generator ≤ L)).1
  have g2 := (mem_ord o2 hdi o1 (fun u _ L => u ∉ m.bidi → m.lists u .generator → m.bidsFor u .lowerReg .generator →
      L ≤ m.dispatched x u .energy .generator - m.dispatched x u .lowerReg .generator)).2
  have g3 := (mem_ord o2 hdi o1 (fun u _ L => u ∈ m.bidi → (∃ d, m.bidsFor u .raiseReg d) →
      m.regEnergy x u .raiseReg + (m.dispatched x u .raiseReg .generator + m.dispatched x u .raiseReg .load) ≤ L)).1
  have g4 := (mem_ord o2 hdi o1 (fun u _ L => u ∈ m.bidi → (∃ d, m.bidsFor u .lowerReg d) →
      L ≤ m.regEnergy x u .lowerReg - (m.dispatched x u .lowerReg .generator + m.dispatched x u .lowerReg .load))).2
  constructor
  · intro hq r hr
    refine ⟨fun hb => ⟨fun a b L hL => g1.1 (fun q hq' hb => ((hq q hq').1 hb).1) r hr L hL hb a b, fun a b => ?_,
      fun a b L hL => g2.1 (fun q hq' hb => ((hq q hq').1 hb).2.2.1) r hr L hL hb a b, fun a b => ?_⟩,
      fun hb => ⟨fun hd L hL => g3.1 (fun q hq' hb => ((hq q hq').2 hb).1) r hr L hL hb hd,
        fun hd L hL => g4.1 (fun q hq' hb => ((hq q hq').2 hb).2) r hr L hL hb hd⟩⟩
    · exact ((hq r (ord_keeps o1 hr (hload _ _ hb b ⟨r, hr, rfl⟩))).1 hb).2.1 a b
    · exact ((hq r (ord_keeps o1 hr (hload _ _ hb b ⟨r, hr, rfl⟩))).1 hb).2.2.2 a b
  · intro hr q hq
    obtain ⟨r, hr', e, _⟩ := ord_from o1 hq
    refine ⟨fun hb => ⟨g1.2 (fun r hr' L hL hb a b => ((hr r hr').1 hb).1 a b L hL) q hq hb, fun a b => ?_,
      g2.2 (fun r hr' L hL hb a b => ((hr r hr').1 hb).2.2.1 a b L hL) q hq hb, fun a b => ?_⟩,
      fun hb => ⟨g3.2 (fun r hr' L hL hb hd => ((hr r hr').2 hb).1 hd L hL) q hq hb,
        g4.2 (fun r hr' L hL hb hd => ((hr r hr').2 hb).2 hd L hL) q hq hb⟩⟩
    · exact ((hr q (ord_plain o1 hq (hload _ _ hb b ⟨r, hr', e⟩))).1 hb).2.1 a b
    · exact ((hr q (ord_plain o1 hq (hload _ _ hb b ⟨r, hr', e⟩))).1 hb).2.2.2 a b

/-- without both sides of a bidirectional unit there are no composite rates -/
theorem bi_none {rs : List RampRow} {bidi : List String} (sc : Option (List Scada)) (di : ℚ)
    (hne : ¬ ∃ g ∈ rs, ∃ l ∈ rs, g.unit ∈ bidi ∧ g.unit = l.unit ∧ g.dtype = .generator ∧ l.dtype = .load) :
    scadaOpt adjustForScadaBi (compositeRampRates rs di bidi).2 sc = [] := by
  have : (compositeRampRates rs di bidi).2 = [] := by
    rw [List.eq_nil_iff_forall_not_mem]
    intro b hb
    simp only [compositeRampRates, List.mem_flatMap, List.mem_map, List.mem_filter, decide_eq_true_eq] at hb
    obtain ⟨d, ⟨l, ⟨⟨hl, hlb⟩, hld⟩, g, ⟨⟨⟨hg, hgb⟩, hgd⟩, e⟩, rfl⟩, _⟩ := hb
    exact hne ⟨g, hg, l, hl, hgb, e, hgd, hld⟩
  rw [this]
  cases sc <;> simp [scadaOpt, adjustForScadaBi, leftMerge]

theorem MadeBy.ramp_iff {ops : List Op} {m : Market} (h : MadeBy ops m) {rs : List RampRow} {sc : Option (List Scada)}
    {ps : Option (List FsRamp)} {rt : RunType}
    (ho : Op.rampRates rs sc ps rt none ∈ ops) {lp : Lp} (hl : m.assemble = .ok lp) {x : Nat → ℚ} :
    (∀ k, Part.set k ∈ (Op.rampRates rs sc ps rt none).parts → m.obeys lp x k) ↔
      (Op.rampRates rs sc ps rt none).meets m (lossesOf ops) x := by
  obtain ⟨k1, k2⟩ := C12_ramp_limits_exact (h.inForce ho) (h.di ho (fun a ha => ha)) hl (x := x)
  have hok := h.oneWay _ ho
  simp only [Op.suits] at hok
  have bi : (m.obeys lp x .biRampUp ∧ m.obeys lp x .biRampDown) ↔ ∀ g ∈ rs, ∀ l ∈ rs, m.sides g l → (∃ d, m.bidsFor g.unit .energy d) →
        m.netOutput x g.unit ≤ highest sc m.di g l ∧ lowest sc m.di g l ≤ m.netOutput x g.unit := by
    by_cases hne : ∃ g ∈ rs, ∃ l ∈ rs, g.unit ∈ m.bidi ∧ g.unit = l.unit ∧ g.dtype = .generator ∧ l.dtype = .load
    · obtain ⟨g0, hg0, _, _, hb, _⟩ := id hne
      rw [C09_net_output_follows_trajectory (h.inForce ho) (hok g0 hg0 hb).1 (fun r hr hb => ⟨(hok r hr hb).2.1, (hok r hr hb).2.2.1⟩)
        (fun g hg l hl hb e => ((hok g hg hb).2.2.2 l hl e.symm).symm) hne hl]
      unfold Market.sides
      constructor
      · rintro ha g hg l hl ⟨h1, h2, h3, h4⟩ hd
        obtain ⟨⟨a1, a2⟩, a3, a4⟩ := ha g hg l hl h1 h2 h3 h4 hd
        unfold highest lowest
        constructor
        · cases e : scadaRate sc Scada.up g.unit with
          | none => exact a2
          | some v => exact le_min a2 (a4 v e)
        · cases e : scadaRate sc Scada.down g.unit with
          | none => exact a1
          | some v => exact max_le a1 (a3 v e)
      · intro ha g hg l hl h1 h2 h3 h4 hd
        obtain ⟨b1, b2⟩ := ha g hg l hl ⟨h1, h2, h3, h4⟩ hd
        unfold highest at b1
        unfold lowest at b2
        refine ⟨⟨?_, ?_⟩, ?_, ?_⟩
        · cases e : scadaRate sc Scada.down g.unit with
          | none => rw [e] at b2; exact b2
          | some v => rw [e] at b2; exact le_trans (le_max_left _ _) b2
        · cases e : scadaRate sc Scada.up g.unit with
          | none => rw [e] at b1; exact b1
          | some v => rw [e] at b1; exact le_trans b1 (min_le_left _ _)
        · intro v e
          rw [e] at b2; exact le_trans (le_max_right _ _) b2
        · intro v e
          rw [e] at b1; exact le_trans b1 (min_le_right _ _)
    · have none : ∀ k, k = .biRampUp ∨ k = .biRampDown → m.obeys lp x k := by
        intro k hk
        refine h.notStored ho (by rcases hk with rfl | rfl <;> simp [Op.parts]) (by rcases hk with rfl | rfl <;> rfl) (fun a hok hu hk' _ => ?_)
        have hn := step_ok hok
        have hbi : a.bidi = m.bidi := by unfold Market.bidi; rw [hu]
        simp only [Market.step, hn, Market.setRampRates, Bool.false_eq_true, if_false]
        split
        · exact hk'
        split
        · exact hk'
        split
        · exact hk'
        split
        · exact hk'
        split
        · exact hk'
        rw [hbi, bi_none sc a.di hne]
        have hadd : ∀ (b : Market) (k' : CKey) t, k' ≠ k → b.conRhs.get? k = none → (b.addUnitSet k' t).1.conRhs.get? k = none := by
          intro b k' t hne hb
          have := setIf_other (a := b) (k := k) (k' := k') (b := true) (t := t) (Or.inl hne) hb
          simpa [Market.addUnitSetIf] using this
        refine andThen_inv (P := fun m => m.conRhs.get? k = none) (hadd _ _ _ (by rcases hk with rfl | rfl <;> simp) hk') (fun b hb =>
          andThen_inv (P := fun m => m.conRhs.get? k = none) (hadd _ _ _ (by rcases hk with rfl | rfl <;> simp) hb) (fun b hb =>
            andThen_inv (P := fun m => m.conRhs.get? k = none) (by simpa [Market.addBiRamps] using hb) (fun b hb => by simpa [Market.elasticRamps] using hb)))
      refine ⟨fun _ g hg l hl hs _ => ?_, fun _ => ⟨none _ (Or.inl rfl), none _ (Or.inr rfl)⟩⟩
      exact absurd ⟨g, hg, l, hl, hs⟩ hne
  simp only [Op.meets, ← bi]
  constructor
  · intro hall
    refine ⟨fun r hr hb h1 h2 => ?_, hall _ (by simp [Op.parts]), hall _ (by simp [Op.parts])⟩
    exact ⟨k1.1 (hall _ (by simp [Op.parts])) r hr hb h1 h2, k2.1 (hall _ (by simp [Op.parts])) r hr hb h1 h2⟩
  · rintro ⟨hm, h3, h4⟩ k hk
    simp only [Op.parts, List.mem_cons, Part.set.injEq, List.not_mem_nil, or_false] at hk
    rcases hk with rfl | rfl | rfl | rfl
    · exact k1.2 (fun r hr hb h1 h2 => (hm r hr hb h1 h2).1)
    · exact k2.2 (fun r hr hb h1 h2 => (hm r hr hb h1 h2).2)
    · exact h3
    · exact h4

/-- the calls about constraint sets other than losses -/
def Op.isSet : Op → Bool
  | .volumeBids _ => false
  | .interconnectors _ => false
  | .losses _ _ => false
  | _ => true

theorem MadeBy.rows_iff {ops : List Op} {m : Market} (h : MadeBy ops m) {op : Op} (ho : op ∈ ops) (hp : op.firm) (hs : op.isSet = true)
    {lp : Lp} (hl : m.assemble = .ok lp) {x : Nat → ℚ} :
    (∀ k, Part.set k ∈ op.parts → m.obeys lp x k) ↔ op.meets m (lossesOf ops) x := by
  cases op with
  | volumeBids => cases hs
  | interconnectors => cases hs
  | losses => cases hs
  | priceBids => simp [Op.parts, Op.meets]
  | linkUnits => simp [Op.parts, Op.meets]
  | linkRegions => simp [Op.parts, Op.meets]
  | linkInters => simp [Op.parts, Op.meets]
  | removeFastStart => exact hp.elim
  | elastic => exact hp.elim
  | tieBreak => exact hp.elim
  | capacity ls vc =>
    simp only [Op.firm] at hp; subst hp
    simp only [Op.parts, List.mem_singleton, Part.set.injEq, forall_eq]
    exact C06_capacity_exact (h.inForce ho) hl
  | uigf ls vc =>
    simp only [Op.firm] at hp; subst hp
    simp only [Op.parts, List.mem_singleton, Part.set.injEq, forall_eq]
    exact C07_uigf_exact (h.inForce ho) hl
  | fcasMaxAvail ls vc =>
    simp only [Op.firm] at hp; subst hp
    simp only [Op.parts, List.mem_singleton, Part.set.injEq, forall_eq]
    exact C15_fcas_max_availability_exact (h.inForce ho) hl
  | rampRates rs sc ps rt vc =>
    simp only [Op.firm] at hp; subst hp
    exact h.ramp_iff ho hl
  | fastStart ps vc =>
    simp only [Op.firm] at hp; subst hp
    simp only [Op.parts, List.mem_singleton, Part.set.injEq, forall_eq]
    exact h.fastStart_iff ho hl
  | demand ds vc =>
    simp only [Op.firm] at hp; subst hp
    simp only [Op.parts, List.mem_singleton, Part.set.injEq, forall_eq]
    exact C13_regional_balance_exact (h.inForce ho) h.lossFunctions h.proper hl
  | fcasReq rs vc =>
    simp only [Op.firm] at hp; obtain ⟨rfl, hp⟩ := hp
    simp only [Op.parts, List.mem_singleton, Part.set.injEq, forall_eq]
    exact C14_fcas_requirements_exact (h.inForce ho) hp h.lossFunctions hl
  | jointRamping rs ps rt vc =>
    simp only [Op.firm] at hp; subst hp
    exact h.jr_iff ho hl
  | jointCapacity ts vc =>
    simp only [Op.firm] at hp; obtain ⟨rfl, hp⟩ := hp
    simp only [Op.parts, List.mem_singleton, Part.set.injEq, forall_eq]
    exact jointCapacity_meets (h.inForce ho) (h.oneWay _ ho) hp hl _
  | energyReg ts vc =>
    simp only [Op.firm] at hp; obtain ⟨rfl, hp⟩ := hp
    simp only [Op.parts, List.mem_singleton, Part.set.injEq, forall_eq]
    exact energyReg_meets (h.inForce ho) hp hl _
  | generic gs vc =>
    simp only [Op.firm] at hp; subst hp
    simp only [Op.parts, List.mem_singleton, Part.set.injEq, forall_eq]
    exact C22_generic_exact (h.inForce ho) hl

/-- the constraint sets of the calls with a violation cost -/
def LaxSet (ops : List Op) (k : CKey) : Prop := ∃ op ∈ ops, op.lax ∧ Part.set k ∈ op.parts

theorem firm_not_lax {op : Op} (h : op.firm) : ¬ op.lax := by
  cases op <;> simp_all [Op.firm, Op.lax]

/-- a part belongs to one call only -/
theorem once_unique {ops : List Op} (h : OncePerPart ops) {a b : Op} (ha : a ∈ ops) (hb : b ∈ ops) {p : Part} (h1 : p ∈ a.parts)
    (h2 : p ∈ b.parts) : a = b := by
  obtain ⟨before, after, rfl⟩ := List.append_of_mem ha
  obtain ⟨o1, o2, _⟩ := once_split h
  rcases List.mem_append.1 hb with hb | hb
  · exact absurd h2 (o2 b hb p h1)
  · rcases List.mem_cons.1 hb with rfl | hb
    · rfl
    · exact absurd h2 (o1 b hb p h1)

/-- all constraint sets of calls without a violation cost, other than losses -/
theorem MadeBy.sets_iff {ops : List Op} {m : Market} (h : MadeBy ops m) {lp : Lp} (hl : m.assemble = .ok lp) {x : Nat → ℚ} :
    (∀ k, k ≠ .interpWeights → ¬ LaxSet ops k → m.obeys lp x k) ↔
      ∀ op ∈ ops, op.firm → op.isSet = true → op.meets m (lossesOf ops) x := by
  constructor
  · intro hall op ho hp hs
    refine (h.rows_iff ho hp hs hl).1 (fun k hk => hall k ?_ ?_)
    · rintro rfl
      cases op <;> first | exact hp | (simp [Op.parts] at hk; done) | cases hs
    · rintro ⟨o, ho', hlax, hk'⟩
      rw [once_unique h.once ho ho' hk hk'] at hp
      exact firm_not_lax hp hlax
  · intro hm k hk hnl
    by_cases hc : ∃ op ∈ ops, Part.set k ∈ op.parts
    · obtain ⟨op, ho, hp⟩ := hc
      have hs : op.isSet = true := by
        cases op <;> first | rfl | (simp [Op.parts] at hp; done) | (simp [Op.parts] at hp; exact absurd hp hk)
      have hf : op.firm := (h.kinds op ho).resolve_right (fun hlax => hnl ⟨op, ho, hlax, hp⟩)
      exact (h.rows_iff ho hf hs hl).2 (hm op ho hf hs) k hp
    · push Not at hc
      exact h.unset hc

theorem plain_deficits {op : Op} (h : op.firm) (m : Market) : (m.step op).1.deficits = m.deficits := by
  unfold Market.step
  split
  · rfl
  have hu : ∀ (a : Market) k t, (a.addUnitSet k t).1.deficits = a.deficits := by
    intro a k t; unfold Market.addUnitSet; split <;> rfl
  have hr : ∀ (a : Market) k t, (a.addRegSet k t).1.deficits = a.deficits := by
    intro a k t; unfold Market.addRegSet; split <;> rfl
  have hif : ∀ (a : Market) k b t, (a.addUnitSetIf k b t).1.deficits = a.deficits := by
    intro a k b t; unfold Market.addUnitSetIf; split
    · exact hu _ _ _
    · rfl
  have chain : ∀ {r : Res} {f : Market → Res}, r.1.deficits = m.deficits → (∀ a, a.deficits = m.deficits → (f a).1.deficits = m.deficits) →
      (r.andThen f).1.deficits = m.deficits := by
    intro r f h1 h2
    exact andThen_inv (P := fun a => a.deficits = m.deficits) h1 h2
  cases op with
  | volumeBids => simp only [Market.setVolumeBids]; repeat' split <;> try rfl
  | priceBids => simp only [Market.setPriceBids]; repeat' split <;> try rfl
  | capacity _ vc =>
    simp only [Op.firm] at h; subst h
    simp only [Market.setCapacity]
    repeat' split <;> try rfl
    exact chain (hu _ _ _) (fun a ha => ha)
  | uigf _ vc =>
    simp only [Op.firm] at h; subst h
    simp only [Market.setUigf]
    repeat' split <;> try rfl
    exact chain (hu _ _ _) (fun a ha => ha)
  | fcasMaxAvail _ vc =>
    simp only [Op.firm] at h; subst h
    simp only [Market.setFcasMaxAvail]
    repeat' split <;> try rfl
    exact chain (hu _ _ _) (fun a ha => ha)
  | rampRates _ _ _ _ vc =>
    simp only [Op.firm] at h; subst h
    simp only [Market.setRampRates]
    repeat' split <;> try rfl
    refine chain (hu _ _ _) (fun a ha => chain ((hu _ _ _).trans ha) (fun a ha => chain ?_ (fun a ha => ha)))
    unfold Market.addBiRamps
    split
    · exact ha
    · exact chain ((hu _ _ _).trans ha) (fun a ha => (hu _ _ _).trans ha)
  | fastStart _ vc =>
    simp only [Op.firm] at h; subst h
    simp only [Market.setFastStart]
    repeat' split <;> try rfl
    exact chain (hu _ _ _) (fun a ha => ha)
  | removeFastStart => exact h.elim
  | elastic => exact h.elim
  | tieBreak => exact h.elim
  | demand _ vc =>
    simp only [Op.firm] at h; subst h
    simp only [Market.setDemand]
    repeat' split <;> try rfl
    exact chain (hr _ _ _) (fun a ha => ha)
  | fcasReq _ vc =>
    simp only [Op.firm] at h; obtain ⟨rfl, _⟩ := h
    simp only [Market.setFcasReq]
    repeat' split <;> try rfl
    exact chain (hr _ _ _) (fun a ha => ha)
  | jointRamping _ _ _ vc =>
    simp only [Op.firm] at h; subst h
    simp only [Market.setJointRamping]
    repeat' split <;> try rfl
    exact chain (hif _ _ _ _) (fun a ha => chain ((hif _ _ _ _).trans ha) (fun a ha => chain ((hif _ _ _ _).trans ha)
      (fun a ha => chain ((hif _ _ _ _).trans ha) (fun a ha => ha))))
  | jointCapacity _ vc =>
    simp only [Op.firm] at h; obtain ⟨rfl, _⟩ := h
    simp only [Market.setJointCapacity]
    repeat' split <;> try rfl
    exact chain (hu _ _ _) (fun a ha => ha)
  | energyReg _ vc =>
    simp only [Op.firm] at h; obtain ⟨rfl, _⟩ := h
    simp only [Market.setEnergyReg]
    repeat' split <;> try rfl
    exact chain (hu _ _ _) (fun a ha => ha)
  | interconnectors => simp only [Market.setInterconnectors]; repeat' split <;> try rfl
  | losses => simp only [Market.setLosses]; repeat' split <;> try rfl
  | generic _ vc =>
    simp only [Op.firm] at h; subst h
    simp only [Market.setGeneric]
    repeat' split <;> try rfl
  | linkUnits => simp only [Market.linkUnits]; repeat' split <;> try rfl
  | linkRegions => simp only [Market.linkRegions]; repeat' split <;> try rfl
  | linkInters => simp only [Market.linkInters]; repeat' split <;> try rfl

theorem DefinedBy.deficits {ops : List Op} {m : Market} (h : DefinedBy ops m) : m.deficits = [] := by
  obtain ⟨r, u, d, m0, h1, h2, h3, rfl⟩ := h.history
  have e0 : m0.deficits = [] := by rw [(init_fresh h1).1]
  rw [← e0]
  have hp := h.plain
  clear h h1 h2 h3 e0
  induction ops generalizing m0 with
  | nil => rfl
  | cons op ops ih =>
    rw [run_cons, ih _ (fun o ho => hp o (by simp [ho])), plain_deficits (hp op (by simp))]

end Verif
