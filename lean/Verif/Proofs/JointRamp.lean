import Verif.Proofs.Trap
import Verif.Proofs.Demo

/-! Joint ramping constraints. -/

namespace Verif

theorem setIf_facts {m : Market} (hm : ConWF m) {k : CKey} {b : Bool} {t : List Row × List ConUnit} (hk : k.isUnit = true)
    (ht : FreshUnit m.nextCon t) :
    ConWF (m.addUnitSetIf k b t).1 ∧ SameBase m (m.addUnitSetIf k b t).1 ∧
    (∀ k', k' ≠ k → SameSet k' m (m.addUnitSetIf k b t).1) := by
  cases b with
  | false => exact ⟨hm, ⟨rfl, rfl, rfl⟩, fun k' _ => SameSet.refl _ _⟩
  | true =>
    simp only [Market.addUnitSetIf, if_true]
    exact ⟨conWF_unitSet hm _ _ hk ht, sameBase_prim (good := True) (.unitSet m k _ hk ht),
      fun k' h => sameSet_unitSet m hk ht h⟩

theorem setIf_imposed {a m : Market} {k : CKey} {b : Bool} {t : List Row × List ConUnit} (ha : ConWF a) (hm : WF m)
    (hk : k.isUnit = true) (ht : FreshUnit a.nextCon t) (hs : SameSet k (a.addUnitSetIf k b t).1 m) (hb : b = true) :
    Imposed m k t := by
  subst hb
  simp only [Market.addUnitSetIf, if_true] at hs
  exact imposed_of ha hm hk ht hs

/-- rows of the units that are not bidirectional -/
def ordinary (bidi : List String) (rs : List RegRate) : List RegRate := rs.filter (fun r => decide (r.unit ∉ bidi))
/-- rows of the bidirectional units -/
def bidirectional (bidi : List String) (rs : List RegRate) : List RegRate := rs.filter (fun r => decide (r.unit ∈ bidi))

theorem jr_imposed {rs : List RampRow} {ps : Option (List FsRamp)} {rt : RunType} {m : Market}
    (h : InForceKeeping [.bids] (.jointRamping rs ps rt none) m) :
    WF m ∧ (rs.map (·.unit)).Nodup ∧ (∀ p, rt ≠ .noFastStart → ps = some p → (p.map (·.unit)).Nodup) ∧
    ∃ ord, adjustForFastStart rs rt ps m.di = .ok ord ∧
      (ordinary m.bidi (regRates (m.bids.getD []) .raiseReg ord (·.up)) ≠ [] →
        ∃ n, Imposed m .jrRaise (jrRaiseReg (ordinary m.bidi (regRates (m.bids.getD []) .raiseReg ord (·.up))) m.di n)) ∧
      (bidirectional m.bidi (regRates (m.bids.getD []) .raiseReg ord (·.up)) ≠ [] →
        ∃ n, Imposed m .jrRaiseBdu (jrRaiseRegBdu (bidirectional m.bidi (regRates (m.bids.getD []) .raiseReg ord (·.up))) m.di n)) ∧
      (ordinary m.bidi (regRates (m.bids.getD []) .lowerReg ord (·.down)) ≠ [] →
        ∃ n, Imposed m .jrLower (jrLowerReg (ordinary m.bidi (regRates (m.bids.getD []) .lowerReg ord (·.down))) m.di n)) ∧
      (bidirectional m.bidi (regRates (m.bids.getD []) .lowerReg ord (·.down)) ≠ [] →
        ∃ n, Imposed m .jrLowerBdu (jrLowerRegBdu (bidirectional m.bidi (regRates (m.bids.getD []) .lowerReg ord (·.down))) m.di n)) := by
  obtain ⟨a, ha, hm, hok, hb, hs, hkeep⟩ := h.unpack
  have hn := step_ok hok
  have hbids : m.bids = a.bids := (hkeep .bids (by simp) (by simp [Op.parts])).1
  have hs1 : SameSet .jrRaise _ m := hs (.set .jrRaise) (by simp [Op.parts])
  have hs2 : SameSet .jrRaiseBdu _ m := hs (.set .jrRaiseBdu) (by simp [Op.parts])
  have hs3 : SameSet .jrLower _ m := hs (.set .jrLower) (by simp [Op.parts])
  have hs4 : SameSet .jrLowerBdu _ m := hs (.set .jrLowerBdu) (by simp [Op.parts])
  have hbi : m.bidi = a.bidi := by unfold Market.bidi; rw [hb.2.1]
  rw [hbi, hbids, hb.2.2]
  simp only [Market.step, hn, Market.setJointRamping, Bool.false_eq_true, if_false] at hok hs1 hs2 hs3 hs4
  by_cases c1 : (!(rs.all (fun r => a.knows r.unit) && decide ((rs.map (·.unit)).Nodup))) = true
  · rw [if_pos c1] at hok; simp at hok
  rw [if_neg c1] at hok hs1 hs2 hs3 hs4
  by_cases c2 : (!a.fsProfilesOk rt ps) = true
  · rw [if_pos c2] at hok; simp at hok
  rw [if_neg c2] at hok hs1 hs2 hs3 hs4
  refine ⟨hm, by simp at c1; exact c1.2, ?_, ?_⟩
  · intro p hrt hps
    subst hps
    simp only [Bool.not_eq_true', Bool.not_eq_false] at c2
    unfold Market.fsProfilesOk at c2
    cases rt with
    | noFastStart => exact absurd rfl hrt
    | _ => simp only [Market.fsRampOk, Bool.and_eq_true, decide_eq_true_eq] at c2; exact c2.2
  cases hbs : a.bids with
  | none => rw [hbs] at hok; simp at hok
  | some vars =>
    simp only [hbs] at hok hs1 hs2 hs3 hs4
    cases ho : adjustForFastStart rs rt ps a.di with
    | error e => rw [ho] at hok; simp at hok
    | ok ord =>
      simp only [ho] at hok hs1 hs2 hs3 hs4
      refine ⟨ord, rfl, ?_⟩
      simp only [Option.getD_some]
      obtain ⟨_, he1⟩ := andThen_ok hok
      rw [he1] at hok hs1 hs2 hs3 hs4
      obtain ⟨_, he2⟩ := andThen_ok hok
      rw [he2] at hok hs1 hs2 hs3 hs4
      obtain ⟨_, he3⟩ := andThen_ok hok
      rw [he3] at hok hs1 hs2 hs3 hs4
      obtain ⟨_, he4⟩ := andThen_ok hok
      rw [he4] at hs1 hs2 hs3 hs4
      simp only [Market.elasticJr] at hs1 hs2 hs3 hs4
      clear hok he1 he2 he3 he4
      have f1 : FreshUnit a.nextCon (jrRaiseReg (ordinary a.bidi (regRates vars .raiseReg ord (·.up))) a.di a.nextCon) :=
        freshUnit_jr _ _ _ _ _ (by simp) (by simp)
      obtain ⟨w1, b1, t1⟩ := setIf_facts ha.con (k := .jrRaise) (b := !(ordinary a.bidi (regRates vars .raiseReg ord (·.up))).isEmpty) rfl f1
      have i1 := fun hh => setIf_imposed (k := .jrRaise) (b := !(ordinary a.bidi (regRates vars .raiseReg ord (·.up))).isEmpty) (m := m) ha.con hm rfl f1 hh
      unfold ordinary at i1 t1 b1 w1
      generalize hb1 : (a.addUnitSetIf .jrRaise (!((regRates vars .raiseReg ord (·.up)).filter (fun r => decide (r.unit ∉ a.bidi))).isEmpty)
        (jrRaiseReg ((regRates vars .raiseReg ord (·.up)).filter (fun r => decide (r.unit ∉ a.bidi))) a.di a.nextCon)).1 = m1 at *
      rw [b1.2.2] at hs1 hs2 hs3 hs4
      have f2 : FreshUnit m1.nextCon (jrRaiseRegBdu (bidirectional a.bidi (regRates vars .raiseReg ord (·.up))) a.di m1.nextCon) :=
        freshUnit_jrBdu _ _ _ _ _ (by simp)
      obtain ⟨w2, b2, t2⟩ := setIf_facts w1 (k := .jrRaiseBdu) (b := !(bidirectional a.bidi (regRates vars .raiseReg ord (·.up))).isEmpty) rfl f2
      have i2 := fun hh => setIf_imposed (k := .jrRaiseBdu) (b := !(bidirectional a.bidi (regRates vars .raiseReg ord (·.up))).isEmpty) (m := m) w1 hm rfl f2 hh
      unfold bidirectional at i2 t2 b2 w2
      generalize hb2 : (m1.addUnitSetIf .jrRaiseBdu (!((regRates vars .raiseReg ord (·.up)).filter (fun r => decide (r.unit ∈ a.bidi))).isEmpty)
        (jrRaiseRegBdu ((regRates vars .raiseReg ord (·.up)).filter (fun r => decide (r.unit ∈ a.bidi))) a.di m1.nextCon)).1 = m2 at *
      rw [b2.2.2, b1.2.2] at hs1 hs2 hs3 hs4
      have f3 : FreshUnit m2.nextCon (jrLowerReg (ordinary a.bidi (regRates vars .lowerReg ord (·.down))) a.di m2.nextCon) :=
        freshUnit_jr _ _ _ _ _ (by simp) (by simp)
      obtain ⟨w3, b3, t3⟩ := setIf_facts w2 (k := .jrLower) (b := !(ordinary a.bidi (regRates vars .lowerReg ord (·.down))).isEmpty) rfl f3
      have i3 := fun hh => setIf_imposed (k := .jrLower) (b := !(ordinary a.bidi (regRates vars .lowerReg ord (·.down))).isEmpty) (m := m) w2 hm rfl f3 hh
      unfold ordinary at i3 t3 b3 w3
      generalize hb3 : (m2.addUnitSetIf .jrLower (!((regRates vars .lowerReg ord (·.down)).filter (fun r => decide (r.unit ∉ a.bidi))).isEmpty)
        (jrLowerReg ((regRates vars .lowerReg ord (·.down)).filter (fun r => decide (r.unit ∉ a.bidi))) a.di m2.nextCon)).1 = m3 at *
      rw [b3.2.2, b2.2.2, b1.2.2] at hs1 hs2 hs3 hs4
      have f4 : FreshUnit m3.nextCon (jrLowerRegBdu (bidirectional a.bidi (regRates vars .lowerReg ord (·.down))) a.di m3.nextCon) :=
        freshUnit_jrBdu _ _ _ _ _ (by simp)
      obtain ⟨w4, b4, t4⟩ := setIf_facts w3 (k := .jrLowerBdu) (b := !(bidirectional a.bidi (regRates vars .lowerReg ord (·.down))).isEmpty) rfl f4
      have i4 := fun hh => setIf_imposed (k := .jrLowerBdu) (b := !(bidirectional a.bidi (regRates vars .lowerReg ord (·.down))).isEmpty) (m := m) w3 hm rfl f4 hh
      unfold bidirectional at i4 t4 b4 w4
      have nonempty : ∀ {l : List RegRate}, l ≠ [] → (!l.isEmpty) = true := by
        intro l hl; simpa using hl
      refine ⟨fun hne => ⟨_, i1 ?_ (nonempty hne)⟩, fun hne => ⟨_, i2 ?_ (nonempty hne)⟩, fun hne => ⟨_, i3 ?_ (nonempty hne)⟩,
        fun hne => ⟨_, i4 ?_ (nonempty hne)⟩⟩
      · exact ((t2 _ (by decide)).trans ((t3 _ (by decide)).trans (t4 _ (by decide)))).trans hs1
      · exact ((t3 _ (by decide)).trans (t4 _ (by decide))).trans hs2
      · exact (t4 _ (by decide)).trans hs3
      · exact hs4

/-! ### ordinary units -/

/-- the constraint of one row -/
def jrEntry (s : JrSettings) (di : ℚ) (c : Nat × RegRate) : Row × List ConUnit :=
  (Row.mk c.1 s.ctype (c.2.init + s.dir * (c.2.rate * di / 60)) none none,
   [⟨c.1, c.2.unit, s.service, c.2.dtype, s.regCoef⟩, ⟨c.1, c.2.unit, .energy, c.2.dtype, 1⟩])

theorem jr_entries (rs : List RegRate) (di : ℚ) (n : Nat) (g l : JrSettings) (hg : g.ctype ≠ .other) (hl : l.ctype ≠ .other) :
    Entries (jrConstructor rs di n g l)
      (((saveIndex rs n (fun i r => (i, r))).filter (fun c => decide (c.2.dtype = .generator))).map (jrEntry g di) ++
       ((saveIndex rs n (fun i r => (i, r))).filter (fun c => decide (c.2.dtype = .load))).map (jrEntry l di)) where
  rows := by
    simp only [jrConstructor, jrGeneric, List.map_append, List.map_map]
    exact List.Perm.refl _
  maps := by
    simp only [jrConstructor, jrGeneric, List.flatMap_append, List.flatMap_map]
    have : ∀ (cs : List (Nat × RegRate)) (s : JrSettings),
        (cs.map (fun c => ({ cid := c.1, unit := c.2.unit, service := s.service, dtype := c.2.dtype, coef := s.regCoef } : ConUnit)) ++
         cs.map (fun c => ({ cid := c.1, unit := c.2.unit, service := .energy, dtype := c.2.dtype, coef := 1 } : ConUnit))).Perm
        (cs.flatMap (fun c => (jrEntry s di c).2)) := by
      intro cs s
      have := List.map_append_flatMap_perm cs
        (fun c => ({ cid := c.1, unit := c.2.unit, service := s.service, dtype := c.2.dtype, coef := s.regCoef } : ConUnit))
        (fun c => [({ cid := c.1, unit := c.2.unit, service := .energy, dtype := c.2.dtype, coef := 1 } : ConUnit)])
      rw [← List.map_eq_flatMap] at this
      exact this
    exact (this _ _).append (this _ _)
  own := by
    intro e he c hc
    rcases List.mem_append.1 he with h | h <;> obtain ⟨r, _, rfl⟩ := List.mem_map.1 h <;>
      simp only [jrEntry, List.mem_cons, List.not_mem_nil, or_false] at hc <;> rcases hc with rfl | rfl <;> rfl
  nodup := (freshUnit_jr rs di n g l hg hl).nodup

theorem mem_numbered {rs : List RegRate} {n : Nat} {P : Nat × RegRate → Prop} {Q : RegRate → Prop} (h : ∀ i r, P (i, r) ↔ Q r)
    {p : RegRate → Bool} : (∀ c ∈ (saveIndex rs n (fun i r => (i, r))).filter (fun c => p c.2), P c) ↔ ∀ r ∈ rs, p r = true → Q r := by
  constructor
  · intro ha r hr hp
    obtain ⟨i, _, hm⟩ := mem_saveIndex' hr n (fun i r => (i, r))
    exact (h _ _).1 (ha _ (List.mem_filter.2 ⟨hm, hp⟩))
  · intro ha c hc
    obtain ⟨hc, hp⟩ := List.mem_filter.1 hc
    obtain ⟨i, r, hr, rfl⟩ := mem_saveIndex.1 hc
    exact (h _ _).2 (ha r (List.mem_of_getElem? hr) hp)

theorem jrEntry_iff {m : Market} (hw : WF m) {x : Nat → ℚ} {s : JrSettings} {di : ℚ} {i : Nat} {r : RegRate}
    (hb : r.unit ∉ m.bidi) (hbid : m.bidsFor r.unit s.service r.dtype) :
    ((∃ c ∈ (jrEntry s di (i, r)).2, m.lists c.unit c.dtype ∧ m.bidsFor c.unit c.service c.dtype) →
      (jrEntry s di (i, r)).1.ctype.holds (m.entryVal x (jrEntry s di (i, r)).2) (jrEntry s di (i, r)).1.rhs) ↔
    (m.lists r.unit r.dtype → s.ctype.holds (m.dispatched x r.unit .energy r.dtype + s.regCoef * m.dispatched x r.unit s.service r.dtype)
      (r.init + s.dir * (r.rate * di / 60))) := by
  have val : m.lists r.unit r.dtype → m.entryVal x (jrEntry s di (i, r)).2 =
      m.dispatched x r.unit .energy r.dtype + s.regCoef * m.dispatched x r.unit s.service r.dtype := by
    intro hls
    simp only [jrEntry, Market.entryVal, List.map_cons, List.map_nil, List.sum_cons, List.sum_nil, mapVal_not_bidi hw hb hls]
    ring
  constructor
  · intro ha hls
    have := ha ⟨⟨i, r.unit, s.service, r.dtype, s.regCoef⟩, by simp [jrEntry], hls, hbid⟩
    rw [val hls] at this
    exact this
  · rintro ha ⟨c, hc, hls, hbid⟩
    have hcu : c.unit = r.unit ∧ c.dtype = r.dtype := by
      simp only [jrEntry, List.mem_cons, List.not_mem_nil, or_false] at hc
      rcases hc with rfl | rfl <;> exact ⟨rfl, rfl⟩
    rw [hcu.1, hcu.2] at hls
    rw [val hls]
    exact ha hls

/-- the joint ramping constraints of ordinary units in terms of their rows -/
theorem jr_obeys {m : Market} {k : CKey} {rs : List RegRate} {di : ℚ} {n : Nat} {g l : JrSettings}
    (h : Imposed m k (jrConstructor rs di n g l)) (hg : g.ctype ≠ .other) (hl : l.ctype ≠ .other) (hsg : l.service = g.service)
    (hb : ∀ r ∈ rs, r.unit ∉ m.bidi) (hv : ∀ r ∈ rs, m.bidsFor r.unit g.service r.dtype) {lp : Lp} (ha : m.assemble = .ok lp)
    {x : Nat → ℚ} : m.obeys lp x k ↔ ∀ r ∈ rs, m.lists r.unit r.dtype →
      (r.dtype = .generator → g.ctype.holds (m.dispatched x r.unit .energy r.dtype + g.regCoef * m.dispatched x r.unit g.service r.dtype)
        (r.init + g.dir * (r.rate * di / 60))) ∧
      (r.dtype = .load → l.ctype.holds (m.dispatched x r.unit .energy r.dtype + l.regCoef * m.dispatched x r.unit g.service r.dtype)
        (r.init + l.dir * (r.rate * di / 60))) := by
  rw [h.entries_iff (jr_entries rs di n g l hg hl) ha]
  simp only [List.mem_append, or_imp, forall_and, List.forall_mem_map]
  have e : ∀ (s : JrSettings) (d : DType), s.service = g.service →
      ((∀ c ∈ (saveIndex rs n (fun i r => (i, r))).filter (fun c => decide (c.2.dtype = d)),
        (∃ b ∈ (jrEntry s di c).2, m.lists b.unit b.dtype ∧ m.bidsFor b.unit b.service b.dtype) →
          (jrEntry s di c).1.ctype.holds (m.entryVal x (jrEntry s di c).2) (jrEntry s di c).1.rhs) ↔
      ∀ r ∈ rs, m.lists r.unit r.dtype → r.dtype = d →
        s.ctype.holds (m.dispatched x r.unit .energy r.dtype + s.regCoef * m.dispatched x r.unit g.service r.dtype)
          (r.init + s.dir * (r.rate * di / 60))) := by
    intro s d hs
    constructor
    · intro ha r hr hls hd
      obtain ⟨i, _, hm⟩ := mem_saveIndex' hr n (fun i r => (i, r))
      have := (jrEntry_iff h.wf (hb r hr) (by rw [hs]; exact hv r hr)).1 (ha _ (List.mem_filter.2 ⟨hm, by simpa using hd⟩)) hls
      rw [hs] at this
      exact this
    · intro ha c hc
      obtain ⟨hc, hp⟩ := List.mem_filter.1 hc
      obtain ⟨i, r, hr, rfl⟩ := mem_saveIndex.1 hc
      have hr := List.mem_of_getElem? hr
      refine (jrEntry_iff h.wf (hb r hr) (by rw [hs]; exact hv r hr)).2 (fun hls => ?_)
      have := ha r hr hls (by simpa using hp)
      rw [hs]
      exact this
  rw [e g .generator rfl, e l .load hsg]

theorem mem_regRates {vars : List BidVar} {s : Service} {rs : List RampRow} {rate : RampRow → ℚ} {q : RegRate} :
    q ∈ regRates vars s rs rate ↔ ∃ v ∈ vars, v.service = s ∧ ∃ r ∈ rs, r.unit = v.unit ∧
      q = ⟨v.unit, v.dtype, s, r.init, rate r⟩ := by
  simp only [regRates, List.mem_flatMap, List.mem_dedup, List.mem_map, List.mem_filter, decide_eq_true_eq]
  constructor
  · rintro ⟨k, ⟨v, ⟨hv, hs⟩, rfl⟩, r, ⟨hr, hu⟩, rfl⟩
    exact ⟨v, hv, hs, r, hr, hu, by simp [hs]⟩
  · rintro ⟨v, hv, hs, r, hr, hu, rfl⟩
    exact ⟨_, ⟨v, ⟨hv, hs⟩, rfl⟩, r, ⟨hr, hu⟩, by simp [hs]⟩

theorem regRates_iff {m : Market} {s : Service} {rs : List RampRow} {rate : RampRow → ℚ} {P : RegRate → Prop} :
    (∀ q ∈ ordinary m.bidi (regRates (m.bids.getD []) s rs rate), P q) ↔
    ∀ r ∈ rs, r.unit ∉ m.bidi → ∀ d, m.bidsFor r.unit s d → P ⟨r.unit, d, s, r.init, rate r⟩ := by
  simp only [ordinary, List.mem_filter, decide_eq_true_eq, mem_regRates]
  constructor
  · rintro h r hr hb d ⟨v, hv, hu, hs, hd⟩
    exact h _ ⟨⟨v, hv, hs, r, hr, hu.symm, by rw [hu, hd]⟩, hb⟩
  · rintro h q ⟨⟨v, hv, hs, r, hr, hu, rfl⟩, hb⟩
    have := h r hr (by rw [hu]; exact hb) v.dtype ⟨v, hv, hu.symm, hs, rfl⟩
    rw [hu] at this
    exact this

theorem ord_keeps {rs ord : List RampRow} {rt : RunType} {ps : Option (List FsRamp)} {di : ℚ}
    (h : adjustForFastStart rs rt ps di = .ok ord) {r : RampRow} (hr : r ∈ rs)
    (hp : rt = .noFastStart ∨ ∀ p ∈ ps.getD [], p.unit ≠ r.unit) : r ∈ ord := by
  cases rt with
  | other => simp [adjustForFastStart] at h
  | noFastStart => simp only [adjustForFastStart, Except.ok.injEq] at h; subst h; exact hr
  | first =>
    cases ps with
    | none => simp [adjustForFastStart] at h
    | some ps =>
      simp only [adjustForFastStart, Except.ok.injEq] at h
      subst h
      simp only [reduceCtorEq, false_or, Option.getD_some] at hp
      exact mem_first.2 ⟨hr, fun p hp' hu => absurd hu (hp p hp')⟩
  | second =>
    cases ps with
    | none => simp [adjustForFastStart] at h
    | some ps =>
      simp only [adjustForFastStart, Except.ok.injEq] at h
      subst h
      simp only [reduceCtorEq, false_or, Option.getD_some] at hp
      exact mem_second.2 ⟨r, hr, fun p hp' hu => absurd hu (hp p hp'), Or.inr ⟨fun p hp' hu => absurd hu (hp p hp'), rfl⟩⟩

theorem ord_from {rs ord : List RampRow} {rt : RunType} {ps : Option (List FsRamp)} {di : ℚ}
    (h : adjustForFastStart rs rt ps di = .ok ord) {q : RampRow} (hq : q ∈ ord) : ∃ r ∈ rs, r.unit = q.unit ∧ r.dtype = q.dtype := by
  cases rt with
  | other => simp [adjustForFastStart] at h
  | noFastStart => simp only [adjustForFastStart, Except.ok.injEq] at h; subst h; exact ⟨q, hq, rfl, rfl⟩
  | first =>
    cases ps with
    | none => simp [adjustForFastStart] at h
    | some ps =>
      simp only [adjustForFastStart, Except.ok.injEq] at h
      subst h
      exact ⟨q, (mem_first.1 hq).1, rfl, rfl⟩
  | second =>
    cases ps with
    | none => simp [adjustForFastStart] at h
    | some ps =>
      simp only [adjustForFastStart, Except.ok.injEq] at h
      subst h
      obtain ⟨r, hr, _, (⟨p, _, s, _, _, rfl⟩ | ⟨_, rfl⟩)⟩ := mem_second.1 hq
      · exact ⟨r, hr, rfl, rfl⟩
      · exact ⟨q, hr, rfl, rfl⟩

/-! ### bidirectional units -/

theorem map_flatMap_sublist {α β κ : Type} {f : α → List β} {g : β → κ} {key : α → κ} (l : List α)
    (h : ∀ a ∈ l, ((f a).map g).Sublist [key a]) : ((l.flatMap f).map g).Sublist (l.map key) := by
  induction l with
  | nil => simp
  | cons a l ih =>
    rw [List.flatMap_cons, List.map_append, List.map_cons]
    exact (h a (by simp)).append (ih (fun b hb => h b (by simp [hb])))

theorem ord_nodup {rs ord : List RampRow} {rt : RunType} {ps : Option (List FsRamp)} {di : ℚ}
    (hn : (rs.map (·.unit)).Nodup) (hp : ∀ p, rt ≠ .noFastStart → ps = some p → (p.map (·.unit)).Nodup)
    (h : adjustForFastStart rs rt ps di = .ok ord) : (ord.map (·.unit)).Nodup := by
  cases rt with
  | other => simp [adjustForFastStart] at h
  | noFastStart => simp only [adjustForFastStart, Except.ok.injEq] at h; subst h; exact hn
  | first =>
    cases ps with
    | none => simp [adjustForFastStart] at h
    | some ps =>
      simp only [adjustForFastStart, Except.ok.injEq] at h
      subst h
      exact hn.sublist (List.filter_sublist.map _)
  | second =>
    cases ps with
    | none => simp [adjustForFastStart] at h
    | some ps =>
      have hp := hp ps (by simp) rfl
      simp only [adjustForFastStart, Except.ok.injEq] at h
      subst h
      have hr : ((removeEnding012 rs ps).map (·.unit)).Nodup := hn.sublist (List.filter_sublist.map _)
      generalize removeEnding012 rs ps = rs' at hr
      unfold adjustModeThreeFour
      simp only [List.map_append]
      rw [List.nodup_append]
      refine ⟨hr.sublist (map_flatMap_sublist _ ?_), hr.sublist (List.filter_sublist.map _), ?_⟩
      · intro r _
        have hf : (ps.filter (fun p => decide (p.unit = r.unit))).length ≤ 1 := by
          by_cases hc : ∃ p ∈ ps, p.unit = r.unit
          · obtain ⟨p, hpm, hpu⟩ := hc
            have := filter_key_unique (key := FsRamp.unit) hp hpm
            rw [hpu] at this
            rw [this]; simp
          · push Not at hc
            rw [List.filter_eq_nil_iff.2 (by simpa using hc)]; simp
        generalize ps.filter (fun p => decide (p.unit = r.unit)) = fs at hf
        match fs, hf with
        | [], _ => simp
        | [p], _ => cases hs : p.since <;> simp [hs]
      · intro a ha b hb
        obtain ⟨q, hq, rfl⟩ := List.mem_map.1 hb
        have := (List.mem_filter.1 hq).2
        simp only [decide_eq_true_eq] at this
        intro e
        rw [e] at ha
        exact this ha

/-- the constraint of one bidirectional unit -/
def jrBduEntry (rs : List RegRate) (di : ℚ) (ctype : CType) (sgn : ℚ) (c : Nat × RegRate) : Row × List ConUnit :=
  (Row.mk c.1 ctype (c.2.init + sgn * (c.2.rate * di / 60)) none none,
   (rs.filter (fun r => decide (r.unit = c.2.unit))).map (fun r => ⟨c.1, r.unit, r.service, r.dtype, sgn⟩) ++
   (rs.filter (fun r => decide (r.unit = c.2.unit))).map (fun r => ⟨c.1, r.unit, .energy, r.dtype, 1⟩))

theorem jrBdu_entries (rs : List RegRate) (di : ℚ) (n : Nat) (ct : CType) (sgn : ℚ) (hc : ct ≠ .other) :
    Entries (jrBdu rs di n ct sgn)
      ((saveIndex (dropDup (·.unit) rs) n (fun i r => (i, r))).map (jrBduEntry rs di ct sgn)) where
  rows := by
    simp only [jrBdu, List.map_map]
    exact List.Perm.refl _
  maps := by
    simp only [jrBdu, List.flatMap_map]
    rw [List.map_flatMap]
    refine (List.flatMap_append_perm _ _ _).trans (List.Perm.of_eq ?_)
    simp only [jrBduEntry, List.map_map]
    rfl
  own := by
    intro e he c hc
    obtain ⟨r, _, rfl⟩ := List.mem_map.1 he
    simp only [jrBduEntry, List.mem_append, List.mem_map] at hc
    rcases hc with ⟨_, _, rfl⟩ | ⟨_, _, rfl⟩ <;> rfl
  nodup := (freshUnit_jrBdu rs di n ct sgn hc).nodup

theorem sum_dtypes {ds : List DType} (h : ds.Nodup) (f : DType → ℚ) :
    (ds.map f).sum = (if DType.generator ∈ ds then f .generator else 0) + (if DType.load ∈ ds then f .load else 0) := by
  induction ds with
  | nil => simp
  | cons d ds ih =>
    obtain ⟨h1, h2⟩ := List.nodup_cons.1 h
    rw [List.map_cons, List.sum_cons, ih h2]
    cases d <;> simp [h1] <;> ring

theorem regRates_dtypes {vars : List BidVar} {s : Service} {ord : List RampRow} {rate : RampRow → ℚ}
    (hn : (ord.map (·.unit)).Nodup) {bidi : List String} {r : RampRow} (hr : r ∈ ord) (hb : r.unit ∈ bidi) :
    (((bidirectional bidi (regRates vars s ord rate)).filter (fun q => decide (q.unit = r.unit))).map (·.dtype)).Nodup ∧
    ∀ d, d ∈ ((bidirectional bidi (regRates vars s ord rate)).filter (fun q => decide (q.unit = r.unit))).map (·.dtype) ↔
      ∃ v ∈ vars, v.unit = r.unit ∧ v.service = s ∧ v.dtype = d := by
  constructor
  · have hnd : ((regRates vars s ord rate).map (fun q => (q.unit, q.dtype, q.service))).Nodup := by
      unfold regRates
      refine List.Nodup.sublist (map_flatMap_sublist (key := fun k : String × DType × Service => k) _ ?_) (l₂ := _) ?_
      swap
      · rw [List.map_id']; exact List.nodup_dedup _
      rintro ⟨u, d, s'⟩ _
      rw [List.map_map]
      have hf : (ord.filter (fun q => decide (q.unit = u))).length ≤ 1 := by
        by_cases hc : ∃ q ∈ ord, q.unit = u
        · obtain ⟨q, hq, hqu⟩ := hc
          have := filter_key_unique (key := RampRow.unit) hn hq
          rw [hqu] at this
          rw [this]; simp
        · push Not at hc
          rw [List.filter_eq_nil_iff.2 (by simpa using hc)]; simp
      generalize ord.filter (fun q => decide (q.unit = u)) = fs at hf
      match fs, hf with
      | [], _ => simp
      | [q], _ => simp
    have h1 : (((bidirectional bidi (regRates vars s ord rate)).filter (fun q => decide (q.unit = r.unit))).map
        (fun q => (q.unit, q.dtype, q.service))).Nodup :=
      hnd.sublist ((List.filter_sublist.trans List.filter_sublist).map _)
    have h2 : ∀ q ∈ (bidirectional bidi (regRates vars s ord rate)).filter (fun q => decide (q.unit = r.unit)),
        q.unit = r.unit ∧ q.service = s := by
      intro q hq
      simp only [bidirectional, List.mem_filter, decide_eq_true_eq, mem_regRates] at hq
      obtain ⟨⟨⟨v, _, hs, _, _, _, rfl⟩, _⟩, hu⟩ := hq
      exact ⟨hu, rfl⟩
    rw [List.Nodup, List.pairwise_map] at h1 ⊢
    refine h1.imp_of_mem ?_
    intro a b ha hb hab e
    exact hab (by rw [(h2 a ha).1, (h2 b hb).1, (h2 a ha).2, (h2 b hb).2, e])
  · intro d
    simp only [bidirectional, List.mem_map, List.mem_filter, decide_eq_true_eq, mem_regRates]
    constructor
    · rintro ⟨q, ⟨⟨⟨v, hv, hs, r', hr', hu', rfl⟩, hb'⟩, hu⟩, rfl⟩
      exact ⟨v, hv, hu, hs, rfl⟩
    · rintro ⟨v, hv, hu, hs, rfl⟩
      exact ⟨_, ⟨⟨⟨v, hv, hs, r, hr, hu.symm, rfl⟩, by dsimp only; rw [hu]; exact hb⟩, hu⟩, rfl⟩

/-- what the joint ramping constraint of a bidirectional unit adds up: the energy of the sides that bid for the
regulation service, consumption counted negative -/
def Market.biddingEnergy (m : Market) (x : Nat → ℚ) (u : String) (s : Service) : ℚ :=
  (if m.bidsFor u s .generator then m.dispatched x u .energy .generator else 0) -
  (if m.bidsFor u s .load then m.dispatched x u .energy .load else 0)

theorem dispatched_zero {m : Market} {u : String} {s : Service} {d : DType} (h : ¬ m.bidsFor u s d) (x : Nat → ℚ) :
    m.dispatched x u s d = 0 := by
  unfold Market.dispatched
  rw [List.filter_eq_nil_iff.2, List.map_nil, List.sum_nil]
  intro b hb hc
  simp only [decide_eq_true_eq] at hc
  exact h ⟨b, hb, hc⟩

theorem jrBdu_val {m : Market} (hw : WF m) {x : Nat → ℚ} {s : Service} (hs : s ≠ .energy) {ord : List RampRow} {rate : RampRow → ℚ}
    (hn : (ord.map (·.unit)).Nodup) {r : RampRow} (hr : r ∈ ord) (hb : r.unit ∈ m.bidi) {di : ℚ} {ct : CType} {sgn : ℚ}
    {i : Nat} {q : RegRate} (hq : q.unit = r.unit) :
    m.entryVal x (jrBduEntry (bidirectional m.bidi (regRates (m.bids.getD []) s ord rate)) di ct sgn (i, q)).2 =
      m.biddingEnergy x r.unit s + sgn * (m.dispatched x r.unit s .generator + m.dispatched x r.unit s .load) := by
  obtain ⟨hnd, hmem⟩ := regRates_dtypes (s := s) (rate := rate) (vars := m.bids.getD []) hn hr hb
  have hall : ∀ q' ∈ (bidirectional m.bidi (regRates (m.bids.getD []) s ord rate)).filter (fun q => decide (q.unit = r.unit)),
      q'.unit = r.unit ∧ q'.service = s := by
    intro q hq
    simp only [bidirectional, List.mem_filter, decide_eq_true_eq, mem_regRates] at hq
    obtain ⟨⟨⟨v, _, hs, _, _, _, rfl⟩, _⟩, hu⟩ := hq
    exact ⟨hu, rfl⟩
  simp only [jrBduEntry, Market.entryVal, hq, List.map_append, List.map_map, List.sum_append]
  generalize (bidirectional m.bidi (regRates (m.bids.getD []) s ord rate)).filter (fun q => decide (q.unit = r.unit)) = F at hnd hmem hall
  have h1 : (F.map ((fun c : ConUnit => c.coef * m.mapVal x c.unit c.service c.dtype) ∘
      fun q => (⟨i, q.unit, q.service, q.dtype, sgn⟩ : ConUnit))).sum =
      ((F.map (·.dtype)).map (fun d => sgn * m.dispatched x r.unit s d)).sum := by
    rw [List.map_map]
    congr 1
    apply List.map_congr_left
    intro q' hq'
    simp only [Function.comp_apply, (hall q' hq').1, (hall q' hq').2, mapVal_eq hw (bidi_lists hw hb _), Market.side, hs,
      false_and, and_false, if_false, one_mul]
  have h2 : (F.map ((fun c : ConUnit => c.coef * m.mapVal x c.unit c.service c.dtype) ∘
      fun q => (⟨i, q.unit, .energy, q.dtype, 1⟩ : ConUnit))).sum =
      ((F.map (·.dtype)).map (fun d => m.side r.unit .energy d * m.dispatched x r.unit .energy d)).sum := by
    rw [List.map_map]
    congr 1
    apply List.map_congr_left
    intro q' hq'
    simp only [Function.comp_apply, (hall q' hq').1, mapVal_eq hw (bidi_lists hw hb _), one_mul]
  rw [h1, h2, sum_dtypes hnd, sum_dtypes hnd]
  have e : ∀ d, (d ∈ F.map (·.dtype)) = m.bidsFor r.unit s d := fun d => propext (hmem d)
  have z : ∀ d, (if m.bidsFor r.unit s d then sgn * m.dispatched x r.unit s d else 0) = sgn * m.dispatched x r.unit s d := by
    intro d
    by_cases hc : m.bidsFor r.unit s d
    · rw [if_pos hc]
    · rw [if_neg hc, dispatched_zero hc]; ring
  simp only [e, z, Market.side, hb, true_and, reduceCtorEq, if_false, if_true, one_mul, Market.biddingEnergy]
  by_cases hc : m.bidsFor r.unit s .load
  · simp only [if_pos hc]; ring
  · simp only [if_neg hc]; ring

/-- the joint ramping constraints of bidirectional units in terms of the ramp rates -/
theorem jrBdu_obeys {m : Market} {k : CKey} {s : Service} (hs : s ≠ .energy) {ord : List RampRow} {rate : RampRow → ℚ} {n : Nat}
    {ct : CType} (hct : ct ≠ .other) {sgn : ℚ} (hn : (ord.map (·.unit)).Nodup)
    (h : Imposed m k (jrBdu (bidirectional m.bidi (regRates (m.bids.getD []) s ord rate)) m.di n ct sgn))
    {lp : Lp} (ha : m.assemble = .ok lp) {x : Nat → ℚ} :
    m.obeys lp x k ↔ ∀ r ∈ ord, r.unit ∈ m.bidi → (∃ d, m.bidsFor r.unit s d) →
      ct.holds (m.biddingEnergy x r.unit s + sgn * (m.dispatched x r.unit s .generator + m.dispatched x r.unit s .load))
        (r.init + sgn * (rate r * m.di / 60)) := by
  rw [h.entries_iff (jrBdu_entries _ m.di n ct sgn hct) ha]
  simp only [List.forall_mem_map]
  constructor
  · intro hall r hr hb hbid
    obtain ⟨d, v, hv, hvu, hvs, hvd⟩ := hbid
    have hq : (⟨r.unit, d, s, r.init, rate r⟩ : RegRate) ∈ bidirectional m.bidi (regRates (m.bids.getD []) s ord rate) := by
      simp only [bidirectional, List.mem_filter, decide_eq_true_eq, mem_regRates]
      exact ⟨⟨v, hv, hvs, r, hr, hvu.symm, by rw [hvu, hvd]⟩, hb⟩
    obtain ⟨q, hqm, hqu⟩ := exists_dropDup (key := RegRate.unit) hq
    obtain ⟨i, _, hm⟩ := mem_saveIndex' hqm n (fun i r => (i, r))
    have := hall _ hm
    rw [jrBdu_val h.wf hs hn hr hb (show q.unit = r.unit from hqu)] at this
    have := this ⟨⟨n + i, r.unit, s, d, sgn⟩, by
      simp only [jrBduEntry, List.mem_append, List.mem_map, List.mem_filter, decide_eq_true_eq]
      exact Or.inl ⟨_, ⟨hq, hqu.symm⟩, rfl⟩, bidi_lists h.wf hb _, ⟨v, hv, hvu, hvs, hvd⟩⟩
    have hq' := mem_of_mem_dropDup hqm
    simp only [bidirectional, List.mem_filter, mem_regRates] at hq'
    obtain ⟨⟨v', _, _, r', hr', hu', rfl⟩, _⟩ := hq'
    have : r' = r := List.inj_on_of_nodup_map hn hr' hr (by rw [hu']; exact hqu)
    subst this
    assumption
  · intro hall c hc
    obtain ⟨i, q, hq, rfl⟩ := mem_saveIndex.1 hc
    have hq := mem_of_mem_dropDup (List.mem_of_getElem? hq)
    have hq' := hq
    simp only [bidirectional, List.mem_filter, decide_eq_true_eq, mem_regRates] at hq'
    obtain ⟨⟨v, hv, hvs, r, hr, hu, rfl⟩, hb⟩ := hq'
    dsimp only at hb
    intro _
    rw [jrBdu_val h.wf hs hn hr (by rw [hu]; exact hb) (by dsimp only; exact hu.symm)]
    exact hall r hr (by rw [hu]; exact hb) ⟨v.dtype, v, hv, hu.symm, hvs, rfl⟩

end Verif
