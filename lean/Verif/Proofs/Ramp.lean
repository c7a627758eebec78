import Verif.Proofs.Setters
import Verif.Spec.Ramp

/-! Ramp rate constraint sets. -/

namespace Verif

theorem step_inForce {op : Op} {m : Market} (h : InForce op m) :
    ∃ a : Market, WF a ∧ WF m ∧ a.nanCon = false ∧ (a.step op).2 = none ∧ SameBase a m ∧
      ∀ p ∈ op.parts, SamePart (a.step op).1 m p := by
  obtain ⟨a, ha, hm, hok, hb, hs⟩ := h.unpack
  exact ⟨a, ha, hm, step_ok hok, hok, hb, hs⟩

theorem conWF_unitSet' {m : Market} (hm : ConWF m) (k : CKey) (t : List Row × List ConUnit) (hk : k.isUnit = true)
    (ht : FreshUnit m.nextCon t) : ConWF (m.addUnitSet k t).1 := conWF_unitSet hm k t hk ht

theorem sameSet_unitSet (m : Market) {k k' : CKey} {t : List Row × List ConUnit} (hk : k'.isUnit = true)
    (ht : FreshUnit m.nextCon t) (h : k ≠ k') : SameSet k m (m.addUnitSet k' t).1 :=
  frame_prim (good := True) (.unitSet m k' t hk ht) (by simpa using h)

/-- what a call of `set_unit_ramp_rate_constraints` without violation cost leaves behind -/
theorem ramp_imposed {rs : List RampRow} {sc : Option (List Scada)} {ps : Option (List FsRamp)} {rt : RunType}
    {m : Market} (h : InForce (.rampRates rs sc ps rt none) m) :
    (rs.map (fun r => (r.unit, r.dtype))).Nodup ∧ (∀ s, sc = some s → (s.map (·.unit)).Nodup) ∧
    (∀ p, rt ≠ .noFastStart → ps = some p → (p.map (·.unit)).Nodup) ∧
    ∃ ord n1 n2, adjustForFastStart (scadaOpt adjustForScada (compositeRampRates rs m.di m.bidi).1 sc) rt ps m.di = .ok ord ∧
      Imposed m .rampUp (rampUpConstraints ord n1 m.di) ∧ Imposed m .rampDown (rampDownConstraints ord n2 m.di) ∧
      (scadaOpt adjustForScadaBi (compositeRampRates rs m.di m.bidi).2 sc ≠ [] → ∃ n3 n4,
        Imposed m .biRampUp (biRampConstraints (scadaOpt adjustForScadaBi (compositeRampRates rs m.di m.bidi).2 sc) true n3 m.di) ∧
        Imposed m .biRampDown (biRampConstraints (scadaOpt adjustForScadaBi (compositeRampRates rs m.di m.bidi).2 sc) false n4 m.di)) := by
  obtain ⟨a, ha, hm, hn, hok, hb, hs⟩ := step_inForce h
  have hs1 : SameSet .rampUp _ m := hs (.set .rampUp) (by simp [Op.parts])
  have hs2 : SameSet .rampDown _ m := hs (.set .rampDown) (by simp [Op.parts])
  have hs3 : SameSet .biRampUp _ m := hs (.set .biRampUp) (by simp [Op.parts])
  have hs4 : SameSet .biRampDown _ m := hs (.set .biRampDown) (by simp [Op.parts])
  have hbi : m.bidi = a.bidi := by unfold Market.bidi; rw [hb.2.1]
  rw [hbi, hb.2.2]
  simp only [Market.step, hn, Market.setRampRates, Bool.false_eq_true, if_false] at hok hs1 hs2 hs3 hs4
  by_cases c1 : (!a.rampsOk rs) = true
  · rw [if_pos c1] at hok; simp at hok
  by_cases c2 : (!biInputsOk a.bidi (rs.map (·.unit))) = true
  · rw [if_neg c1, if_pos c2] at hok; simp at hok
  by_cases c3 : (!a.fsProfilesOk rt ps) = true
  · rw [if_neg c1, if_neg c2, if_pos c3] at hok; simp at hok
  by_cases c4 : (!a.scadaOptOk sc) = true
  · rw [if_neg c1, if_neg c2, if_neg c3, if_pos c4] at hok; simp at hok
  simp only [if_neg c1, if_neg c2, if_neg c3, if_neg c4] at hok hs1 hs2 hs3 hs4
  simp only [Bool.not_eq_true', Bool.not_eq_false] at c1 c3 c4
  refine ⟨?_, ?_, ?_, ?_⟩
  · simp only [Market.rampsOk, Bool.and_eq_true, decide_eq_true_eq] at c1; exact c1.2
  · rintro s rfl
    simp only [Market.scadaOptOk, Market.scadaOk, Bool.and_eq_true, decide_eq_true_eq] at c4; exact c4.2
  · rintro p hrt rfl
    cases rt with
    | noFastStart => exact absurd rfl hrt
    | first => simp only [Market.fsProfilesOk, Market.fsRampOk, Bool.and_eq_true, decide_eq_true_eq] at c3; exact c3.2
    | second => simp only [Market.fsProfilesOk, Market.fsRampOk, Bool.and_eq_true, decide_eq_true_eq] at c3; exact c3.2
    | other => simp only [Market.fsProfilesOk, Market.fsRampOk, Bool.and_eq_true, decide_eq_true_eq] at c3; exact c3.2
  generalize hbis : scadaOpt adjustForScadaBi (compositeRampRates rs a.di a.bidi).2 sc = bis at *
  cases ho : adjustForFastStart (scadaOpt adjustForScada (compositeRampRates rs a.di a.bidi).1 sc) rt ps a.di with
  | error e => rw [ho] at hok; simp at hok
  | ok ord =>
    simp only [ho] at hok hs1 hs2 hs3 hs4
    obtain ⟨_, he1⟩ := andThen_ok hok
    rw [he1] at hok hs1 hs2 hs3 hs4
    obtain ⟨_, he2⟩ := andThen_ok hok
    rw [he2] at hok hs1 hs2 hs3 hs4
    obtain ⟨hok3, he3⟩ := andThen_ok hok
    rw [he3] at hs1 hs2 hs3 hs4
    simp only [Market.elasticRamps] at hs1 hs2 hs3 hs4
    have f1 : FreshUnit a.nextCon (rampUpConstraints ord a.nextCon a.di) := freshUnit_createConstraints _ _ _ (by decide)
    generalize hb1 : (a.addUnitSet .rampUp (rampUpConstraints ord a.nextCon a.di)).1 = b1 at *
    have w1 : ConWF b1 := by rw [← hb1]; exact conWF_unitSet ha.con _ _ rfl f1
    have f2 : FreshUnit b1.nextCon (rampDownConstraints ord b1.nextCon b1.di) := freshUnit_createConstraints _ _ _ (by decide)
    have d1 : b1.di = a.di := by rw [← hb1]; exact (sameBase_prim (good := True) (.unitSet a .rampUp _ rfl f1)).2.2
    generalize hb2 : (b1.addUnitSet .rampDown (rampDownConstraints ord b1.nextCon b1.di)).1 = b2 at *
    have w2 : ConWF b2 := by rw [← hb2]; exact conWF_unitSet w1 _ _ rfl f2
    have d2 : b2.di = a.di := by
      rw [← hb2, (sameBase_prim (good := True) (.unitSet b1 .rampDown _ rfl f2)).2.2, d1]
    have s12 : SameSet .rampUp b1 b2 := by rw [← hb2]; exact sameSet_unitSet b1 rfl f2 (by decide)
    have hstep : Steps True [.set .biRampUp, .set .biRampDown] b2 (b2.addBiRamps bis).1 := by
      unfold Market.addBiRamps
      split
      · exact .refl _
      · exact .andThen (.unitSet _ rfl (freshUnit_biRamp ..) (by simp)) (.unitSet _ rfl (freshUnit_biRamp ..) (by simp))
    have s23u : SameSet .rampUp b2 (b2.addBiRamps bis).1 := frame_steps hstep (by decide)
    have s23d : SameSet .rampDown b2 (b2.addBiRamps bis).1 := frame_steps hstep (by decide)
    refine ⟨ord, a.nextCon, b1.nextCon, rfl, ?_, ?_, ?_⟩
    · refine imposed_of ha.con hm rfl f1 ?_
      rw [hb1]; exact (s12.trans s23u).trans hs1
    · rw [← d1]
      refine imposed_of w1 hm rfl f2 ?_
      rw [hb2]; exact s23d.trans hs2
    · intro hne
      have hne' : bis.isEmpty = false := by simpa using hne
      unfold Market.addBiRamps at hok3 hs3 hs4
      simp only [hne', Bool.false_eq_true, if_false] at hok3 hs3 hs4
      obtain ⟨_, he4⟩ := andThen_ok hok3
      rw [he4] at hs3 hs4
      have f3 : FreshUnit b2.nextCon (biRampConstraints bis true b2.nextCon b2.di) := freshUnit_biRamp ..
      generalize hb3 : (b2.addUnitSet .biRampUp (biRampConstraints bis true b2.nextCon b2.di)).1 = b3 at *
      have w3 : ConWF b3 := by rw [← hb3]; exact conWF_unitSet w2 _ _ rfl f3
      have f4 : FreshUnit b3.nextCon (biRampConstraints bis false b3.nextCon b3.di) := freshUnit_biRamp ..
      have d3 : b3.di = a.di := by
        rw [← hb3, (sameBase_prim (good := True) (.unitSet b2 .biRampUp _ rfl f3)).2.2, d2]
      refine ⟨b2.nextCon, b3.nextCon, ?_, ?_⟩
      · rw [← d2]
        refine imposed_of w2 hm rfl f3 ?_
        rw [hb3]; exact (sameSet_unitSet b3 rfl f4 (by decide)).trans hs3
      · rw [← d3]; exact imposed_of w3 hm rfl f4 hs4

theorem side_of_not_bidi {m : Market} {u : String} (h : u ∉ m.bidi) (s : Service) (d : DType) : m.side u s d = 1 := by
  simp [Market.side, h]

/-- a ramp up limit of an ordinary unit -/
theorem rampUp_holds {m : Market} {ord : List RampRow} {n : Nat} {di : ℚ} (h : Imposed m .rampUp (rampUpConstraints ord n di))
    {lp : Lp} (hl : m.assemble = .ok lp) {x : Nat → ℚ} (hx : Feasible lp x) {r : RampRow} (hr : r ∈ ord)
    (hbi : r.unit ∉ m.bidi) (hu : m.lists r.unit r.dtype) (hb : m.bidsFor r.unit .energy r.dtype) :
    m.dispatched x r.unit .energy r.dtype ≤ r.init + r.up * (di / 60) := by
  have := limit_holds h hl hx (List.mem_map.2 ⟨r, hr, rfl⟩) hu hb
  simpa [side_of_not_bidi hbi, CType.holds] using this

/-- a ramp down limit of an ordinary unit -/
theorem rampDown_holds {m : Market} {ord : List RampRow} {n : Nat} {di : ℚ}
    (h : Imposed m .rampDown (rampDownConstraints ord n di))
    {lp : Lp} (hl : m.assemble = .ok lp) {x : Nat → ℚ} (hx : Feasible lp x) {r : RampRow} (hr : r ∈ ord)
    (hbi : r.unit ∉ m.bidi) (hu : m.lists r.unit r.dtype) (hb : m.bidsFor r.unit .energy r.dtype) :
    r.init - r.down * (di / 60) ≤ m.dispatched x r.unit .energy r.dtype := by
  have := limit_holds h hl hx (List.mem_map.2 ⟨r, hr, rfl⟩) hu hb
  simpa [side_of_not_bidi hbi, CType.holds] using this

theorem tighter_eq_fmin (a : ℚ) (b : Option ℚ) : fmin a b = tighter a b := by
  cases b with
  | none => rfl
  | some b =>
    simp only [fmin, tighter]
    by_cases h : b ≤ a
    · rw [if_pos h, min_eq_right h]
    · rw [if_neg h, min_eq_left (le_of_lt (not_le.1 h))]

theorem find?_of_filter {α : Type} (l : List α) (p : α → Bool) : l.find? p = (l.filter p).head? :=
  List.head?_filter.symm

/-- a left merge with at most one match per row -/
theorem leftMerge_unique {α β : Type} {p : α → β → Bool} {l : List α} {r : List β}
    (h : ∀ a ∈ l, (r.filter (p a)).length ≤ 1) : leftMerge p l r = l.map (fun a => (a, r.find? (p a))) := by
  unfold leftMerge
  induction l with
  | nil => rfl
  | cons a l ih =>
    rw [List.flatMap_cons, ih (fun b hb => h b (by simp [hb])), List.map_cons]
    have ha := h a (by simp)
    rw [find?_of_filter]
    cases hf : r.filter (p a) with
    | nil => simp
    | cons b bs =>
      rw [hf] at ha
      cases bs with
      | nil => simp
      | cons c cs => simp at ha

theorem filter_unit_le {sc : List Scada} (h : (sc.map (·.unit)).Nodup) (u : String) :
    (sc.filter (fun s => decide (s.unit = u))).length ≤ 1 := by
  rcases filter_key_le_one h u with h | ⟨a, _, _, h⟩ <;> rw [h] <;> simp

/-- the SCADA adjustment of ordinary units -/
theorem scadaOpt_ord {rs : List RampRow} {sc : Option (List Scada)} (hsc : ∀ s, sc = some s → (s.map (·.unit)).Nodup) :
    scadaOpt adjustForScada rs sc = rs.map (fun r =>
      { r with down := tighter r.down (scadaRate sc Scada.down r.unit), up := tighter r.up (scadaRate sc Scada.up r.unit) }) := by
  cases sc with
  | none => simp [scadaOpt, scadaRate, tighter]
  | some sc =>
    simp only [scadaOpt, adjustForScada]
    rw [leftMerge_unique (fun a _ => filter_unit_le (hsc sc rfl) _), List.map_map]
    apply List.map_congr_left
    intro r _
    simp only [Function.comp, tighter_eq_fmin, scadaRate, Option.getD_some]

/-- the SCADA adjustment of bidirectional units -/
theorem scadaOpt_bi {rs : List BiRamp} {sc : Option (List Scada)} (hsc : ∀ s, sc = some s → (s.map (·.unit)).Nodup) :
    scadaOpt adjustForScadaBi rs sc = rs.map (fun r =>
      { r with down := tighter r.down (scadaRate sc Scada.down r.unit), up := tighter r.up (scadaRate sc Scada.up r.unit) }) := by
  cases sc with
  | none => simp [scadaOpt, scadaRate, tighter]
  | some sc =>
    simp only [scadaOpt, adjustForScadaBi]
    rw [leftMerge_unique (fun a _ => filter_unit_le (hsc sc rfl) _), List.map_map]
    apply List.map_congr_left
    intro r _
    simp only [Function.comp, tighter_eq_fmin, scadaRate, Option.getD_some]

/-! ### Bidirectional units -/

theorem count_two_both {units : List UnitInfo} (h : (units.map (fun u => (u.unit, u.dtype))).Nodup) {u : String}
    (hc : (units.map (·.unit)).count u = 2) (d : DType) : ∃ i ∈ units, i.unit = u ∧ i.dtype = d := by
  by_contra hno
  push Not at hno
  have h1 : (units.map (fun i => (i.unit, i.dtype))).count (u, if d = .generator then .load else .generator) ≤ 1 :=
    List.nodup_iff_count_le_one.1 h _
  have h2 : (units.map (·.unit)).count u = (units.map (fun i => (i.unit, i.dtype))).count (u, if d = .generator then .load else .generator) := by
    clear hc h1 h
    induction units with
    | nil => rfl
    | cons i us ih =>
      simp only [List.map_cons, List.count_cons]
      rw [ih (fun j hj => hno j (by simp [hj]))]
      congr 1
      have := hno i (by simp)
      by_cases hi : i.unit = u
      · have hd := this hi
        have : i.dtype = if d = .generator then .load else .generator := by
          cases hdi : i.dtype <;> cases d <;> simp_all
        simp [hi, this]
      · simp [hi]
  omega

theorem bidi_lists {m : Market} (hw : WF m) {u : String} (h : u ∈ m.bidi) (d : DType) : m.lists u d := by
  unfold Market.bidi bidiOf at h
  simp only [List.mem_filter, decide_eq_true_eq] at h
  exact count_two_both hw.units h.2 d

/-- joining the rows with their own numbering -/
theorem join_saveIndex {α β κ : Type} [DecidableEq κ] {l : List α} {n : Nat} (key : α → κ) (g : Nat → α → β)
    (I : List (Nat × κ)) (hI : (I.map Prod.snd).Nodup) (h : ∀ i r, l[i]? = some r → (n + i, key r) ∈ I) :
    l.flatMap (fun r => (I.filter (fun c => decide (c.2 = key r))).map (fun c => g c.1 r)) = saveIndex l n g := by
  induction l generalizing n with
  | nil => rfl
  | cons r l ih =>
    rw [List.flatMap_cons, saveIndex, ih (n := n + 1)]
    · have := filter_key_unique hI (h 0 r (by simp))
      simp only [Nat.add_zero] at this
      rw [this]; simp
    · intro i r' hr
      have := h (i + 1) r' (by simpa using hr)
      rwa [show n + 1 + i = n + (i + 1) by omega]

theorem biRamp_map {rs : List BiRamp} (hn : (rs.map (·.unit)).Nodup) (isUp : Bool) (n : Nat) (di : ℚ) :
    biRampConstraints rs isUp n di =
      (saveIndex rs n (fun i r => Row.mk i (if isUp then .le else .ge)
        (if isUp then r.init + r.up * (di / 60) else r.init - r.down * (di / 60)) none none),
       saveIndex rs n (fun i r => ConUnit.mk i r.unit .energy .load 1) ++
       saveIndex rs n (fun i r => ConUnit.mk i r.unit .energy .generator 1)) := by
  simp only [biRampConstraints, dropDup_of_nodup hn]
  have hI : ((saveIndex rs n (fun i r => (i, r.unit))).map Prod.snd).Nodup := by
    rw [map_saveIndex]; simpa [saveIndex_vals] using hn
  have hmem : ∀ i r, rs[i]? = some r → (n + i, r.unit) ∈ saveIndex rs n (fun i r => (i, r.unit)) :=
    fun i r h => mem_saveIndex.2 ⟨i, r, h, rfl⟩
  have j := fun d => join_saveIndex (l := rs) (n := n) BiRamp.unit (fun i r => ConUnit.mk i r.unit .energy d 1)
    (saveIndex rs n (fun i r => (i, r.unit))) hI hmem
  rw [← j .load, ← j .generator]

/-- the ramp constraints of bidirectional units, exactly -/
theorem biRamp_iff {m : Market} {k : CKey} {rs : List BiRamp} {isUp : Bool} {n : Nat} {di : ℚ}
    (h : Imposed m k (biRampConstraints rs isUp n di)) (hn : (rs.map (·.unit)).Nodup) (hb : ∀ r ∈ rs, r.unit ∈ m.bidi)
    {lp : Lp} (hl : m.assemble = .ok lp) {x : Nat → ℚ} :
    m.obeys lp x k ↔ ∀ r ∈ rs, (∃ d, m.bidsFor r.unit .energy d) →
      if isUp then m.netOutput x r.unit ≤ r.init + r.up * (di / 60)
      else r.init - r.down * (di / 60) ≤ m.netOutput x r.unit := by
  rw [h.obeys_iff hl]
  have hf : ∀ (i : Nat) (r : BiRamp), rs[i]? = some r →
      ((biRampConstraints rs isUp n di).2.filter (fun c => decide (c.cid = n + i))) =
      [ConUnit.mk (n + i) r.unit .energy .load 1, ConUnit.mk (n + i) r.unit .energy .generator 1] := by
    intro i r hi
    rw [biRamp_map hn]
    simp only [List.filter_append]
    rw [filter_saveIndex rs n _ ConUnit.cid (fun _ _ => rfl) hi, filter_saveIndex rs n _ ConUnit.cid (fun _ _ => rfl) hi]
    rfl
  have key : ∀ (i : Nat) (r : BiRamp), rs[i]? = some r →
      m.unitLhs x (biRampConstraints rs isUp n di).2 (n + i) = m.netOutput x r.unit := by
    intro i r hi
    have hbi := hb r (List.mem_of_getElem? hi)
    simp only [Market.unitLhs, hf i r hi, List.map_cons, List.map_nil, List.sum_cons, List.sum_nil, Market.netOutput,
      mapVal_eq h.wf (bidi_lists h.wf hbi _), Market.side]
    simp [hbi]; ring
  constructor
  · rintro ha r hr ⟨d, hd⟩
    obtain ⟨i, hi⟩ := List.mem_iff_getElem?.1 hr
    have hrow : Row.mk (n + i) (if isUp then .le else .ge)
        (if isUp then r.init + r.up * (di / 60) else r.init - r.down * (di / 60)) none none ∈
        (biRampConstraints rs isUp n di).1 := by
      rw [biRamp_map hn]; exact mem_saveIndex.2 ⟨i, r, hi, rfl⟩
    have := ha _ hrow ⟨ConUnit.mk (n + i) r.unit .energy d 1, List.mem_of_mem_filter (by
      rw [hf i r hi]; cases d <;> simp), rfl, bidi_lists h.wf (hb r hr) _, hd⟩
    dsimp only at this
    rw [key i r hi] at this
    cases isUp <;> simpa [CType.holds] using this
  · intro ha row hrow hc
    have hrow' := hrow
    rw [biRamp_map hn] at hrow'
    obtain ⟨i, r, hi, rfl⟩ := mem_saveIndex.1 hrow'
    obtain ⟨c, hc, e, h1, h2⟩ := hc
    have hcm : c ∈ (biRampConstraints rs isUp n di).2.filter (fun c => decide (c.cid = n + i)) :=
      List.mem_filter.2 ⟨hc, by simpa using e⟩
    rw [hf i r hi] at hcm
    have hmem := List.mem_of_getElem? hi
    have hd : ∃ d, m.bidsFor r.unit .energy d := by
      simp only [List.mem_cons, List.not_mem_nil, or_false] at hcm
      rcases hcm with rfl | rfl <;> exact ⟨_, h2⟩
    have := ha r hmem hd
    dsimp only
    rw [key i r hi]
    cases isUp <;> simpa [CType.holds] using this

theorem nodup_key_unique {α κ : Type} {l : List α} {key : α → κ} (h : (l.map key).Nodup) {a b : α} (ha : a ∈ l) (hb : b ∈ l)
    (e : key a = key b) : a = b := List.inj_on_of_nodup_map h ha hb e

/-- the composite rows of bidirectional units -/
theorem mem_composite {rs : List RampRow} {di : ℚ} {bidi : List String} (hn : (rs.map (fun r => (r.unit, r.dtype))).Nodup)
    {b : BiRamp} : b ∈ (compositeRampRates rs di bidi).2 ↔ ∃ g ∈ rs, ∃ l ∈ rs, g.unit ∈ bidi ∧ g.unit = l.unit ∧
      g.dtype = .generator ∧ l.dtype = .load ∧ b = ⟨l.unit, compositeDown di g.init l.up g.down,
        compositeUp di l.init g.up l.down, l.init⟩ := by
  simp only [compositeRampRates, List.mem_flatMap, List.mem_map, List.mem_filter, decide_eq_true_eq]
  constructor
  · rintro ⟨_, ⟨l, ⟨⟨hl, hlb⟩, hld⟩, g, ⟨⟨⟨hg, hgb⟩, hgd⟩, hgl⟩, rfl⟩, _, ⟨⟨g', ⟨⟨hg', _⟩, hgd'⟩, l', ⟨⟨⟨hl', _⟩, hld'⟩, hgl'⟩, rfl⟩, he⟩, rfl⟩
    dsimp only at he ⊢
    have e1 : g' = g := nodup_key_unique hn hg' hg (by rw [he, hgl, hgd', hgd])
    have e2 : l' = l := nodup_key_unique hn hl' hl (by rw [hgl', he, hld', hld])
    subst e1; subst e2
    exact ⟨g', hg, l', hl, hgb, hgl, hgd, hld, rfl⟩
  · rintro ⟨g, hg, l, hl, hb, he, hgd, hld, rfl⟩
    refine ⟨(l.unit, compositeDown di g.init l.up g.down), ⟨l, ⟨⟨hl, by rw [← he]; exact hb⟩, hld⟩, g, ⟨⟨⟨hg, hb⟩, hgd⟩, he⟩, rfl⟩,
      (g.unit, compositeUp di l.init g.up l.down, l.init), ⟨⟨g, ⟨⟨hg, hb⟩, hgd⟩, l, ⟨⟨⟨hl, by rw [← he]; exact hb⟩, hld⟩, he.symm⟩, rfl⟩, he⟩, rfl⟩

theorem composite_nodup {rs : List RampRow} {di : ℚ} {bidi : List String} (hn : (rs.map (fun r => (r.unit, r.dtype))).Nodup) :
    ((compositeRampRates rs di bidi).2.map (·.unit)).Nodup := by
  have hside : ∀ d : DType, (((rs.filter (fun r => decide (r.unit ∈ bidi))).filter (fun r => decide (r.dtype = d))).map RampRow.unit).Nodup := by
    intro d
    have h1 : (((rs.filter (fun r => decide (r.unit ∈ bidi))).filter (fun r => decide (r.dtype = d))).map (fun r => (r.unit, r.dtype))).Nodup :=
      List.Nodup.sublist (((List.filter_sublist).trans List.filter_sublist).map _) hn
    have h2 : (((rs.filter (fun r => decide (r.unit ∈ bidi))).filter (fun r => decide (r.dtype = d))).map (fun r => (r.unit, r.dtype))) =
        ((((rs.filter (fun r => decide (r.unit ∈ bidi))).filter (fun r => decide (r.dtype = d))).map RampRow.unit).map (fun u => (u, d))) := by
      rw [List.map_map]
      apply List.map_congr_left
      intro r hr
      have := (List.mem_filter.1 hr).2
      simp only [decide_eq_true_eq] at this
      simp [this]
    rw [h2] at h1
    exact List.Nodup.of_map _ h1
  simp only [compositeRampRates]
  generalize hg : (rs.filter (fun r => decide (r.unit ∈ bidi))).filter (fun r => decide (r.dtype = .generator)) = gen
  generalize hl : (rs.filter (fun r => decide (r.unit ∈ bidi))).filter (fun r => decide (r.dtype = .load)) = load
  have hgn : (gen.map RampRow.unit).Nodup := by rw [← hg]; exact hside _
  have hln : (load.map RampRow.unit).Nodup := by rw [← hl]; exact hside _
  have hups : ((gen.flatMap (fun g => (load.filter (fun l => decide (l.unit = g.unit))).map
    (fun l => (g.unit, compositeUp di l.init g.up l.down, l.init)))).map Prod.fst).Nodup := by
    refine List.Nodup.sublist ?_ hgn
    rw [List.map_flatMap]
    apply flatMap_sublist_map
    intro g _
    rcases filter_key_le_one hln g.unit with h | ⟨a, _, _, h⟩
    · left; rw [h]; rfl
    · right; rw [h]; rfl
  have hdowns : ((load.flatMap (fun l => (gen.filter (fun g => decide (g.unit = l.unit))).map
    (fun g => (l.unit, compositeDown di g.init l.up g.down)))).map Prod.fst).Nodup := by
    refine List.Nodup.sublist ?_ hln
    rw [List.map_flatMap]
    apply flatMap_sublist_map
    intro g _
    rcases filter_key_le_one hgn g.unit with h | ⟨a, _, _, h⟩
    · left; rw [h]; rfl
    · right; rw [h]; rfl
  refine List.Nodup.sublist ?_ hdowns
  rw [List.map_flatMap]
  apply flatMap_sublist_map
  intro d _
  rcases filter_key_le_one hups d.1 with h | ⟨a, _, _, h⟩
  · left; rw [h]; rfl
  · right; rw [h]; rfl

/-! ### Fast start adjustment -/

/-- the rows left in the second run -/
theorem mem_second {rs : List RampRow} {ps : List FsRamp} {di : ℚ} {q : RampRow} :
    q ∈ adjustModeThreeFour (removeEnding012 rs ps) ps di ↔ ∃ r ∈ rs,
      (∀ p ∈ ps, p.unit = r.unit → 3 ≤ p.endMode) ∧
      ((∃ p ∈ ps, ∃ s, p.unit = r.unit ∧ p.since = some s ∧ q = { r with up := adjustedUp di r p.minLoading s }) ∨
       ((∀ p ∈ ps, p.unit = r.unit → p.since = none) ∧ q = r)) := by
  have hrem : ∀ r, r ∈ removeEnding012 rs ps ↔ r ∈ rs ∧ ∀ p ∈ ps, p.unit = r.unit → 3 ≤ p.endMode := by
    intro r
    simp only [removeEnding012, List.mem_filter, decide_eq_true_eq, List.mem_map, not_exists, not_and]
    constructor
    · rintro ⟨h1, h2⟩
      refine ⟨h1, fun p hp hu => ?_⟩
      by_contra hc
      exact h2 p ⟨hp, by omega⟩ hu
    · rintro ⟨h1, h2⟩
      refine ⟨h1, fun p hp hu => ?_⟩
      have := h2 p hp.1 hu
      omega
  have hadj : ∀ q, q ∈ (removeEnding012 rs ps).flatMap (fun r => (ps.filter (fun p => decide (p.unit = r.unit))).filterMap (fun p =>
      p.since.map (fun s => { r with up := adjustedUp di r p.minLoading s }))) ↔ ∃ r ∈ removeEnding012 rs ps,
      ∃ p ∈ ps, ∃ s, p.unit = r.unit ∧ p.since = some s ∧ q = { r with up := adjustedUp di r p.minLoading s } := by
    intro q
    simp only [List.mem_flatMap, List.mem_filterMap, List.mem_filter, decide_eq_true_eq, Option.map_eq_some_iff]
    constructor
    · rintro ⟨r, hr, p, ⟨hp, hu⟩, s, hs, rfl⟩; exact ⟨r, hr, p, hp, s, hu, hs, rfl⟩
    · rintro ⟨r, hr, p, hp, s, hu, hs, rfl⟩; exact ⟨r, hr, p, ⟨hp, hu⟩, s, hs, rfl⟩
  simp only [adjustModeThreeFour, List.mem_append, hadj, List.mem_filter, decide_eq_true_eq]
  constructor
  · rintro (⟨r, hr, h⟩ | ⟨hq, hnot⟩)
    · rw [hrem] at hr
      exact ⟨r, hr.1, hr.2, Or.inl h⟩
    · have hq' := (hrem q).1 hq
      refine ⟨q, hq'.1, hq'.2, Or.inr ⟨fun p hp hu => ?_, rfl⟩⟩
      cases hs : p.since with
      | none => rfl
      | some s =>
        exact absurd (List.mem_map.2 ⟨_, (hadj _).2 ⟨q, hq, p, hp, s, hu, hs, rfl⟩, rfl⟩) hnot
  · rintro ⟨r, hr, h1, (h | ⟨h2, rfl⟩)⟩
    · exact Or.inl ⟨r, (hrem r).2 ⟨hr, h1⟩, h⟩
    · refine Or.inr ⟨(hrem q).2 ⟨hr, h1⟩, ?_⟩
      intro hm
      obtain ⟨q', hq', hu⟩ := List.mem_map.1 hm
      obtain ⟨r', _, p, hp, s, hpu, hs, rfl⟩ := (hadj q').1 hq'
      dsimp only at hu
      rw [h2 p hp (by rw [hpu, hu])] at hs
      cases hs

theorem mem_first {rs : List RampRow} {ps : List FsRamp} {q : RampRow} :
    q ∈ removeStarting012 rs ps ↔ q ∈ rs ∧ ∀ p ∈ ps, p.unit = q.unit → 3 ≤ p.curMode := by
  simp only [removeStarting012, List.mem_filter, decide_eq_true_eq, List.mem_map, not_exists, not_and]
  constructor
  · rintro ⟨h1, h2⟩
    refine ⟨h1, fun p hp hu => ?_⟩
    by_contra hc
    exact h2 p ⟨hp, by omega⟩ hu
  · rintro ⟨h1, h2⟩
    refine ⟨h1, fun p hp hu => ?_⟩
    have := h2 p hp.1 hu
    omega

theorem find?_unit {α : Type} {ps : List α} {key : α → String} (hn : (ps.map key).Nodup) {u : String} :
    (ps.find? (fun p => decide (key p = u)) = none ∧ ∀ p ∈ ps, key p ≠ u) ∨
    ∃ p, ps.find? (fun p => decide (key p = u)) = some p ∧ p ∈ ps ∧ key p = u ∧ ∀ q ∈ ps, key q = u → q = p := by
  cases hf : ps.find? (fun p => decide (key p = u)) with
  | none => left; refine ⟨rfl, ?_⟩; rw [List.find?_eq_none] at hf; intro p hp; simpa using hf p hp
  | some p =>
    right
    have h1 := List.mem_of_find?_eq_some hf
    have h2 : key p = u := by simpa using List.find?_some hf
    exact ⟨p, rfl, h1, h2, fun q hq e => nodup_key_unique hn hq h1 (by rw [e, h2])⟩

/-- the ramp rows after the fast start adjustment, as limits -/
theorem mem_ord {rs ord : List RampRow} {rt : RunType} {ps : Option (List FsRamp)} {di : ℚ}
    (hn : ∀ p, rt ≠ .noFastStart → ps = some p → (p.map (·.unit)).Nodup) (hdi : di ≠ 0)
    (h : adjustForFastStart rs rt ps di = .ok ord) (P : String → DType → ℚ → Prop) :
    ((∀ q ∈ ord, P q.unit q.dtype (q.init + q.up * (di / 60))) ↔
      ∀ r ∈ rs, ∀ L, upLimit rt (ps.getD []) di r.init r.up r.unit = some L → P r.unit r.dtype L) ∧
    ((∀ q ∈ ord, P q.unit q.dtype (q.init - q.down * (di / 60))) ↔
      ∀ r ∈ rs, ∀ L, downLimit rt (ps.getD []) di r.init r.down r.unit = some L → P r.unit r.dtype L) := by
  cases rt with
  | other => simp [adjustForFastStart] at h
  | noFastStart =>
    simp only [adjustForFastStart, Except.ok.injEq] at h
    subst h
    simp [upLimit, downLimit]
  | first =>
    cases ps with
    | none => simp [adjustForFastStart] at h
    | some ps =>
      have hn := hn ps (by simp) rfl
      simp only [adjustForFastStart, Except.ok.injEq] at h
      subst h
      simp only [Option.getD_some]
      have key : ∀ r ∈ rs, ∀ (v : ℚ) (f : Option ℚ), (f = (match ps.find? (fun p => decide (p.unit = r.unit)) with
          | none => some v | some p => if p.curMode ≤ 2 then none else some v)) →
          ((r ∈ removeStarting012 rs ps → P r.unit r.dtype v) ↔ ∀ L, f = some L → P r.unit r.dtype L) := by
        intro r hr v f hf
        rw [mem_first]
        rcases find?_unit hn (u := r.unit) with ⟨e, hno⟩ | ⟨p, e, hp, hpu, huniq⟩
        · rw [e] at hf; subst hf
          constructor
          · intro h L hL; injection hL with hL; subst hL; exact h ⟨hr, fun p hp hu => absurd hu (hno p hp)⟩
          · intro h _; exact h v rfl
        · rw [e] at hf; subst hf
          dsimp only
          by_cases hc : p.curMode ≤ 2
          · rw [if_pos hc]
            constructor
            · intro _ L hL; cases hL
            · rintro _ ⟨_, h⟩; have := h p hp hpu; omega
          · rw [if_neg hc]
            constructor
            · intro h L hL; injection hL with hL; subst hL
              exact h ⟨hr, fun q hq hu => by rw [huniq q hq hu]; omega⟩
            · intro h _; exact h v rfl
      constructor
      · constructor
        · intro h r hr L hL
          exact (key r hr _ _ (by first | (unfold upLimit; cases ps.find? _ <;> rfl) | (unfold downLimit; cases ps.find? _ <;> rfl))).1 (fun hm => h r hm) L hL
        · intro h q hq
          exact (key q (mem_first.1 hq).1 _ _ (by first | (unfold upLimit; cases ps.find? _ <;> rfl) | (unfold downLimit; cases ps.find? _ <;> rfl))).2 (h q (mem_first.1 hq).1) hq
      · constructor
        · intro h r hr L hL
          exact (key r hr _ _ (by first | (unfold upLimit; cases ps.find? _ <;> rfl) | (unfold downLimit; cases ps.find? _ <;> rfl))).1 (fun hm => h r hm) L hL
        · intro h q hq
          exact (key q (mem_first.1 hq).1 _ _ (by first | (unfold upLimit; cases ps.find? _ <;> rfl) | (unfold downLimit; cases ps.find? _ <;> rfl))).2 (h q (mem_first.1 hq).1) hq
  | second =>
    cases ps with
    | none => simp [adjustForFastStart] at h
    | some ps =>
      have hn := hn ps (by simp) rfl
      simp only [adjustForFastStart, Except.ok.injEq] at h
      subst h
      simp only [Option.getD_some]
      have hval : ∀ (r : RampRow) (s ml : ℚ), r.init + adjustedUp di r ml s * (di / 60) = ml + r.up * (s / 60) := by
        intro r s ml
        unfold adjustedUp
        have : (60 / di) * (di / 60) = 1 := by
          rw [div_mul_div_comm, mul_comm, div_self]; exact mul_ne_zero hdi (by norm_num)
        rw [mul_assoc, this]; ring
      constructor
      · constructor
        · intro h r hr L hL
          rcases find?_unit hn (u := r.unit) with ⟨e, hno⟩ | ⟨p, e, hp, hpu, huniq⟩
          · simp only [upLimit, e, Option.some.injEq] at hL; subst hL
            exact h r (mem_second.2 ⟨r, hr, fun p hp hu => absurd hu (hno p hp),
              Or.inr ⟨fun p hp hu => absurd hu (hno p hp), rfl⟩⟩)
          · simp only [upLimit, e] at hL
            by_cases hc : p.endMode ≤ 2
            · rw [if_pos hc] at hL; cases hL
            · rw [if_neg hc] at hL
              have h3 : ∀ q ∈ ps, q.unit = r.unit → 3 ≤ q.endMode := fun q hq hu => by rw [huniq q hq hu]; omega
              cases hs : p.since with
              | none =>
                simp only [hs, Option.some.injEq] at hL; subst hL
                exact h r (mem_second.2 ⟨r, hr, h3, Or.inr ⟨fun q hq hu => by rw [huniq q hq hu]; exact hs, rfl⟩⟩)
              | some s =>
                simp only [hs, Option.some.injEq] at hL; subst hL
                have := h { r with up := adjustedUp di r p.minLoading s }
                  (mem_second.2 ⟨r, hr, h3, Or.inl ⟨p, hp, s, hpu, hs, rfl⟩⟩)
                dsimp only at this
                rwa [hval] at this
        · intro h q hq
          obtain ⟨r, hr, h3, (⟨p, hp, s, hpu, hs, rfl⟩ | ⟨hno, rfl⟩)⟩ := mem_second.1 hq
          · have := h r hr (p.minLoading + r.up * (s / 60)) (by
              rcases find?_unit hn (u := r.unit) with ⟨e, hno⟩ | ⟨p', e, hp', hpu', huniq⟩
              · exact absurd hpu (hno p hp)
              · have := huniq p hp hpu; subst this
                have h3 := h3 p hp hpu
                simp only [upLimit, e, hs]
                rw [if_neg (by omega)])
            dsimp only; rwa [hval]
          · apply h q hr
            rcases find?_unit hn (u := q.unit) with ⟨e, _⟩ | ⟨p', e, hp', hpu', huniq⟩
            · simp only [upLimit, e]
            · have h3 := h3 p' hp' hpu'
              simp only [upLimit, e, hno p' hp' hpu']
              rw [if_neg (by omega)]
      · constructor
        · intro h r hr L hL
          rcases find?_unit hn (u := r.unit) with ⟨e, hno⟩ | ⟨p, e, hp, hpu, huniq⟩
          · simp only [downLimit, e, Option.some.injEq] at hL; subst hL
            exact h r (mem_second.2 ⟨r, hr, fun p hp hu => absurd hu (hno p hp),
              Or.inr ⟨fun p hp hu => absurd hu (hno p hp), rfl⟩⟩)
          · simp only [downLimit, e] at hL
            by_cases hc : p.endMode ≤ 2
            · rw [if_pos hc] at hL; cases hL
            · rw [if_neg hc] at hL
              injection hL with hL; subst hL
              have h3 : ∀ q ∈ ps, q.unit = r.unit → 3 ≤ q.endMode := fun q hq hu => by rw [huniq q hq hu]; omega
              cases hs : p.since with
              | none =>
                exact h r (mem_second.2 ⟨r, hr, h3, Or.inr ⟨fun q hq hu => by rw [huniq q hq hu]; exact hs, rfl⟩⟩)
              | some s =>
                exact h { r with up := adjustedUp di r p.minLoading s }
                  (mem_second.2 ⟨r, hr, h3, Or.inl ⟨p, hp, s, hpu, hs, rfl⟩⟩)
        · intro h q hq
          have key : ∀ r ∈ rs, (∀ p ∈ ps, p.unit = r.unit → 3 ≤ p.endMode) → P r.unit r.dtype (r.init - r.down * (di / 60)) := by
            intro r hr h3
            apply h r hr
            rcases find?_unit hn (u := r.unit) with ⟨e, _⟩ | ⟨p', e, hp', hpu', huniq⟩
            · simp only [downLimit, e]
            · have h3 := h3 p' hp' hpu'
              simp only [downLimit, e]
              rw [if_neg (by omega)]
          obtain ⟨r, hr, h3, (⟨p, hp, s, hpu, hs, rfl⟩ | ⟨hno, rfl⟩)⟩ := mem_second.1 hq
          · exact key r hr h3
          · exact key q hr h3

end Verif
