import Verif.Proofs.SoftSets
import Verif.Proofs.ShuffleSet
import Verif.Props.Ramp

/-! Ramp rates with a violation cost. -/

namespace Verif

theorem filterMap_perm {α : Type} (f : α → Option α) (l : List α) :
    (l.filterMap f ++ l.filter (fun a => (f a).isNone)).Perm (l.map (fun a => (f a).getD a)) := by
  induction l with
  | nil => exact .nil
  | cons a l ih =>
    cases h : f a with
    | none =>
      simp only [List.filterMap_cons, h, List.map_cons, List.filter_cons, Option.isNone_none, if_true, Option.getD_none]
      exact (List.perm_middle).trans (ih.cons a)
    | some b =>
      simp only [List.filterMap_cons, h, List.map_cons, List.filter_cons, Option.isNone_some, Bool.false_eq_true, if_false, Option.getD_some, List.cons_append]
      exact ih.cons b

/-- the row a unit that left mode 2 gets -/
def startedRow (ps : List FsRamp) (di : ℚ) (r : RampRow) : Option RampRow :=
  match ps.find? (fun p => decide (p.unit = r.unit)) with
  | none => none
  | some p => p.since.map (fun s => { r with up := adjustedUp di r p.minLoading s })

theorem modeThreeFour_perm {rs : List RampRow} {ps : List FsRamp} (hn : (ps.map (·.unit)).Nodup) (di : ℚ) :
    (adjustModeThreeFour rs ps di).Perm (rs.map (fun r => (startedRow ps di r).getD r)) := by
  have h1 : rs.flatMap (fun r => (ps.filter (fun p => decide (p.unit = r.unit))).filterMap (fun p =>
      p.since.map (fun s => { r with up := adjustedUp di r p.minLoading s }))) = rs.filterMap (startedRow ps di) := by
    induction rs with
    | nil => rfl
    | cons r rs ih =>
      rw [List.flatMap_cons, ih, List.filterMap_cons]
      unfold startedRow
      rw [find?_of_filter]
      rcases filter_key_le_one hn r.unit with h | ⟨p, _, _, h⟩
      · rw [h]; rfl
      · rw [h]
        simp only [List.head?_cons, List.filterMap_cons, List.filterMap_nil]
        cases p.since <;> rfl
  have h2 : ∀ r ∈ rs, (decide (r.unit ∉ (rs.filterMap (startedRow ps di)).map (·.unit))) = (startedRow ps di r).isNone := by
    intro r hr
    rw [Bool.eq_iff_iff, decide_eq_true_eq, List.mem_map]
    constructor
    · intro h
      cases hs : startedRow ps di r with
      | none => rfl
      | some q =>
        refine absurd ⟨q, List.mem_filterMap.2 ⟨r, hr, hs⟩, ?_⟩ h
        unfold startedRow at hs
        split at hs
        · cases hs
        · obtain ⟨s, _, rfl⟩ := Option.map_eq_some_iff.1 hs; rfl
    · rintro h ⟨q, hq, hu⟩
      obtain ⟨r', _, hs⟩ := List.mem_filterMap.1 hq
      have hu' : r'.unit = r.unit := by
        rw [← hu]
        unfold startedRow at hs
        split at hs
        · cases hs
        · obtain ⟨s, _, rfl⟩ := Option.map_eq_some_iff.1 hs; rfl
      unfold startedRow at hs h
      rw [hu'] at hs
      split at hs
      · cases hs
      · rename_i p hp
        rw [hp] at h
        obtain ⟨s, hs', _⟩ := Option.map_eq_some_iff.1 hs
        simp [hs'] at h
  unfold adjustModeThreeFour
  dsimp only
  rw [h1, List.filter_congr h2]
  exact filterMap_perm _ _

theorem sum_filter_list {α : Type} (l : List α) (p : α → Bool) (f : α → ℚ) :
    ((l.filter p).map f).sum = (l.map (fun a => if p a then f a else 0)).sum := by
  induction l with
  | nil => rfl
  | cons a l ih =>
    rw [List.filter_cons]
    cases h : p a <;> simp [h, ih]

theorem adjustedUp_value {di : ℚ} (hdi : di ≠ 0) (r : RampRow) (s ml : ℚ) :
    r.init + adjustedUp di r ml s * (di / 60) = ml + r.up * (s / 60) := by
  unfold adjustedUp
  have : (60 / di) * (di / 60) = 1 := by
    rw [div_mul_div_comm, mul_comm, div_self]; exact mul_ne_zero hdi (by norm_num)
  rw [mul_assoc, this]; ring

theorem removed_iff {ps : List FsRamp} (hn : (ps.map (·.unit)).Nodup) (mode : FsRamp → Nat) (u : String) :
    (decide (u ∉ (ps.filter (fun p => decide (mode p = 0 ∨ mode p = 1 ∨ mode p = 2))).map (·.unit))) =
      (match ps.find? (fun p => decide (p.unit = u)) with | none => true | some p => !decide (mode p ≤ 2)) := by
  rcases find?_unit hn (u := u) with ⟨e, hno⟩ | ⟨p, e, hp, hpu, huniq⟩
  · rw [e]
    simp only [decide_eq_true_eq, List.mem_map, List.mem_filter]
    rintro ⟨q, ⟨hq, _⟩, hu⟩
    exact hno q hq hu
  · rw [e, Bool.eq_iff_iff]
    simp only [decide_eq_true_eq, List.mem_map, List.mem_filter, Bool.not_eq_true', decide_eq_false_iff_not]
    constructor
    · intro h hc
      exact h ⟨p, ⟨hp, by omega⟩, hpu⟩
    · rintro h ⟨q, ⟨hq, hm⟩, hu⟩
      rw [huniq q hq hu] at hm
      omega

/-- the rows after the fast start adjustment, as limits -/
theorem ord_sum {rs ord : List RampRow} {rt : RunType} {ps : Option (List FsRamp)} {di : ℚ}
    (hn : ∀ p, rt ≠ .noFastStart → ps = some p → (p.map (·.unit)).Nodup) (hdi : di ≠ 0)
    (h : adjustForFastStart rs rt ps di = .ok ord) (F : String → DType → ℚ → ℚ) :
    (ord.map (fun q => F q.unit q.dtype (q.init + q.up * (di / 60)))).sum =
      (rs.map (fun r => ((upLimit rt (ps.getD []) di r.init r.up r.unit).toList.map (F r.unit r.dtype)).sum)).sum ∧
    (ord.map (fun q => F q.unit q.dtype (q.init - q.down * (di / 60)))).sum =
      (rs.map (fun r => ((downLimit rt (ps.getD []) di r.init r.down r.unit).toList.map (F r.unit r.dtype)).sum)).sum := by
  cases rt with
  | other => simp [adjustForFastStart] at h
  | noFastStart =>
    simp only [adjustForFastStart, Except.ok.injEq] at h
    subst h
    simp [upLimit, downLimit]
  | first =>
    cases ps with
    | none => simp [adjustForFastStart] at h
    | some ps =>
      have hn := hn ps (by simp) rfl
      simp only [adjustForFastStart, Except.ok.injEq] at h
      subst h
      simp only [Option.getD_some, removeStarting012, sum_filter_list, removed_iff hn FsRamp.curMode]
      constructor <;> apply sum_map_congr <;> intro r _
      · unfold upLimit
        cases ps.find? (fun p => decide (p.unit = r.unit)) with
        | none => simp
        | some p => by_cases hc : p.curMode ≤ 2 <;> simp [hc]
      · unfold downLimit
        cases ps.find? (fun p => decide (p.unit = r.unit)) with
        | none => simp
        | some p => by_cases hc : p.curMode ≤ 2 <;> simp [hc]
  | second =>
    cases ps with
    | none => simp [adjustForFastStart] at h
    | some ps =>
      have hn := hn ps (by simp) rfl
      simp only [adjustForFastStart, Except.ok.injEq] at h
      subst h
      have hp := modeThreeFour_perm (rs := removeEnding012 rs ps) hn di
      rw [sum_perm hp, sum_perm hp]
      simp only [List.map_map, Option.getD_some, removeEnding012, sum_filter_list, removed_iff hn FsRamp.endMode]
      constructor <;> apply sum_map_congr <;> intro r _ <;> simp only [Function.comp, startedRow]
      · unfold upLimit
        cases ps.find? (fun p => decide (p.unit = r.unit)) with
        | none => simp
        | some p =>
          by_cases hc : p.endMode ≤ 2
          · simp [hc]
          · cases hs : p.since with
            | none => simp [hc, hs]
            | some s => simp [hc, hs, adjustedUp_value hdi]
      · unfold downLimit
        cases ps.find? (fun p => decide (p.unit = r.unit)) with
        | none => simp
        | some p =>
          by_cases hc : p.endMode ≤ 2
          · simp [hc]
          · cases hs : p.since <;> simp [hc, hs]

theorem ord_unit {rs ord : List RampRow} {rt : RunType} {ps : Option (List FsRamp)} {di : ℚ} (h : adjustForFastStart rs rt ps di = .ok ord)
    {q : RampRow} (hq : q ∈ ord) : ∃ r ∈ rs, r.unit = q.unit := by
  have mt : ∀ (rs : List RampRow) (ps : List FsRamp), q ∈ adjustModeThreeFour rs ps di → ∃ r ∈ rs, r.unit = q.unit := by
    intro rs ps hq
    simp only [adjustModeThreeFour, List.mem_append, List.mem_flatMap, List.mem_filterMap, List.mem_filter] at hq
    rcases hq with ⟨r, hr, p, _, hp⟩ | ⟨hq, _⟩
    · obtain ⟨s, _, rfl⟩ := Option.map_eq_some_iff.1 hp
      exact ⟨r, hr, rfl⟩
    · exact ⟨q, hq, rfl⟩
  unfold adjustForFastStart at h
  split at h
  · injection h with h; subst h; exact ⟨q, hq, rfl⟩
  all_goals first | cases h | (injection h with h; subst h)
  · exact ⟨q, (List.mem_filter.1 hq).1, rfl⟩
  · obtain ⟨r, hr, e⟩ := mt _ _ hq
    exact ⟨r, (List.mem_filter.1 hr).1, e⟩

/-- the composite rates of the bidirectional units -/
def biRates (m : Market) (rs : List RampRow) (sc : Option (List Scada)) : List BiRamp :=
  scadaOpt adjustForScadaBi (compositeRampRates rs m.di m.bidi).2 sc

theorem biRates_same {a m : Market} (hu : a.units = m.units) (hd : a.di = m.di) (rs : List RampRow) (sc : Option (List Scada)) :
    biRates a rs sc = biRates m rs sc := by
  unfold biRates Market.bidi
  rw [hu, hd]

/-- the sets the call makes elastic -/
def rampKeys (m : Market) (rs : List RampRow) (sc : Option (List Scada)) : List CKey :=
  if biRates m rs sc = [] then [.rampUp, .rampDown] else [.rampUp, .rampDown, .biRampUp, .biRampDown]

theorem ramp_several (m : Market) (rs : List RampRow) (sc : Option (List Scada)) (ps : Option (List FsRamp)) (rt : RunType)
    (vc : VCost) : Several [] m (.rampRates rs sc ps rt (some vc)) (.rampRates rs sc ps rt none) (rampKeys m rs sc) vc := by
  intro a hu hdi _ hno hok
  have hn := step_ok hok
  have hbr := biRates_same hu hdi rs sc
  have n1 := hno .biRampUp (by simp [Op.parts])
  have n2 := hno .biRampDown (by simp [Op.parts])
  simp only [Market.step, hn, Market.setRampRates, Bool.false_eq_true, if_false] at hok ⊢
  repeat' split at hok
  all_goals try (simp at hok; done)
  rename_i c1 c2 c3 c4 _ ord ho
  simp only [c1, c2, c3, c4, Bool.false_eq_true, if_false, ho]
  change ((a.addUnitSet .rampUp (rampUpConstraints ord a.nextCon a.di)).andThen (fun m =>
        (m.addUnitSet .rampDown (rampDownConstraints ord m.nextCon m.di)).andThen (fun m =>
          (m.addBiRamps (biRates a rs sc)).andThen (fun m => m.elasticRamps (some vc))))).2 = none at hok
  change ((a.addUnitSet .rampUp (rampUpConstraints ord a.nextCon a.di)).andThen (fun m =>
        (m.addUnitSet .rampDown (rampDownConstraints ord m.nextCon m.di)).andThen (fun m =>
          (m.addBiRamps (biRates a rs sc)).andThen (fun m => m.elasticRamps none)))).2 = none ∧
    Accepted ((a.addUnitSet .rampUp (rampUpConstraints ord a.nextCon a.di)).andThen (fun m =>
        (m.addUnitSet .rampDown (rampDownConstraints ord m.nextCon m.di)).andThen (fun m =>
          (m.addBiRamps (biRates a rs sc)).andThen (fun m => m.elasticRamps none)))).1 _ ∧
    ((a.addUnitSet .rampUp (rampUpConstraints ord a.nextCon a.di)).andThen (fun m =>
        (m.addUnitSet .rampDown (rampDownConstraints ord m.nextCon m.di)).andThen (fun m =>
          (m.addBiRamps (biRates a rs sc)).andThen (fun m => m.elasticRamps (some vc))))).1 =
      ((a.addUnitSet .rampUp (rampUpConstraints ord a.nextCon a.di)).andThen (fun m =>
        (m.addUnitSet .rampDown (rampDownConstraints ord m.nextCon m.di)).andThen (fun m =>
          (m.addBiRamps (biRates a rs sc)).andThen (fun m => m.elasticRamps none)))).1.run _ ∧
    ∀ k, _ → _ → Blank k ((a.addUnitSet .rampUp (rampUpConstraints ord a.nextCon a.di)).andThen (fun m =>
        (m.addUnitSet .rampDown (rampDownConstraints ord m.nextCon m.di)).andThen (fun m =>
          (m.addBiRamps (biRates a rs sc)).andThen (fun m => m.elasticRamps (some vc))))).1
  have n1 := n1.unitSet (k' := .rampUp) (by simp) (rampUpConstraints ord a.nextCon a.di)
  have n2 := n2.unitSet (k' := .rampUp) (by simp) (rampUpConstraints ord a.nextCon a.di)
  have q1 := nanCon_unitSet a .rampUp (rampUpConstraints ord a.nextCon a.di)
  generalize (a.addUnitSet .rampUp (rampUpConstraints ord a.nextCon a.di)) = b1 at *
  obtain ⟨o1, e1⟩ := andThen_ok hok
  have d1 : ∀ F : Market → Res, b1.andThen F = F b1.1 := by intro F; unfold Res.andThen; rw [o1]
  simp only [d1] at hok ⊢
  have n1 := n1.unitSet (k' := .rampDown) (by simp) (rampDownConstraints ord b1.1.nextCon b1.1.di)
  have n2 := n2.unitSet (k' := .rampDown) (by simp) (rampDownConstraints ord b1.1.nextCon b1.1.di)
  have q2 := nanCon_unitSet b1.1 .rampDown (rampDownConstraints ord b1.1.nextCon b1.1.di)
  generalize (b1.1.addUnitSet .rampDown (rampDownConstraints ord b1.1.nextCon b1.1.di)) = b2 at *
  obtain ⟨o2, e2⟩ := andThen_ok hok
  have d2 : ∀ F : Market → Res, b2.andThen F = F b2.1 := by intro F; unfold Res.andThen; rw [o2]
  simp only [d2] at hok ⊢
  have nn : b2.1.nanCon = false := by rw [q2, q1, hn]
  unfold rampKeys
  rw [hbr] at hok ⊢
  by_cases he : biRates m rs sc = []
  · rw [if_pos he]
    rw [he] at hok ⊢
    have e3 : ∀ v, (b2.1.addBiRamps []).andThen (fun m => m.elasticRamps v) = b2.1.elasticRamps v := by intro v; rfl
    simp only [e3] at hok ⊢
    obtain ⟨p1, p2, p3, p4⟩ := elastic_pair nn n1 n2 (k1 := .rampUp) (k2 := .rampDown) (by simp) (by simp) hok
    refine ⟨rfl, p1, p2, ?_⟩
    intro k hk hnk
    have p2' : (b2.1.elasticRamps (some vc)).1 = _ := p2
    rw [p2']
    simp only [Op.parts, List.mem_cons, Part.set.injEq, List.not_mem_nil, or_false] at hk
    rcases hk with rfl | rfl | rfl | rfl
    · simp at hnk
    · simp at hnk
    · exact p3
    · exact p4
  · rw [if_neg he]
    have hemp : (biRates m rs sc).isEmpty = false := by cases h : biRates m rs sc <;> simp_all
    have ea : b2.1.addBiRamps (biRates m rs sc) = (b2.1.addUnitSet .biRampUp (biRampConstraints (biRates m rs sc) true b2.1.nextCon b2.1.di)).andThen (fun b =>
        b.addUnitSet .biRampDown (biRampConstraints (biRates m rs sc) false b.nextCon b.di)) := by
      unfold Market.addBiRamps; rw [hemp, if_neg (by simp)]
    rw [ea] at hok ⊢
    obtain ⟨o3, e3⟩ := andThen_ok hok
    obtain ⟨o4, e4⟩ := andThen_ok o3
    rw [e4] at o3 e3 hok ⊢
    have g1 := addUnitSet_get b2.1 .biRampUp (biRampConstraints (biRates m rs sc) true b2.1.nextCon b2.1.di)
    have q3 := nanCon_unitSet b2.1 .biRampUp (biRampConstraints (biRates m rs sc) true b2.1.nextCon b2.1.di)
    generalize (b2.1.addUnitSet .biRampUp (biRampConstraints (biRates m rs sc) true b2.1.nextCon b2.1.di)) = b3 at *
    have g2 := addUnitSet_get b3.1 .biRampDown (biRampConstraints (biRates m rs sc) false b3.1.nextCon b3.1.di)
    have q4 := nanCon_unitSet b3.1 .biRampDown (biRampConstraints (biRates m rs sc) false b3.1.nextCon b3.1.di)
    generalize (b3.1.addUnitSet .biRampDown (biRampConstraints (biRates m rs sc) false b3.1.nextCon b3.1.di)) = b4 at *
    have d4 : ∀ F : Market → Res, b4.andThen F = F b4.1 := by intro F; unfold Res.andThen; rw [o3]
    simp only [d4] at hok ⊢
    obtain ⟨p1, p2⟩ := elastic_four (by rw [q4, q3, nn]) (k1 := .rampUp) (k2 := .rampDown) (b1 := .biRampUp) (b2 := .biRampDown)
      (by unfold Dict.has; rw [g2.1, Dict.get?_set_ne _ _ (by simp), g1.1, Dict.get?_set_self]; rfl)
      (by unfold Dict.has; rw [g2.1, Dict.get?_set_self]; rfl) hok
    refine ⟨rfl, p1, p2, ?_⟩
    intro k hk hnk
    simp only [Op.parts, List.mem_cons, Part.set.injEq, List.not_mem_nil, or_false] at hk hnk
    exact absurd hk hnk

theorem ramp_hasRows {a : Market} {rs : List RampRow} {sc : Option (List Scada)} {ps : Option (List FsRamp)} {rt : RunType}
    (hok : (a.step (.rampRates rs sc ps rt none)).2 = none) :
    HasRows .rampUp (a.step (.rampRates rs sc ps rt none)).1 ∧ HasRows .rampDown (a.step (.rampRates rs sc ps rt none)).1 := by
  have hn := step_ok hok
  simp only [Market.step, hn, Market.setRampRates, Bool.false_eq_true, if_false] at hok ⊢
  repeat' split at hok
  all_goals try (simp at hok; done)
  rename_i c1 c2 c3 c4 _ ord ho
  simp only [c1, c2, c3, c4, Bool.false_eq_true, if_false, ho]
  obtain ⟨o1, e1⟩ := andThen_ok hok
  rw [e1] at hok ⊢
  obtain ⟨o2, e2⟩ := andThen_ok hok
  rw [e2] at hok ⊢
  have r1 : HasRows .rampUp _ := HasRows.add o2 (Or.inr (HasRows.add o1 (Or.inl rfl)))
  have r2 : HasRows .rampDown _ := HasRows.add o2 (Or.inl rfl)
  generalize (Market.addUnitSet (Market.addUnitSet a CKey.rampUp _).1 CKey.rampDown _) = b2 at *
  obtain ⟨o3, e3⟩ := andThen_ok hok
  rw [e3]
  show HasRows _ (b2.1.addBiRamps _).1 ∧ HasRows _ (b2.1.addBiRamps _).1
  generalize scadaOpt adjustForScadaBi _ sc = B at *
  unfold Market.addBiRamps at o3 ⊢
  split at o3
  · rename_i h; rw [if_pos h]; exact ⟨r1, r2⟩
  · rename_i h
    rw [if_neg h]
    obtain ⟨o4, e4⟩ := andThen_ok o3
    rw [e4] at o3 ⊢
    exact ⟨HasRows.add o3 (Or.inr (HasRows.add o4 (Or.inr r1))), HasRows.add o3 (Or.inr (HasRows.add o4 (Or.inr r2)))⟩

/-- the entries of the rows for bidirectional units -/
theorem biRamp_entries {rs : List BiRamp} (hn : (rs.map (·.unit)).Nodup) (isUp : Bool) (n : Nat) (di : ℚ) :
    Entries (biRampConstraints rs isUp n di) (saveIndex rs n (fun i r => (Row.mk i (if isUp then .le else .ge)
        (if isUp then r.init + r.up * (di / 60) else r.init - r.down * (di / 60)) none none,
      [ConUnit.mk i r.unit .energy .load 1, ConUnit.mk i r.unit .energy .generator 1]))) where
  rows := by rw [biRamp_map hn, map_saveIndex]
  maps := by
    rw [biRamp_map hn]
    have := flatten_pair rs n (fun i r => ConUnit.mk i r.unit .energy .load 1) (fun i r => ConUnit.mk i r.unit .energy .generator 1)
    rw [List.flatMap_def, map_saveIndex]
    exact this
  own := by
    intro e he c hc
    obtain ⟨i, r, _, rfl⟩ := mem_saveIndex.1 he
    simp only [List.mem_cons, List.not_mem_nil, or_false] at hc
    rcases hc with rfl | rfl <;> rfl
  nodup := (freshUnit_biRamp rs isUp n di).nodup

/-- the composite rates, one for each pair of sides -/
def pairRate (di : ℚ) (g l : RampRow) : BiRamp :=
  ⟨l.unit, compositeDown di g.init l.up g.down, compositeUp di l.init g.up l.down, l.init⟩

theorem composite_pairs {m : Market} {rs : List RampRow} (hn : (rs.map (fun r => (r.unit, r.dtype))).Nodup) (F : BiRamp → ℚ) :
    ((compositeRampRates rs m.di m.bidi).2.map F).sum =
      (rs.map (fun g => (rs.map (fun l => if m.sides g l then F (pairRate m.di g l) else 0)).sum)).sum := by
  have hrs : rs.Nodup := List.Nodup.of_map _ hn
  have hp : (compositeRampRates rs m.di m.bidi).2.Perm
      (rs.flatMap (fun g => (rs.filter (fun l => decide (m.sides g l))).map (pairRate m.di g))) := by
    rw [List.perm_ext_iff_of_nodup (List.Nodup.of_map _ (composite_nodup hn))]
    · intro b
      rw [mem_composite hn]
      simp only [List.mem_flatMap, List.mem_map, List.mem_filter, decide_eq_true_eq]
      unfold Market.sides pairRate
      constructor
      · rintro ⟨g, hg, l, hl, h1, h2, h3, h4, rfl⟩
        exact ⟨g, hg, l, ⟨hl, h1, h2, h3, h4⟩, rfl⟩
      · rintro ⟨g, hg, l, ⟨hl, h1, h2, h3, h4⟩, rfl⟩
        exact ⟨g, hg, l, hl, h1, h2, h3, h4, rfl⟩
    · rw [List.nodup_flatMap]
      constructor
      · intro g _
        refine List.Nodup.map_on ?_ (hrs.filter _)
        intro l hl l' hl' e
        simp only [List.mem_filter, decide_eq_true_eq] at hl hl'
        unfold Market.sides at hl hl'
        have eu : l.unit = l'.unit := congrArg BiRamp.unit e
        exact List.inj_on_of_nodup_map hn hl.1 hl'.1 (by simp [eu, hl.2.2.2.2, hl'.2.2.2.2])
      · refine List.Pairwise.imp_of_mem (R := fun a b => a ≠ b) ?_ hrs
        intro g g' hg hg' hne b hb hb'
        simp only [List.mem_map, List.mem_filter, decide_eq_true_eq] at hb hb'
        unfold Market.sides at hb hb'
        obtain ⟨l, ⟨_, _, u1, t1, _⟩, rfl⟩ := hb
        obtain ⟨l', ⟨_, _, u2, t2, _⟩, e⟩ := hb'
        have eu : l'.unit = l.unit := congrArg BiRamp.unit e
        exact hne (List.inj_on_of_nodup_map hn hg hg' (by simp [u1, u2, eu, t1, t2]))
  rw [sum_perm hp, sum_map_flatMap]
  apply sum_map_congr
  intro g _
  rw [List.map_map, sum_filter_list]
  simp [Function.comp_def]

theorem tighter_reach_up {init t a : ℚ} (ht : 0 ≤ t) (b : Option ℚ) :
    init + tighter a b * t = (match b with | none => init + a * t | some v => min (init + a * t) (init + v * t)) := by
  cases b with
  | none => rfl
  | some v =>
    simp only [tighter]
    split
    · rename_i h
      rw [min_eq_right]
      have := mul_le_mul_of_nonneg_right h ht
      linarith
    · rename_i h
      rw [min_eq_left]
      have := mul_le_mul_of_nonneg_right (le_of_lt (not_le.1 h)) ht
      linarith

theorem tighter_reach_down {init t a : ℚ} (ht : 0 ≤ t) (b : Option ℚ) :
    init - tighter a b * t = (match b with | none => init - a * t | some v => max (init - a * t) (init - v * t)) := by
  cases b with
  | none => rfl
  | some v =>
    simp only [tighter]
    split
    · rename_i h
      rw [max_eq_right]
      have := mul_le_mul_of_nonneg_right h ht
      linarith
    · rename_i h
      rw [max_eq_left]
      have := mul_le_mul_of_nonneg_right (le_of_lt (not_le.1 h)) ht
      linarith

/-- what a pair of sides may reach -/
theorem pair_reach {m : Market} {rs : List RampRow} (sc : Option (List Scada))
    (hs : ∀ r ∈ rs, r.unit ∈ m.bidi → 0 < m.di ∧ 0 ≤ r.up ∧ 0 ≤ r.down ∧ ∀ q ∈ rs, q.unit = r.unit → q.init = r.init)
    {g l : RampRow} (hg : g ∈ rs) (hl : l ∈ rs) (h : m.sides g l) :
    (pairRate m.di g l).init + tighter (pairRate m.di g l).up (scadaRate sc Scada.up l.unit) * (m.di / 60) = highest sc m.di g l ∧
    (pairRate m.di g l).init - tighter (pairRate m.di g l).down (scadaRate sc Scada.down l.unit) * (m.di / 60) = lowest sc m.di g l := by
  obtain ⟨h1, h2, h3, h4⟩ := h
  obtain ⟨hdi, _, gd, gi⟩ := hs g hg h1
  obtain ⟨_, _, ld, _⟩ := hs l hl (h2 ▸ h1)
  have ei := gi l hl h2.symm
  have ht : 0 ≤ m.di / 60 := div_nonneg hdi.le (by norm_num)
  have e := C09_composite_rate_is_trajectory (init := g.init) hdi (gUp := g.up) (gDown := g.down) (lUp := l.up) (lDown := l.down) ld gd
  rw [tighter_reach_up ht, tighter_reach_down ht]
  unfold highest lowest pairRate
  dsimp only
  rw [ei, e.1, e.2, h2]
  exact ⟨rfl, rfl⟩

theorem MadeBy.ramp_priced {ops : List Op} {m : Market} (h : MadeBy ops m) {rs : List RampRow} {sc : Option (List Scada)}
    {ps : Option (List FsRamp)} {rt : RunType} {c : ℚ} (ho : Op.rampRates rs sc ps rt (some (.num c)) ∈ ops) (hc : 0 ≤ c) :
    ∃ L, PricedBy m ops (.rampRates rs sc ps rt (some (.num c))) L := by
  have hsuit : ∀ r ∈ rs, r.unit ∈ m.bidi → 0 < m.di ∧ 0 ≤ r.up ∧ 0 ≤ r.down ∧ ∀ q ∈ rs, q.unit = r.unit → q.init = r.init := h.oneWay _ ho
  have hkin : ∀ k ∈ rampKeys m rs sc, Part.set k ∈ (Op.rampRates rs sc ps rt (some (.num c))).parts := by
    intro k hk
    unfold rampKeys at hk
    split at hk <;> simp only [List.mem_cons, List.not_mem_nil, or_false] at hk <;> simp only [Op.parts, List.mem_cons, Part.set.injEq] <;> tauto
  obtain ⟨⟨m1, i1, i2, i3, _, i4, a, a1, _, a2, a3⟩, hk, hno⟩ := several_before h ho [] (by simp) (ramp_several m rs sc ps rt (.num c)) rfl
    hkin (by unfold rampKeys; split <;> decide) (fun a ha => ha)
  obtain ⟨s0, s1, s2, ord, n1, n2, ho', hu, hd, hbi⟩ := ramp_imposed (show InForce _ m1 from i1)
  have hdi : m.di ≠ 0 := h.di ho (fun a ha => ha)
  have hb1 : m1.bidi = m.bidi := by unfold Market.bidi; rw [i2]
  rw [i3] at ho' hu hd
  rw [hb1, scadaOpt_ord s1] at ho'
  obtain ⟨r1, r2⟩ := ramp_hasRows a2
  rw [← a3] at r1 r2
  have hko : CKey.rampUp ∈ rampKeys m rs sc ∧ CKey.rampDown ∈ rampKeys m rs sc := by
    unfold rampKeys; split <;> simp
  obtain ⟨u1, u2, _⟩ := i4 .rampUp (by simp [Op.parts])
  obtain ⟨d1, d2, _⟩ := i4 .rampDown (by simp [Op.parts])
  obtain ⟨k1, p1, q1⟩ := unitPiece h.wf (k := .rampUp) rfl (hk _ hko.1) hc (lim_entries _ _ _ (by simp)) (u1.trans hu.rhs)
    (u2.trans hu.map) (r1 _ hu.rhs)
  obtain ⟨k2, p2, q2⟩ := unitPiece h.wf (k := .rampDown) rfl (hk _ hko.2) hc (lim_entries _ _ _ (by simp)) (d1.trans hd.rhs)
    (d2.trans hd.map) (r2 _ hd.rhs)
  have hord : ∀ q ∈ ord, q.unit ∉ m.bidi := by
    intro q hq
    obtain ⟨r, hr, e⟩ := ord_unit ho' hq
    obtain ⟨r', hr', rfl⟩ := List.mem_map.1 hr
    rw [← e]
    simpa [compositeRampRates] using (List.mem_filter.1 hr').2
  have base : ∀ x, m.violationCost .rampUp (.num c) x + m.violationCost .rampDown (.num c) x =
      ((rs.flatMap (fun r => if r.unit ∈ m.bidi then [] else
      (upLimit rt (ps.getD []) m.di r.init (tighter r.up (scadaRate sc Scada.up r.unit)) r.unit).toList.map (fun L =>
        (c, max 0 (m.output x r.unit .energy r.dtype - L))) ++
      (downLimit rt (ps.getD []) m.di r.init (tighter r.down (scadaRate sc Scada.down r.unit)) r.unit).toList.map (fun L =>
        (c, max 0 (L - m.output x r.unit .energy r.dtype))))).map (fun a => a.1 * a.2)).sum := by
    intro x
    obtain ⟨f1, _⟩ := ord_sum s2 hdi ho' (fun u d L => max 0 (m.output x u .energy d - L))
    obtain ⟨_, f2⟩ := ord_sum s2 hdi ho' (fun u d L => max 0 (L - m.output x u .energy d))
    rw [q1, q2, sum_limits h.wf (by intro l hl; obtain ⟨q, hq, rfl⟩ := List.mem_map.1 hl; exact hord q hq),
      sum_limits h.wf (by intro l hl; obtain ⟨q, hq, rfl⟩ := List.mem_map.1 hl; exact hord q hq)]
    simp only [Function.comp_def, CType.violation, f1, f2, List.map_map, compositeRampRates, sum_filter_list]
    rw [← mul_add, ← sum_map_add, ← sum_map_mul_left, sum_map_flatMap]
    apply sum_map_congr
    intro r _
    by_cases hb : r.unit ∈ m.bidi
    · simp [hb]
    · simp only [hb, not_false_eq_true, decide_true, if_true, if_false, List.map_append, List.sum_append, List.map_map, Function.comp_def, sum_map_mul_left]
      ring
  by_cases he : biRates m rs sc = []
  · have hK : rampKeys m rs sc = [.rampUp, .rampDown] := by unfold rampKeys; rw [if_pos he]
    have hns : ∀ g ∈ rs, ∀ l ∈ rs, ¬ m.sides g l := by
      intro g hg l hl hs
      have hm := (mem_composite (di := m.di) s0 (b := pairRate m.di g l)).2 ⟨g, hg, l, hl, hs.1, hs.2.1, hs.2.2.1, hs.2.2.2, rfl⟩
      unfold biRates at he
      rw [scadaOpt_bi s1, List.map_eq_nil_iff] at he
      rw [he] at hm
      simp at hm
    refine ⟨[⟨.rampUp, .num c, k1⟩, ⟨.rampDown, .num c, k2⟩], ?_, ?_, by simp, ?_, ?_⟩
    · intro p hp
      simp only [List.mem_cons, List.not_mem_nil, or_false] at hp
      rcases hp with rfl | rfl
      · exact p1
      · exact p2
    · intro p hp
      simp only [List.mem_cons, List.not_mem_nil, or_false] at hp
      rcases hp with rfl | rfl <;> simp [Op.parts]
    · intro k hk hn
      obtain ⟨_, b, c, d⟩ := hno k hk (by rw [hK]; simpa using hn)
      exact ⟨b, d, c⟩
    · intro x
      have hz : rs.flatMap (fun g => rs.flatMap (fun l => if m.sides g l then
        [(c, max 0 (m.netOutput x g.unit - highest sc m.di g l)), (c, max 0 (lowest sc m.di g l - m.netOutput x g.unit))] else [])) = [] := by
        rw [List.flatMap_eq_nil_iff]
        intro g hg
        rw [List.flatMap_eq_nil_iff]
        intro l hl
        rw [if_neg (hns g hg l hl)]
      simp only [Op.misses, hz, List.append_nil, ← base x]
      simp
  · have hK : rampKeys m rs sc = [.rampUp, .rampDown, .biRampUp, .biRampDown] := by unfold rampKeys; rw [if_neg he]
    obtain ⟨n3, n4, hbu, hbd⟩ := hbi (by rw [hb1, i3]; exact he)
    rw [hb1, i3] at hbu hbd
    change Imposed m1 .biRampUp (biRampConstraints (biRates m rs sc) true n3 m.di) at hbu
    change Imposed m1 .biRampDown (biRampConstraints (biRates m rs sc) false n4 m.di) at hbd
    have hnd : ((biRates m rs sc).map (·.unit)).Nodup := by
      unfold biRates
      rw [scadaOpt_bi s1, List.map_map]
      exact composite_nodup s0
    have hne : ∀ isUp n, (biRampConstraints (biRates m rs sc) isUp n m.di).1 ≠ [] := by
      intro isUp n hc
      rw [biRamp_map hnd] at hc
      cases hbr : biRates m rs sc with
      | nil => exact he hbr
      | cons b l => rw [hbr] at hc; simp [saveIndex] at hc
    obtain ⟨bu1, bu2, _⟩ := i4 .biRampUp (by simp [Op.parts])
    obtain ⟨bd1, bd2, _⟩ := i4 .biRampDown (by simp [Op.parts])
    obtain ⟨k3, p3, q3⟩ := unitPiece h.wf (k := .biRampUp) rfl (hk _ (by simp [hK])) hc (biRamp_entries hnd _ _ _) (bu1.trans hbu.rhs)
      (bu2.trans hbu.map) (hne _ _)
    obtain ⟨k4, p4, q4⟩ := unitPiece h.wf (k := .biRampDown) rfl (hk _ (by simp [hK])) hc (biRamp_entries hnd _ _ _) (bd1.trans hbd.rhs)
      (bd2.trans hbd.map) (hne _ _)
    have hbm : ∀ b ∈ biRates m rs sc, b.unit ∈ m.bidi := by
      intro b hb
      unfold biRates at hb
      rw [scadaOpt_bi s1] at hb
      obtain ⟨b', hb', rfl⟩ := List.mem_map.1 hb
      obtain ⟨g, _, l, _, e1, e2, _, _, rfl⟩ := (mem_composite s0).1 hb'
      show l.unit ∈ m.bidi
      rw [← e2]; exact e1
    have hnet : ∀ (x : Nat → ℚ) (u : String), u ∈ m.bidi → ∀ i, m.entryVal x [ConUnit.mk i u .energy .load 1, ConUnit.mk i u .energy .generator 1] = m.netOutput x u := by
      intro x u hu i
      simp only [Market.entryVal, List.map_cons, List.map_nil, List.sum_cons, List.sum_nil, mapVal_side h.wf]
      unfold Market.side Market.netOutput
      rw [output_listed (bidi_lists h.wf hu _), output_listed (bidi_lists h.wf hu _)]
      simp [hu]
      ring
    refine ⟨[⟨.rampUp, .num c, k1⟩, ⟨.rampDown, .num c, k2⟩, ⟨.biRampUp, .num c, k3⟩, ⟨.biRampDown, .num c, k4⟩], ?_, ?_, by simp, ?_, ?_⟩
    · intro p hp
      simp only [List.mem_cons, List.not_mem_nil, or_false] at hp
      rcases hp with rfl | rfl | rfl | rfl
      · exact p1
      · exact p2
      · exact p3
      · exact p4
    · intro p hp
      simp only [List.mem_cons, List.not_mem_nil, or_false] at hp
      rcases hp with rfl | rfl | rfl | rfl <;> simp [Op.parts]
    · intro k hk hn
      obtain ⟨_, b, c, d⟩ := hno k hk (by rw [hK]; simpa using hn)
      exact ⟨b, d, c⟩
    · intro x
      have up : m.violationCost .biRampUp (.num c) x = (rs.map (fun g => (rs.map (fun l => if m.sides g l then
          c * max 0 (m.netOutput x g.unit - highest sc m.di g l) else 0)).sum)).sum := by
        rw [q3, sum_indexed_mem (h := fun b : BiRamp => max 0 (m.netOutput x b.unit - (b.init + b.up * (m.di / 60))))]
        · unfold biRates
          rw [scadaOpt_bi s1, List.map_map, ← sum_map_mul_left, composite_pairs s0]
          apply sum_map_congr
          intro g hg
          apply sum_map_congr
          intro l hl
          by_cases hs : m.sides g l
          · rw [if_pos hs, if_pos hs]
            have := (pair_reach sc hsuit hg hl hs).1
            simp only [Function.comp]
            show c * max 0 (m.netOutput x l.unit - ((pairRate m.di g l).init + tighter (pairRate m.di g l).up (scadaRate sc Scada.up l.unit) * (m.di / 60))) = _
            rw [this, hs.2.1]
          · rw [if_neg hs, if_neg hs]
        · intro i b hb
          simp only [if_true, CType.violation, hnet x _ (hbm b hb)]
      have down : m.violationCost .biRampDown (.num c) x = (rs.map (fun g => (rs.map (fun l => if m.sides g l then
          c * max 0 (lowest sc m.di g l - m.netOutput x g.unit) else 0)).sum)).sum := by
        rw [q4, sum_indexed_mem (h := fun b : BiRamp => max 0 ((b.init - b.down * (m.di / 60)) - m.netOutput x b.unit))]
        · unfold biRates
          rw [scadaOpt_bi s1, List.map_map, ← sum_map_mul_left, composite_pairs s0]
          apply sum_map_congr
          intro g hg
          apply sum_map_congr
          intro l hl
          by_cases hs : m.sides g l
          · rw [if_pos hs, if_pos hs]
            have := (pair_reach sc hsuit hg hl hs).2
            simp only [Function.comp]
            show c * max 0 (((pairRate m.di g l).init - tighter (pairRate m.di g l).down (scadaRate sc Scada.down l.unit) * (m.di / 60)) - m.netOutput x l.unit) = _
            rw [this, hs.2.1]
          · rw [if_neg hs, if_neg hs]
        · intro i b hb
          simp only [Bool.false_eq_true, if_false, CType.violation, hnet x _ (hbm b hb)]
      simp only [Op.misses, List.map_append, List.sum_append, ← base x, List.map_cons, List.map_nil, List.sum_cons, List.sum_nil, up, down]
      rw [add_zero, add_assoc]
      congr 1
      congr 1
      rw [← sum_map_add, sum_map_flatMap]
      apply sum_map_congr
      intro g _
      rw [← sum_map_add, sum_map_flatMap]
      apply sum_map_congr
      intro l _
      by_cases hs : m.sides g l <;> simp [hs]

end Verif
