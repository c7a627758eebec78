import Verif.Proofs.FastStartModes

/-!
# C56: the end mode of fast start units
-/

namespace Verif.Units

/-- **C56** (partial: units that are off have spent no time in mode zero).  `get_fast_start_profiles_for_dispatch`
returns one row for each fast start unit and row of energy dispatch of it, up to the order.  The row gives the mode and
the time in it that are reached by following the profile for five minutes, starting mode one now if the unit is off and
has a positive dispatch.  `time_since_end_of_mode_two` is given when mode two ends in the interval and is the rest of
the interval after that.  By `C56_unique` this determines the row. -/
theorem C56_follows_partial (ps : List Profile) (ds : List DispatchRow)
    (hm : ∀ p ∈ ps, p.mode ≤ 4) (h0 : ∀ p ∈ ps, p.mode = 0 → p.time = 0) :
    ∃ out : Profile × DispatchRow → ModeOut,
      (updateModes ps ds).Perm ((mergeDispatch ps ds).map out) ∧
      (∀ q, q ∈ mergeDispatch ps ds ↔ q.1 ∈ ps ∧ q.2 ∈ ds ∧ q.2.service = .energy ∧ q.2.unit = q.1.unit) ∧
      ∀ q ∈ mergeDispatch ps ds, (out q).profile = q.1 ∧
        Follows q.1 (q.1.start q.2.dispatch).1 (q.1.start q.2.dispatch).2 5 (out q).endMode (out q).endTime ∧
        ((out q).since2 =
          if 1 ≤ (q.1.start q.2.dispatch).1 ∧ (q.1.start q.2.dispatch).1 ≤ 2 ∧ 3 ≤ (out q).endMode then
            some ((q.1.start q.2.dispatch).2 + 5 - q.1.span (q.1.start q.2.dispatch).1 3) else none) := by
  have hmem : ∀ q, q ∈ mergeDispatch ps ds ↔ q.1 ∈ ps ∧ q.2 ∈ ds ∧ q.2.service = .energy ∧ q.2.unit = q.1.unit := by
    intro q
    unfold mergeDispatch
    simp only [List.mem_flatMap, List.mem_map, List.mem_filter, decide_eq_true_eq]
    constructor
    · rintro ⟨p, hp, d, ⟨⟨hd, he⟩, hu⟩, rfl⟩
      exact ⟨hp, hd, he, hu⟩
    · rintro ⟨hp, hd, he, hu⟩
      exact ⟨q.1, hp, q.2, ⟨⟨hd, he⟩, hu⟩, rfl⟩
  refine ⟨fun q => follow q.1 q.2.dispatch, updateModes_perm ps ds, hmem, ?_⟩
  intro q hq
  obtain ⟨a, b, c, d⟩ := follow_spec q.1 q.2.dispatch (hm _ ((hmem q).1 hq).1)
    (fun h _ => h0 _ ((hmem q).1 hq).1 h)
  exact ⟨a, b, d⟩

/-- **C56**, one row per unit: with one profile and one row of energy dispatch per unit. -/
theorem C56_one_row (ps : List Profile) (ds : List DispatchRow) (hps : (ps.map (·.unit)).Nodup)
    (hds : ((ds.filter (fun d => decide (d.service = .energy))).map (·.unit)).Nodup) :
    ((updateModes ps ds).map (fun o => o.profile.unit)).Nodup := by
  have hp := (updateModes_perm ps ds).map (fun o => o.profile.unit)
  rw [List.map_map] at hp
  refine hp.nodup_iff.2 ?_
  have hprof : ∀ (p : Profile) (x : ℚ), (follow p x).profile = p := by
    intro p x
    have hst : ∀ m len (r : ModeRow), (r.step m len).profile = r.profile := by
      intro m len r
      unfold ModeRow.step
      split <;> rfl
    unfold follow
    simp only [ModeRow.out, hst]
    rfl
  have : ((fun o : ModeOut => o.profile.unit) ∘ fun q : Profile × DispatchRow => follow q.1 q.2.dispatch) =
      fun q => q.1.unit := by
    funext q
    simp only [Function.comp, hprof]
  rw [this]
  unfold mergeDispatch
  rw [List.map_flatMap]
  clear hp this
  induction ps with
  | nil => simp
  | cons p ps ih =>
    rw [List.map_cons, List.nodup_cons] at hps
    rw [List.flatMap_cons, List.nodup_append]
    refine ⟨?_, ih hps.2, ?_⟩
    · rw [List.map_map]
      generalize ds.filter (fun d => decide (d.service = .energy)) = l at hds
      clear ih hps
      induction l with
      | nil => simp
      | cons a l ihl =>
        rw [List.map_cons, List.nodup_cons] at hds
        rw [List.filter_cons]
        by_cases ha : a.unit = p.unit
        · rw [if_pos (by simpa using ha), List.map_cons, List.nodup_cons]
          have : l.filter (fun d => decide (d.unit = p.unit)) = [] := by
            rw [List.filter_eq_nil_iff]
            intro x hx
            simp only [decide_eq_true_eq]
            intro e
            exact hds.1 (List.mem_map.2 ⟨x, hx, e.trans ha.symm⟩)
          rw [this]
          simp
        · rw [if_neg (by simpa using ha)]
          exact ihl hds.2
    · intro a ha b hb hab
      simp only [List.mem_map, List.mem_filter, List.mem_flatMap] at ha hb
      obtain ⟨_, ⟨d, _, rfl⟩, rfl⟩ := ha
      obtain ⟨p', hp', _, ⟨_, _, rfl⟩, rfl⟩ := hb
      exact hps.1 (List.mem_map.2 ⟨p', hp', hab.symm⟩)

/-- **C56**: following a profile has one result. -/
theorem C56_unique (p : Profile) (m : Nat) (t d : ℚ) (m1 m2 : Nat) (t1 t2 : ℚ) (h1 : Follows p m t d m1 t1)
    (h2 : Follows p m t d m2 t2) : m1 = m2 ∧ t1 = t2 := h1.unique h2

/-- **C56**, no going back and time is conserved: the end mode is not before the start mode, units that are off stay
off, and the time in the end mode is the time in the start mode plus the minutes minus the lengths of the modes passed,
unless it is the length of mode four. -/
theorem C56_conserved (p : Profile) (m : Nat) (t d : ℚ) (m' : Nat) (t' : ℚ) (h : Follows p m t d m' t') :
    m ≤ m' ∧ m' ≤ 4 ∧ (m = 0 → m' = 0 ∧ t' = 0) ∧
    (m ≠ 0 → t' ≤ t + d - p.span m m' ∧ (t' = t + d - p.span m m' ∨ m' = 4 ∧ t' = p.len4)) ∧
    (m' = 4 → t' ≤ p.len4) := by
  refine ⟨h.le.1, h.le.2, ?_, h.conserved, ?_⟩
  · rintro rfl
    cases h with
    | off => exact ⟨rfl, rfl⟩
    | stay _ _ _ h => omega
    | next _ _ _ _ _ h => omega
  · rintro rfl
    generalize hm : (4 : Nat) = m4 at h
    induction h with
    | off => omega
    | stay _ _ _ _ h => omega
    | next m t d m' t' h1 h2 h3 h4 ih => exact ih hm
    | last => exact min_le_right _ _

/-- A unit that is off for 30 minutes, with five minutes in mode one. -/
def offProfile : Profile := ⟨"A", 10, 0, 30, 5, 5, 5, 5⟩

/-- **C56** fails for units with time in mode zero: the time is counted as time in mode one.  The unit below has been off
for thirty minutes and gets a positive dispatch.  Following the profile it spends the next five minutes in mode one, but
the result is mode four. -/
theorem C56_off_time_negation :
    updateModes [offProfile] [⟨"A", .generator, .energy, 10⟩] = [⟨offProfile, 4, 5, some 25⟩] ∧
    Follows offProfile (offProfile.start 10).1 (offProfile.start 10).2 5 1 5 := by
  constructor
  · decide +kernel
  · have : offProfile.start 10 = (1, 0) := by decide +kernel
    rw [this]
    have := Follows.stay (p := offProfile) 1 0 5 (by decide) (by decide) (by decide +kernel)
    rwa [zero_add] at this

/-- Four units: one stays off, one is committed and stays in mode one, one passes from mode one to mode three, one is in
mode four at the cap. -/
example : updateModes
    [⟨"A", 10, 0, 0, 5, 5, 5, 5⟩, ⟨"B", 10, 0, 0, 5, 5, 5, 5⟩, ⟨"C", 10, 1, 3, 4, 2, 5, 5⟩, ⟨"D", 10, 4, 1, 4, 2, 5, 5⟩]
    [⟨"A", .generator, .energy, 0⟩, ⟨"B", .generator, .energy, 7⟩, ⟨"C", .generator, .raiseReg, 1⟩,
      ⟨"C", .generator, .energy, 0⟩, ⟨"D", .generator, .energy, 20⟩] =
    [⟨⟨"C", 10, 1, 3, 4, 2, 5, 5⟩, 3, 2, some 2⟩, ⟨⟨"A", 10, 0, 0, 5, 5, 5, 5⟩, 0, 0, none⟩,
      ⟨⟨"B", 10, 0, 0, 5, 5, 5, 5⟩, 1, 5, none⟩, ⟨⟨"D", 10, 4, 1, 4, 2, 5, 5⟩, 4, 5, none⟩] := by decide +kernel

end Verif.Units
