import Verif.Spec.FastStartModes
import Mathlib.Tactic.Linarith
import Mathlib.Tactic.Ring
import Mathlib.Tactic.NormNum
import Mathlib.Algebra.Order.Field.Basic

namespace Verif.Units

/-- a stage for one row -/
def ModeRow.step (m : Nat) (len : Profile → ℚ) (r : ModeRow) : ModeRow :=
  if ModeRow.moves m len r then ModeRow.next m len r else r

theorem stage_perm (m : Nat) (len : Profile → ℚ) (rows : List ModeRow) :
    (stage m len rows).Perm (rows.map (ModeRow.step m len)) := by
  unfold stage
  induction rows with
  | nil => exact List.Perm.refl _
  | cons r rows ih =>
    by_cases h : ModeRow.moves m len r
    · simp only [List.filter_cons, h, List.map_cons, List.cons_append, ModeRow.step, Bool.not_true, Bool.false_eq_true,
        if_true, if_false]
      exact ih.cons _
    · simp only [Bool.not_eq_true] at h
      simp only [List.filter_cons, h, List.map_cons, ModeRow.step, Bool.not_false, Bool.false_eq_true,
        if_true, if_false]
      exact List.perm_middle.trans (ih.cons _)

theorem stage_perm_map {α : Type} (m : Nat) (len : Profile → ℚ) {rows : List ModeRow} {l : List α} {f : α → ModeRow}
    (h : rows.Perm (l.map f)) : (stage m len rows).Perm (l.map (fun a => (f a).step m len)) :=
  (stage_perm m len rows).trans (by
    have := h.map (ModeRow.step m len)
    rwa [List.map_map] at this)

/-- all stages for one row -/
def follow (p : Profile) (dispatch : ℚ) : ModeOut :=
  ((((commit p dispatch).step 1 Profile.len1).step 2 Profile.len2).step 3 Profile.len3).out

theorem updateModes_perm (ps : List Profile) (ds : List DispatchRow) :
    (updateModes ps ds).Perm ((mergeDispatch ps ds).map (fun q => follow q.1 q.2.dispatch)) := by
  unfold updateModes
  have h1 := stage_perm 1 Profile.len1 ((mergeDispatch ps ds).map (fun q => commit q.1 q.2.dispatch))
  rw [List.map_map] at h1
  have h3 := (stage_perm_map 3 Profile.len3 (stage_perm_map 2 Profile.len2 h1)).map ModeRow.out
  rw [List.map_map] at h3
  exact h3

theorem step_moves {p : Profile} {m : Nat} {t d : ℚ} {s : Option ℚ} {len : Profile → ℚ} (h' : len p - t < d) :
    (ModeRow.mk p m t d s).step m len = (ModeRow.mk p m t d s).next m len := by
  simp [ModeRow.step, ModeRow.moves, h']

theorem step_stays {p : Profile} {m m' : Nat} {t d : ℚ} {s : Option ℚ} {len : Profile → ℚ}
    (h : ¬(m = m' ∧ len p - t < d)) : (ModeRow.mk p m t d s).step m' len = ModeRow.mk p m t d s := by
  unfold ModeRow.step ModeRow.moves
  rw [if_neg]
  simpa using h

theorem out_one (p : Profile) (m : Nat) (t d : ℚ) (s : Option ℚ) (h0 : m ≠ 0) (h4 : m ≠ 4) :
    (ModeRow.mk p m t d s).out = ⟨p, m, t + d, s⟩ := by
  unfold ModeRow.out
  simp only [h0, h4, false_and, if_false]

theorem out_four (p : Profile) (t d : ℚ) (s : Option ℚ) :
    (ModeRow.mk p 4 t d s).out = ⟨p, 4, min (t + d) p.len4, s⟩ := by
  unfold ModeRow.out
  simp only [true_and, if_false, show (4 : Nat) ≠ 0 by decide]
  by_cases h : p.len4 < t + d
  · rw [if_pos h, min_eq_right (le_of_lt h)]
  · rw [if_neg h, min_eq_left (not_lt.1 h)]

theorem out_off (p : Profile) (t d : ℚ) (s : Option ℚ) : (ModeRow.mk p 0 t d s).out = ⟨p, 0, 0, s⟩ := by
  unfold ModeRow.out
  simp

/-- The stages from mode three on -/
theorem follows_three (p : Profile) (m : Nat) (t d : ℚ) (s : Option ℚ) (hm : m = 3 ∨ m = 4) :
    ∃ m' t', ((ModeRow.mk p m t d s).step 3 Profile.len3).out = ⟨p, m', t', s⟩ ∧ Follows p m t d m' t' ∧ 3 ≤ m' := by
  rcases hm with rfl | rfl
  · by_cases h : p.len3 - t < d
    · refine ⟨4, _, ?_, Follows.next 3 t d 4 _ (by decide) (by decide) ?_ (Follows.last _ _), by decide⟩
      · rw [step_moves h]
        simp only [ModeRow.next]
        rw [show (3 + 1 : Nat) = 4 by rfl, out_four]
        simp only [show (3 : Nat) ≠ 2 by decide, if_false]
        rw [show d - (p.len3 - t) = t + d - p.length 3 by simp only [Profile.length]; ring]
      · simp only [Profile.length]; linarith
    · refine ⟨3, t + d, ?_, Follows.stay 3 t d (by decide) (by decide) ?_, by decide⟩
      · rw [step_stays (by simpa using h), out_one _ _ _ _ _ (by decide) (by decide)]
      · simp only [Profile.length]; linarith
  · refine ⟨4, _, ?_, Follows.last t d, by decide⟩
    rw [step_stays (by simp), out_four]

/-- The stages from mode two on -/
theorem follows_two (p : Profile) (m : Nat) (t d : ℚ) (hm : m = 2 ∨ m = 3 ∨ m = 4) :
    ∃ m' t' s, ((((ModeRow.mk p m t d none).step 2 Profile.len2).step 3 Profile.len3).out = ⟨p, m', t', s⟩) ∧
      Follows p m t d m' t' ∧ m ≤ m' ∧ (s = if m = 2 ∧ 3 ≤ m' then some (t + d - p.len2) else none) := by
  rcases hm with rfl | hm
  · by_cases h : p.len2 - t < d
    · obtain ⟨m', t', h1, h2, h3⟩ := follows_three p 3 0 (t + d - p.len2) (some (t + d - p.len2)) (Or.inl rfl)
      refine ⟨m', t', some (t + d - p.len2), ?_, Follows.next 2 t d m' t' (by decide) (by decide) ?_ h2,
        le_trans (by decide) h3, ?_⟩
      · rw [step_moves h]
        simp only [ModeRow.next, if_true]
        rw [show d - (p.len2 - t) = t + d - p.len2 by ring]
        exact h1
      · simp only [Profile.length]; linarith
      · rw [if_pos ⟨rfl, h3⟩]
    · refine ⟨2, t + d, none, ?_, Follows.stay 2 t d (by decide) (by decide) ?_, le_refl _, ?_⟩
      · rw [step_stays (m' := 2) (by simpa using h), step_stays (m' := 3) (by simp), out_one _ _ _ _ _ (by decide) (by decide)]
      · simp only [Profile.length]; linarith
      · rw [if_neg (by decide)]
  · obtain ⟨m', t', h1, h2, h3⟩ := follows_three p m t d none hm
    have h2' : m ≠ 2 := by rcases hm with rfl | rfl <;> decide
    refine ⟨m', t', none, ?_, h2, ?_, by rw [if_neg (fun h => h2' h.1)]⟩
    · rw [step_stays (m' := 2) (fun h => h2' h.1)]
      exact h1
    · rcases hm with rfl | rfl
      · exact h3
      · cases h2 with
        | next _ _ _ _ _ h => omega
        | stay _ _ _ _ h => omega
        | last => exact le_refl _

/-- All stages from mode one on; the minutes since the end of mode two -/
theorem follows_one (p : Profile) (m : Nat) (t d : ℚ) (hm : 1 ≤ m) (hm' : m ≤ 4) :
    ∃ m' t' s, (((((ModeRow.mk p m t d none).step 1 Profile.len1).step 2 Profile.len2).step 3 Profile.len3).out =
      ⟨p, m', t', s⟩) ∧ Follows p m t d m' t' ∧ m ≤ m' ∧
      (s = if m ≤ 2 ∧ 3 ≤ m' then some (t + d - p.span m 3) else none) := by
  by_cases h1 : m = 1
  · subst h1
    by_cases h : p.len1 - t < d
    · obtain ⟨m', t', s, h1, h2, h3, h4⟩ := follows_two p 2 0 (t + d - p.len1) (Or.inl rfl)
      refine ⟨m', t', s, ?_, Follows.next 1 t d m' t' (by decide) (by decide) ?_ h2, le_trans (by decide) h3, ?_⟩
      · rw [step_moves h]
        simp only [ModeRow.next, show (1 : Nat) ≠ 2 by decide, if_false]
        rw [show d - (p.len1 - t) = t + d - p.len1 by ring]
        exact h1
      · simp only [Profile.length]; linarith
      · rw [h4]
        by_cases h5 : 3 ≤ m'
        · rw [if_pos ⟨rfl, h5⟩, if_pos ⟨by decide, h5⟩]
          simp only [Profile.span, Profile.length]
          norm_num
          ring
        · rw [if_neg (fun x => h5 x.2), if_neg (fun x => h5 x.2)]
    · refine ⟨1, t + d, none, ?_, Follows.stay 1 t d (by decide) (by decide) ?_, le_refl _, ?_⟩
      · rw [step_stays (m' := 1) (by simpa using h), step_stays (m' := 2) (by simp), step_stays (m' := 3) (by simp),
          out_one _ _ _ _ _ (by decide) (by decide)]
      · simp only [Profile.length]; linarith
      · rw [if_neg (by decide)]
  · have hm2 : m = 2 ∨ m = 3 ∨ m = 4 := by omega
    obtain ⟨m', t', s, g1, g2, g3, g4⟩ := follows_two p m t d hm2
    refine ⟨m', t', s, ?_, g2, g3, ?_⟩
    · rw [step_stays (m' := 1) (fun h => h1 h.1)]
      exact g1
    · rw [g4]
      by_cases h5 : m = 2
      · subst h5
        by_cases h6 : 3 ≤ m'
        · rw [if_pos ⟨rfl, h6⟩, if_pos ⟨by decide, h6⟩]
          simp only [Profile.span, Profile.length]
          norm_num
        · rw [if_neg (fun x => h6 x.2), if_neg (fun x => h6 x.2)]
      · rw [if_neg (fun x => h5 x.1), if_neg (fun x => by omega)]

/-- One row of the result -/
theorem follow_spec (p : Profile) (dispatch : ℚ) (hm : p.mode ≤ 4) (h0 : p.mode = 0 → 0 < dispatch → p.time = 0) :
    (follow p dispatch).profile = p ∧
    Follows p (p.start dispatch).1 (p.start dispatch).2 5 (follow p dispatch).endMode (follow p dispatch).endTime ∧
    (p.start dispatch).1 ≤ (follow p dispatch).endMode ∧
    ((follow p dispatch).since2 =
      if 1 ≤ (p.start dispatch).1 ∧ (p.start dispatch).1 ≤ 2 ∧ 3 ≤ (follow p dispatch).endMode then
        some ((p.start dispatch).2 + 5 - p.span (p.start dispatch).1 3) else none) := by
  by_cases hc : p.mode = 0 ∧ 0 < dispatch
  · have hs : p.start dispatch = (1, 0) := if_pos hc
    have hcm : commit p dispatch = ⟨p, 1, 0, 5, none⟩ := by
      unfold commit
      rw [if_pos hc, h0 hc.1 hc.2]
    obtain ⟨m', t', s, g1, g2, g3, g4⟩ := follows_one p 1 0 5 (by decide) (by decide)
    have hf : follow p dispatch = ⟨p, m', t', s⟩ := by
      unfold follow
      rw [hcm]
      exact g1
    rw [hs, hf]
    refine ⟨rfl, g2, g3, g4.trans ?_⟩
    simp
  · have hs : p.start dispatch = (p.mode, p.time) := if_neg hc
    have hcm : commit p dispatch = ⟨p, p.mode, p.time, 5, none⟩ := by
      unfold commit
      rw [if_neg hc]
    by_cases hz : p.mode = 0
    · have hf : follow p dispatch = ⟨p, 0, 0, none⟩ := by
        unfold follow
        rw [hcm, hz, step_stays (m' := 1) (by simp), step_stays (m' := 2) (by simp), step_stays (m' := 3) (by simp), out_off]
      rw [hs, hf, hz]
      exact ⟨rfl, Follows.off _ _, le_refl _, by simp⟩
    · obtain ⟨m', t', s, g1, g2, g3, g4⟩ := follows_one p p.mode p.time 5 (by omega) hm
      have hf : follow p dispatch = ⟨p, m', t', s⟩ := by
        unfold follow
        rw [hcm]
        exact g1
      rw [hs, hf]
      refine ⟨rfl, g2, g3, g4.trans ?_⟩
      have : 1 ≤ p.mode := by omega
      simp [this]

/-- There is only one way to follow a profile. -/
theorem Follows.unique {p : Profile} {m : Nat} {t d : ℚ} {m1 m2 : Nat} {t1 t2 : ℚ} (h1 : Follows p m t d m1 t1)
    (h2 : Follows p m t d m2 t2) : m1 = m2 ∧ t1 = t2 := by
  induction h1 with
  | off t d => cases h2 with
    | off => exact ⟨rfl, rfl⟩
    | stay _ _ _ h => omega
    | next _ _ _ _ _ h => omega
  | stay m t d h h' h'' => cases h2 with
    | off => omega
    | stay => exact ⟨rfl, rfl⟩
    | next _ _ _ _ _ _ _ g => linarith
    | last => omega
  | next m t d m' t' h h' h'' _ ih => cases h2 with
    | off => omega
    | stay _ _ _ _ _ g => linarith
    | next _ _ _ _ _ _ _ _ g => exact ih g
    | last => omega
  | last t d => cases h2 with
    | stay _ _ _ _ h => omega
    | next _ _ _ _ _ _ h => omega
    | last => exact ⟨rfl, rfl⟩

theorem Follows.le {p : Profile} {m : Nat} {t d : ℚ} {m' : Nat} {t' : ℚ} (h : Follows p m t d m' t') :
    m ≤ m' ∧ m' ≤ 4 := by
  induction h with
  | off => exact ⟨le_refl _, by decide⟩
  | stay m t d _ h => exact ⟨le_refl _, by omega⟩
  | next m t d m' t' _ _ _ _ ih => exact ⟨by omega, ih.2⟩
  | last => exact ⟨le_refl _, le_refl _⟩

theorem span_succ (p : Profile) {m n : Nat} (h : m ≤ n) : p.span m (n + 1) = p.span m n + p.length n := by
  rw [Profile.span, if_pos h]

theorem span_self (p : Profile) (m : Nat) : p.span m m = 0 := by
  cases m with
  | zero => rfl
  | succ n => rw [Profile.span, if_neg (by omega)]

theorem span_first (p : Profile) {m n : Nat} (h : m < n) : p.span m n = p.length m + p.span (m + 1) n := by
  induction n with
  | zero => omega
  | succ n ih =>
    by_cases hmn : m = n
    · subst hmn
      rw [span_succ p (le_refl _), span_self, span_self]
      ring
    · rw [span_succ p (by omega), ih (by omega), span_succ p (by omega)]
      ring

theorem Follows.conserved {p : Profile} {m : Nat} {t d : ℚ} {m' : Nat} {t' : ℚ} (h : Follows p m t d m' t') :
    m ≠ 0 → t' ≤ t + d - p.span m m' ∧ (t' = t + d - p.span m m' ∨ m' = 4 ∧ t' = p.len4) := by
  induction h with
  | off => exact fun h => absurd rfl h
  | stay m t d => intro _; rw [span_self]; exact ⟨by linarith, Or.inl (by ring)⟩
  | next m t d m' t' h1 h2 h3 h4 ih =>
    intro _
    have := h4.le
    obtain ⟨a, b⟩ := ih (by omega)
    rw [span_first p (by omega)]
    refine ⟨by linarith, b.imp (fun e => by rw [e]; ring) id⟩
  | last t d =>
    intro _
    rw [span_self]
    refine ⟨by rw [sub_zero]; exact min_le_left _ _, ?_⟩
    rcases le_total (t + d) p.len4 with h | h
    · left; rw [min_eq_left h]; ring
    · right; exact ⟨rfl, min_eq_right h⟩

end Verif.Units
