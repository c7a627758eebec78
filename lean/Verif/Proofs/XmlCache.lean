import Verif.Spec.XmlCache
import Mathlib.Tactic.IntervalCases
import Mathlib.Tactic.Linarith
import Mathlib.Tactic.Ring

/-!
# Lemmas on the calendar and the cache
-/

namespace Verif.Xml

open Verif

/-! ### Calendar -/

/-- days before a year -/
def yearStart (y : ℕ) : ℤ := 365 * ((y : ℤ) - 1) + ((y : ℤ) - 1) / 4 - ((y : ℤ) - 1) / 100 + ((y : ℤ) - 1) / 400

theorem yearStart_succ (y : ℕ) (h : 1 ≤ y) : yearStart (y + 1) = yearStart y + 337 + daysInMonth y 2 := by
  unfold yearStart daysInMonth isLeap
  push_cast
  split <;> rename_i hl <;> simp only [decide_eq_true_eq] at hl <;> omega

theorem ordinal_eq (d : Date) : d.ordinal = yearStart d.year + daysBeforeMonth d.year d.month + d.day := rfl

theorem daysBeforeMonth_succ (y m : ℕ) (h : 1 ≤ m) : daysBeforeMonth y (m + 1) = daysBeforeMonth y m + daysInMonth y m := by
  unfold daysBeforeMonth
  have : m + 1 - 1 = (m - 1) + 1 := by omega
  rw [this, List.range'_concat, List.map_append, List.sum_append]
  have : 1 + 1 * (m - 1) = m := by omega
  rw [this]
  simp

theorem daysBeforeMonth_one (y : ℕ) : daysBeforeMonth y 1 = 0 := rfl

theorem daysBeforeMonth_thirteen (y : ℕ) : daysBeforeMonth y 13 = 337 + daysInMonth y 2 := by
  rw [show 13 = 12 + 1 from rfl, daysBeforeMonth_succ y 12 (by decide), show 12 = 11 + 1 from rfl,
    daysBeforeMonth_succ y 11 (by decide), show 11 = 10 + 1 from rfl,
    daysBeforeMonth_succ y 10 (by decide), show 10 = 9 + 1 from rfl,
    daysBeforeMonth_succ y 9 (by decide), show 9 = 8 + 1 from rfl,
    daysBeforeMonth_succ y 8 (by decide), show 8 = 7 + 1 from rfl,
    daysBeforeMonth_succ y 7 (by decide), show 7 = 6 + 1 from rfl,
    daysBeforeMonth_succ y 6 (by decide), show 6 = 5 + 1 from rfl,
    daysBeforeMonth_succ y 5 (by decide), show 5 = 4 + 1 from rfl,
    daysBeforeMonth_succ y 4 (by decide), show 4 = 3 + 1 from rfl,
    daysBeforeMonth_succ y 3 (by decide), show 3 = 2 + 1 from rfl,
    daysBeforeMonth_succ y 2 (by decide), show 2 = 1 + 1 from rfl,
    daysBeforeMonth_succ y 1 (by decide), daysBeforeMonth_one]
  simp only [daysInMonth]
  omega

theorem daysInMonth_pos (y m : ℕ) (h1 : 1 ≤ m) (h2 : m ≤ 12) : 28 ≤ daysInMonth y m ∧ daysInMonth y m ≤ 31 := by
  interval_cases m <;> simp only [daysInMonth] <;> first | omega | (split <;> omega)

theorem next_valid {d : Date} (h : d.Valid) : d.next.Valid ∧ d.next.ordinal = d.ordinal + 1 ∧ d.next.prev = d ∧
    d.year ≤ d.next.year := by
  obtain ⟨hy, hm1, hm2, hd1, hd2⟩ := h
  unfold Date.next
  by_cases h1 : d.day < daysInMonth d.year d.month
  · rw [if_pos h1]
    refine ⟨⟨hy, hm1, hm2, by dsimp only; omega, by dsimp only; omega⟩, ?_, ?_, le_refl _⟩
    · rw [ordinal_eq, ordinal_eq]
      push_cast
      ring
    · unfold Date.prev
      rw [if_pos (by dsimp only; omega)]
      simp
  · rw [if_neg h1]
    have hday : d.day = daysInMonth d.year d.month := by omega
    by_cases h2 : d.month < 12
    · rw [if_pos h2]
      have := daysInMonth_pos d.year (d.month + 1) (by omega) (by omega)
      refine ⟨⟨hy, by dsimp only; omega, by dsimp only; omega, le_refl _, by dsimp only; omega⟩, ?_, ?_, le_refl _⟩
      · rw [ordinal_eq, ordinal_eq]
        dsimp only
        rw [daysBeforeMonth_succ _ _ hm1, hday]
        push_cast
        ring
      · unfold Date.prev
        rw [if_neg (by dsimp only; omega), if_pos (by dsimp only; omega)]
        dsimp only
        rw [Nat.add_sub_cancel, ← hday]
    · rw [if_neg h2]
      have hmon : d.month = 12 := by omega
      refine ⟨⟨by dsimp only; omega, le_refl _, show 1 ≤ 12 by decide, le_refl _, show 1 ≤ 31 by decide⟩, ?_, ?_, by dsimp only; omega⟩
      · rw [ordinal_eq, ordinal_eq]
        dsimp only
        rw [yearStart_succ _ hy, daysBeforeMonth_one, hday, hmon]
        have h13 := daysBeforeMonth_thirteen d.year
        rw [show 13 = 12 + 1 from rfl, daysBeforeMonth_succ _ 12 (by decide)] at h13
        omega
      · unfold Date.prev
        rw [if_neg (by dsimp only; omega), if_neg (by dsimp only; omega)]
        rw [hmon] at hday
        have h31 : daysInMonth d.year 12 = 31 := rfl
        cases d
        simp only at hmon hday h31 ⊢
        subst hmon
        rw [hday, h31, Nat.add_sub_cancel]

theorem prev_valid {d : Date} (h : d.Valid) (hy2 : 2 ≤ d.year) : d.prev.Valid ∧ d.prev.ordinal = d.ordinal - 1 ∧ d.prev.next = d := by
  obtain ⟨hy, hm1, hm2, hd1, hd2⟩ := h
  have hv : d.prev.Valid ∧ d.prev.next = d := by
    unfold Date.prev
    by_cases h1 : 1 < d.day
    · rw [if_pos h1]
      refine ⟨⟨hy, hm1, hm2, by dsimp only; omega, by dsimp only; omega⟩, ?_⟩
      unfold Date.next
      rw [if_pos (by dsimp only; omega)]
      dsimp only
      rw [Nat.sub_add_cancel hd1]
    · rw [if_neg h1]
      have hday : d.day = 1 := by omega
      by_cases h2 : 1 < d.month
      · rw [if_pos h2]
        have := daysInMonth_pos d.year (d.month - 1) (by omega) (by omega)
        refine ⟨⟨hy, by dsimp only; omega, by dsimp only; omega, by dsimp only; omega, le_refl _⟩, ?_⟩
        unfold Date.next
        rw [if_neg (by dsimp only; omega), if_pos (by dsimp only; omega)]
        dsimp only
        rw [Nat.sub_add_cancel hm1, ← hday]
      · rw [if_neg h2]
        have hmon : d.month = 1 := by omega
        refine ⟨⟨by dsimp only; omega, show 1 ≤ 12 by decide, show 12 ≤ 12 by decide, show 1 ≤ 31 by decide, show 31 ≤ 31 by decide⟩, ?_⟩
        unfold Date.next
        dsimp only
        have h31 : daysInMonth (d.year - 1) 12 = 31 := rfl
        rw [h31, if_neg (show ¬ 31 < 31 by decide), if_neg (show ¬ 12 < 12 by decide)]
        rw [Nat.sub_add_cancel hy, ← hday]
        cases d
        simp only at hmon hday ⊢
        rw [hmon, hday]
  refine ⟨hv.1, ?_, hv.2⟩
  have := (next_valid hv.1).2.1
  rw [hv.2] at this
  omega

theorem daysBeforeMonth_mono (y : ℕ) {m n : ℕ} (h1 : 1 ≤ m) (h : m < n) :
    daysBeforeMonth y m + daysInMonth y m ≤ daysBeforeMonth y n := by
  induction n with
  | zero => omega
  | succ n ih =>
    rw [daysBeforeMonth_succ y n (by omega)]
    rcases Nat.lt_or_ge m n with hlt | hge
    · have := ih hlt
      omega
    · have : m = n := by omega
      rw [this]

theorem yearStart_mono {y z : ℕ} (h1 : 1 ≤ y) (h : y < z) : yearStart (y + 1) ≤ yearStart z := by
  induction z with
  | zero => omega
  | succ z ih =>
    rcases Nat.lt_or_ge y z with hlt | hge
    · have := ih hlt
      have := yearStart_succ z (by omega)
      omega
    · have : y = z := by omega
      rw [this]

/-- days of the year of a date -/
theorem ordinal_bounds {d : Date} (h : d.Valid) : yearStart d.year < d.ordinal ∧ d.ordinal ≤ yearStart (d.year + 1) := by
  obtain ⟨hy, hm1, hm2, hd1, hd2⟩ := h
  rw [ordinal_eq, yearStart_succ _ hy]
  have h1 := daysBeforeMonth_mono d.year hm1 (show d.month < 13 by omega)
  have h2 := daysBeforeMonth_thirteen d.year
  omega

theorem ordinal_inj {d e : Date} (hd : d.Valid) (he : e.Valid) (h : d.ordinal = e.ordinal) : d = e := by
  have b1 := ordinal_bounds hd
  have b2 := ordinal_bounds he
  have hy : d.year = e.year := by
    rcases Nat.lt_trichotomy d.year e.year with hlt | heq | hgt
    · have := yearStart_mono hd.1 hlt
      omega
    · exact heq
    · have := yearStart_mono he.1 hgt
      omega
  obtain ⟨y, m, k⟩ := d
  obtain ⟨y', m', k'⟩ := e
  simp only at hy
  subst hy
  obtain ⟨-, hm1, hm2, hd1, hd2⟩ := hd
  obtain ⟨-, gm1, gm2, gd1, gd2⟩ := he
  rw [ordinal_eq, ordinal_eq] at h
  dsimp only at h hm1 hm2 hd1 hd2 gm1 gm2 gd1 gd2
  have hm : m = m' := by
    rcases Nat.lt_trichotomy m m' with hlt | heq | hgt
    · have := daysBeforeMonth_mono y hm1 hlt
      omega
    · exact heq
    · have := daysBeforeMonth_mono y gm1 hgt
      omega
  subst hm
  have : k = k' := by omega
  rw [this]

theorem time_next {t : Time} (h : t.Valid) : t.next.Valid ∧ t.next.minutes = t.minutes + 5 := by
  obtain ⟨h1, h2, h3, h4⟩ := h
  unfold Time.next Time.minutes
  by_cases hlt : t.minute + 5 < 1440
  · rw [if_pos hlt]
    exact ⟨⟨h1, h2, hlt, by dsimp only; omega⟩, by push_cast; ring⟩
  · rw [if_neg hlt]
    obtain ⟨n1, n2, n3, n4⟩ := next_valid h1
    refine ⟨⟨n1, by dsimp only; omega, by dsimp only; omega, by dsimp only; omega⟩, ?_⟩
    dsimp only
    rw [n2]
    have : ((t.minute + 5 - 1440 : ℕ) : ℤ) = (t.minute : ℤ) + 5 - 1440 := by omega
    rw [this]
    ring

theorem minutes_inj {s t : Time} (hs : s.Valid) (ht : t.Valid) (h : s.minutes = t.minutes) : s = t := by
  obtain ⟨h1, -, h3, -⟩ := hs
  obtain ⟨g1, -, g3, -⟩ := ht
  unfold Time.minutes at h
  have hd : s.date.ordinal = t.date.ordinal := by omega
  have hm : s.minute = t.minute := by omega
  have := ordinal_inj h1 g1 hd
  cases s
  cases t
  simp only at this hm
  rw [this, hm]

/-! ### File names -/

theorem marketDay_valid {t : Time} (h : t.Valid) : t.marketDay.Valid ∧
    (t.minute < 245 → t.marketDay = t.date.prev ∧ t.marketDay.ordinal = t.date.ordinal - 1) ∧
    (245 ≤ t.minute → t.marketDay = t.date) := by
  obtain ⟨h1, h2, h3, h4⟩ := h
  unfold Time.marketDay
  by_cases hlt : t.minute < 245
  · rw [if_pos hlt]
    obtain ⟨p1, p2, p3⟩ := prev_valid h1 h2
    exact ⟨p1, fun _ => ⟨rfl, p2⟩, fun h => by omega⟩
  · rw [if_neg hlt]
    exact ⟨h1, fun h => absurd h hlt, fun _ => rfl⟩

theorem intervalNumber_eq {t : Time} (h : t.Valid) :
    (t.minute < 245 → t.intervalNumber = t.minute / 5 + 240) ∧ (245 ≤ t.minute → t.intervalNumber = t.minute / 5 - 48) := by
  have hm := marketDay_valid h
  unfold Time.intervalNumber Time.minutes
  constructor
  · intro hlt
    rw [(hm.2.1 hlt).2]
    dsimp only
    have : 1440 * t.date.ordinal + (t.minute : ℤ) - (1440 * (t.date.ordinal - 1) + ((245 : ℕ) : ℤ)) = t.minute + 1195 := by
      push_cast
      ring
    rw [this]
    omega
  · intro hge
    rw [hm.2.2 hge]
    dsimp only
    have : 1440 * t.date.ordinal + (t.minute : ℤ) - (1440 * t.date.ordinal + ((245 : ℕ) : ℤ)) = t.minute - 245 := by
      push_cast
      ring
    rw [this]
    omega

theorem zfill_length {w n : ℕ} (hw : 0 < w) (h : n < 10 ^ w) : (zfill w n).length = w := by
  unfold zfill
  rw [List.length_append, List.length_replicate]
  have := (Nat.length_toDigits_le_iff (b := 10) (by decide) hw).2 h
  omega

theorem zfill_inj {w m n : ℕ} (h : zfill w m = zfill w n) : m = n := by
  have key : ∀ k, Nat.ofDigitChars 10 (zfill w k) 0 = k := by
    intro k
    unfold zfill
    rw [Nat.ofDigitChars_append, Nat.ofDigitChars_replicate_zero, Nat.mul_zero, Nat.ofDigitChars_ten_toDigits]
  rw [← key m, h, key n]

theorem stem_inj {s t : Time} (hs : s.Valid) (ht : t.Valid) (h : s.stem = t.stem) : s = t := by
  have hnum : ∀ u : Time, u.Valid → u.intervalNumber < 10 ^ 3 := by
    intro u hu
    have := intervalNumber_eq hu
    have := hu.2.2.1
    rcases Nat.lt_or_ge u.minute 245 with h | h <;> omega
  have hday : ∀ u : Time, u.Valid → u.marketDay.month < 10 ^ 2 ∧ u.marketDay.day < 10 ^ 2 := by
    intro u hu
    obtain ⟨-, a, b, c, d⟩ := (marketDay_valid hu).1
    have := daysInMonth_pos u.marketDay.year u.marketDay.month a b
    omega
  unfold Time.stem at h
  rw [List.append_left_inj, List.append_right_inj] at h
  obtain ⟨e1, e2⟩ := List.append_inj' h (by
    simp only [List.length_append]
    rw [zfill_length (by decide) (hday s hs).1, zfill_length (by decide) (hday s hs).2, zfill_length (by decide) (hnum s hs),
      zfill_length (by decide) (hday t ht).1, zfill_length (by decide) (hday t ht).2, zfill_length (by decide) (hnum t ht)])
  obtain ⟨e3, e4⟩ := List.append_inj e2 (by
    rw [zfill_length (by decide) (hday s hs).1, zfill_length (by decide) (hday t ht).1])
  obtain ⟨e5, e6⟩ := List.append_inj e4 (by
    rw [zfill_length (by decide) (hday s hs).2, zfill_length (by decide) (hday t ht).2])
  have f1 : s.marketDay.year = t.marketDay.year := by
    rw [← Nat.ofDigitChars_ten_toDigits (n := s.marketDay.year), e1, Nat.ofDigitChars_ten_toDigits]
  have f2 := zfill_inj e3
  have f3 := zfill_inj e5
  have f4 := zfill_inj e6
  have hmd : s.marketDay = t.marketDay := by
    generalize s.marketDay = a at f1 f2 f3
    generalize t.marketDay = b at f1 f2 f3
    cases a
    cases b
    simp only at f1 f2 f3
    rw [f1, f2, f3]
  have hs' := marketDay_valid hs
  have ht' := marketDay_valid ht
  have ns := intervalNumber_eq hs
  have nt := intervalNumber_eq ht
  refine minutes_inj hs ht ?_
  unfold Time.minutes
  obtain ⟨-, -, s3, s4⟩ := hs
  obtain ⟨-, -, t3, t4⟩ := ht
  rcases Nat.lt_or_ge s.minute 245 with h1 | h1 <;> rcases Nat.lt_or_ge t.minute 245 with h2 | h2
  · have a := (hs'.2.1 h1).2
    have b := (ht'.2.1 h2).2
    rw [hmd] at a
    have := ns.1 h1
    have := nt.1 h2
    omega
  · have := ns.1 h1
    have := nt.2 h2
    omega
  · have := ns.2 h1
    have := nt.1 h2
    omega
  · have a := hs'.2.2 h1
    have b := ht'.2.2 h2
    rw [hmd, b] at a
    rw [a]
    have := ns.2 h1
    have := nt.2 h2
    omega

theorem plain_ne_ocd (s t : Time) : s.plain ≠ t.ocd := by
  intro h
  unfold Time.plain Time.ocd at h
  have e : "_OCD.loaded".toList = "_OCD".toList ++ ".loaded".toList := by decide
  rw [e, ← List.append_assoc, List.append_left_inj] at h
  unfold Time.stem at h
  have e1 : "00".toList = "0".toList ++ ['0'] := by decide
  have e2 : "_OCD".toList = "_OC".toList ++ ['D'] := by decide
  rw [e1, e2, ← List.append_assoc, ← List.append_assoc _ "_OC".toList] at h
  have := (List.append_inj' h rfl).2
  exact absurd this (by decide)

end Verif.Xml
