import Verif.Proofs.MmsDb
import Mathlib.Tactic.Linarith

/-!
# The historical database (C66, C67, C68, C69, C77)
-/

namespace Verif.Mms

open Verif

/-! ### C66: effective dates -/

section
variable {τ κ β : Type} [LinearOrder τ] [DecidableEq κ]

/-- `get_data` returns exactly the rows in effect: for each id those with the latest effective date not after the time and
the highest version of that date.  Each is returned as often as it is in the table, once. -/
theorem C66_effective (rows : List (EffRow τ κ β)) (t : τ) :
    byEffectiveDate rows t = rows.filter (fun r => decide (InEffect rows t r)) :=
  byEffectiveDate_eq rows t

/-- For tables of interconnectors: the same rows, of the interconnectors that were dispatched at the time. -/
theorem C66_dispatched {γ : Type} (rows : List (EffRow τ κ β)) (dispatch : List (DispRow τ κ γ)) (t : τ)
    (hd : (dispatch.map DispRow.key).Nodup) :
    byEffectiveDateAndDispatch rows dispatch t =
      rows.filter (fun r => decide (InEffect rows t r ∧ ∃ d ∈ dispatch, d.time = t ∧ d.id = r.id)) := by
  unfold byEffectiveDateAndDispatch bySettlementDate
  rw [byEffectiveDate_eq]
  have h1 := flatMap_if (rows.filter (fun r => decide (InEffect rows t r)))
    (fun r => ((dispatch.filter (fun d => decide (d.time = t))).filter (fun d => decide (d.id = r.id))).map (fun _ => r))
    (fun r => decide (∃ d ∈ dispatch, d.time = t ∧ d.id = r.id)) ?_
  · rw [h1, List.filter_filter]
    refine List.filter_congr (fun r _ => ?_)
    rw [← Bool.decide_and]
    exact decide_eq_decide.2 (and_comm)
  · intro r _
    rw [List.filter_filter]
    rcases filter_one_or_none hd (fun d => decide (d.id = r.id) && decide (d.time = t)) (t, r.id) (by
      intro d _ hp
      rw [Bool.and_eq_true, decide_eq_true_eq, decide_eq_true_eq] at hp
      exact Prod.ext hp.2 hp.1) with h | ⟨d, hd', h, hp⟩
    · rw [h]
      have : ¬∃ d ∈ dispatch, d.time = t ∧ d.id = r.id := by
        rintro ⟨d, hd, e1, e2⟩
        have := List.filter_eq_nil_iff.1 h d hd
        simp [e1, e2] at this
      rw [if_neg (by simpa using this)]
      rfl
    · rw [h]
      rw [Bool.and_eq_true, decide_eq_true_eq, decide_eq_true_eq] at hp
      rw [if_pos (decide_eq_true ⟨d, hd', hp.2, hp.1⟩)]
      rfl

/-- Two ids, dates before and after the time, versions above nine -/
def demoEff : List (EffRow ℕ String ℕ) :=
  [⟨"A", 1, 1, 10⟩, ⟨"A", 5, 9, 11⟩, ⟨"A", 5, 10, 12⟩, ⟨"A", 8, 1, 13⟩, ⟨"B", 2, 3, 14⟩, ⟨"B", 1, 7, 15⟩, ⟨"C", 9, 1, 16⟩]

example : byEffectiveDate demoEff 6 = [⟨"A", 5, 10, 12⟩, ⟨"B", 2, 3, 14⟩] ∧
    byEffectiveDateAndDispatch demoEff [(⟨6, "A", ()⟩ : DispRow ℕ String Unit), ⟨7, "B", ()⟩] 6 = [⟨"A", 5, 10, 12⟩] ∧
    ([(⟨6, "A", ()⟩ : DispRow ℕ String Unit), ⟨7, "B", ()⟩].map DispRow.key).Nodup := by decide +kernel

/-! ### C67: start dates -/

/-- With one row per unit and start date and any sorting algorithm: `get_data` returns for each unit exactly the row that was
the last to start.  Missing for the full property: rows that have ended are not left out. -/
theorem C67_last_started_partial (sort : List (SpanRow τ κ β) → List (SpanRow τ κ β))
    (hs : ∀ l, (sort l).Perm l ∧ (sort l).Pairwise (fun a b => a.start ≤ b.start))
    (rows : List (SpanRow τ κ β)) (t : τ) (hn : (rows.map (fun r => (r.id, r.start))).Nodup) :
    (byStart sort rows t).Perm (rows.filter (fun r => decide (LastStarted rows t r))) := by
  have hrows : rows.Nodup := List.Nodup.of_map _ hn
  obtain ⟨hp, hle⟩ := hs (rows.filter (fun r => decide (r.start ≤ t)))
  have hmem : ∀ s, s ∈ sort (rows.filter (fun r => decide (r.start ≤ t))) ↔ s ∈ rows ∧ s.start ≤ t := by
    intro s
    rw [hp.mem_iff, List.mem_filter, decide_eq_true_eq]
  have hsn : (sort (rows.filter (fun r => decide (r.start ≤ t)))).Nodup := hp.nodup_iff.2 (hrows.filter _)
  unfold byStart
  have hnd : (dropDupLast SpanRow.id (sort (rows.filter (fun r => decide (r.start ≤ t))))).Nodup :=
    List.Nodup.of_map _ (dropDupLast_nodup _ _)
  generalize sort (rows.filter (fun r => decide (r.start ≤ t))) = l at hp hle hmem hsn hnd
  refine (List.perm_ext_iff_of_nodup hnd (hrows.filter _)).2 (fun r => ?_)
  rw [dropDupLast_spec, List.mem_filter, decide_eq_true_eq]
  unfold LastStarted
  constructor
  · rintro ⟨l1, l2, rfl, h⟩
    have hr := (hmem r).1 (by simp)
    refine ⟨hr.1, hr.2, fun s hs' e hst => ?_⟩
    have := (hmem s).2 ⟨hs', hst⟩
    rcases List.mem_append.1 this with hm | hm
    · exact (List.pairwise_append.1 hle).2.2 s hm r List.mem_cons_self
    · rcases List.mem_cons.1 hm with rfl | hm
      · exact le_refl _
      · exact absurd e (h s hm)
  · rintro ⟨hr, hrt, hlast⟩
    obtain ⟨l1, l2, rfl⟩ := List.append_of_mem ((hmem r).2 ⟨hr, hrt⟩)
    refine ⟨l1, l2, rfl, fun b hb e => ?_⟩
    have hb' := (hmem b).1 (by simp [hb])
    have h1 : r.start ≤ b.start := (List.pairwise_cons.1 (List.pairwise_append.1 hle).2.1).1 b hb
    have h2 := hlast b hb'.1 e hb'.2
    have : b = r := List.inj_on_of_nodup_map hn hb'.1 hr (Prod.ext e (le_antisymm h2 h1))
    subst this
    exact (List.nodup_cons.1 (List.nodup_append.1 hsn).2.1).1 hb

/-- Units that have ended are returned: the unit `A` ended at 4, and `get_data` at 6 returns it. -/
theorem C67_ended_negation : ∃ (rows : List (SpanRow ℕ String Unit)) (t : ℕ) (sort : List (SpanRow ℕ String Unit) → List (SpanRow ℕ String Unit)),
    (∀ l, (sort l).Perm l ∧ (sort l).Pairwise (fun a b => a.start ≤ b.start)) ∧
    (rows.map (fun r => (r.id, r.start))).Nodup ∧ ∃ r ∈ byStart sort rows t, r.finish < t := by
  refine ⟨[⟨"A", 1, 4, ()⟩, ⟨"B", 2, 9, ()⟩], 6, fun l => l.insertionSort (fun a b => a.start ≤ b.start),
    fun l => ⟨List.perm_insertionSort _ _, ?_⟩, by decide +kernel, ⟨"A", 1, 4, ()⟩, by decide +kernel, by decide⟩
  have : Std.Total (fun a b : SpanRow ℕ String Unit => a.start ≤ b.start) := ⟨fun a b => Nat.le_total _ _⟩
  have : IsTrans (SpanRow ℕ String Unit) (fun a b => a.start ≤ b.start) := ⟨fun a b c => Nat.le_trans⟩
  exact List.pairwise_insertionSort _ _

example : byStart (fun l => l.insertionSort (fun a b => a.start ≤ b.start))
      [(⟨"A", 5, 9, 1⟩ : SpanRow ℕ String ℕ), ⟨"A", 1, 5, 2⟩, ⟨"B", 2, 9, 3⟩, ⟨"A", 7, 9, 4⟩] 6 = [⟨"B", 2, 9, 3⟩, ⟨"A", 5, 9, 1⟩] := by
  decide +kernel

end

/-! ### C68: history -/

section
variable {ρ κ : Type} [DecidableEq κ]

/-- When a month could be read: the rows of each key are those of the newest month that has the key, each exactly as often as
in that month, and nothing of the old table is left. -/
theorem C68_newest (key : ρ → κ) (months : List (Option (List ρ))) (old : List ρ) (h : ∃ d, some d ∈ months) (k : κ) :
    (histLoad key months old).filter (fun r => decide (key r = k)) = newest key k months := by
  unfold histLoad
  induction months with
  | nil => obtain ⟨d, hd⟩ := h; simp at hd
  | cons m ms ih =>
    cases m with
    | none =>
      refine ih ?_
      obtain ⟨d, hd⟩ := h
      simp only [List.mem_cons, reduceCtorEq, false_or] at hd
      exact ⟨d, hd⟩
    | some d =>
      rw [List.foldl_cons]
      have : histStep key (old, []) d = (d, d.map key) := by
        unfold histStep
        rw [if_pos rfl]
      show (ms.foldl (histMonth key) (histStep key (old, []) d)).1.filter (fun r => decide (key r = k)) = _
      rw [this, (hist_fold key ms (d, d.map key) rfl).2 k]
      rfl

/-- In words of rows: a row is in the table exactly when it is in a month and no newer month that could be read has its
key. -/
theorem C68_rows (key : ρ → κ) (months : List (Option (List ρ))) (old : List ρ) (h : ∃ d, some d ∈ months) (r : ρ) :
    r ∈ histLoad key months old ↔ ∃ newer d older, months = newer ++ some d :: older ∧ r ∈ d ∧
      ∀ d', some d' ∈ newer → ∀ q ∈ d', key q ≠ key r := by
  have h1 : r ∈ histLoad key months old ↔ r ∈ newest key (key r) months := by
    rw [← C68_newest key months old h (key r), List.mem_filter]
    simp
  rw [h1]
  clear h1 h
  induction months with
  | nil => simp [newest]
  | cons m ms ih =>
    cases m with
    | none =>
      refine Iff.trans (?_ : _ ↔ r ∈ newest key (key r) ms) (ih.trans ?_)
      · rfl
      constructor
      · rintro ⟨a, d, b, rfl, h1, h2⟩
        refine ⟨none :: a, d, b, rfl, h1, fun d' hd' => h2 d' ?_⟩
        simpa using hd'
      · rintro ⟨a, d, b, e, h1, h2⟩
        cases a with
        | nil => simp at e
        | cons x a =>
          rw [List.cons_append, List.cons.injEq] at e
          exact ⟨a, d, b, e.2, h1, fun d' hd' => h2 d' (List.mem_cons_of_mem _ hd')⟩
    | some d0 =>
      unfold newest
      by_cases hex : ∃ q ∈ d0, key q = key r
      · rw [if_pos hex, List.mem_filter]
        constructor
        · rintro ⟨h1, -⟩
          exact ⟨[], d0, ms, rfl, h1, by simp⟩
        · rintro ⟨a, d, b, e, h1, h2⟩
          cases a with
          | nil =>
            simp only [List.nil_append, List.cons.injEq, Option.some.injEq] at e
            rw [← e.1] at h1
            exact ⟨h1, by simp⟩
          | cons x a =>
            rw [List.cons_append, List.cons.injEq] at e
            obtain ⟨q, hq, eq⟩ := hex
            exact absurd eq (h2 d0 (by rw [e.1]; exact List.mem_cons_self) q hq)
      · rw [if_neg hex]
        refine ih.trans ?_
        constructor
        · rintro ⟨a, d, b, rfl, h1, h2⟩
          refine ⟨some d0 :: a, d, b, rfl, h1, fun d' hd' q hq e => ?_⟩
          rcases List.mem_cons.1 hd' with hd' | hd'
          · rw [Option.some.inj hd'] at hq
            exact hex ⟨q, hq, e⟩
          · exact h2 d' hd' q hq e
        · rintro ⟨a, d, b, e, h1, h2⟩
          cases a with
          | nil =>
            simp only [List.nil_append, List.cons.injEq, Option.some.injEq] at e
            rw [← e.1] at h1
            exact absurd ⟨r, h1, rfl⟩ hex
          | cons x a =>
            rw [List.cons_append, List.cons.injEq] at e
            exact ⟨a, d, b, e.2, h1, fun d' hd' => h2 d' (List.mem_cons_of_mem _ hd')⟩

/-- With one row per key in each month, the table has one row per key. -/
theorem C68_once (key : ρ → κ) (months : List (Option (List ρ))) (old : List ρ) (h : ∃ d, some d ∈ months)
    (hn : ∀ d, some d ∈ months → (d.map key).Nodup) : ((histLoad key months old).map key).Nodup := by
  rw [List.nodup_iff_count_le_one]
  intro k
  have hc : ((histLoad key months old).map key).count k =
      ((histLoad key months old).filter (fun r => decide (key r = k))).length := by
    generalize histLoad key months old = l
    induction l with
    | nil => rfl
    | cons a l ih =>
      rw [List.map_cons, List.count_cons, List.filter_cons, ih]
      by_cases e : key a = k
      · simp [e]
      · simp [e]
  rw [hc, C68_newest key months old h k]
  clear hc h
  induction months with
  | nil => simp [newest]
  | cons m ms ih =>
    have ih := ih (fun d hd => hn d (List.mem_cons_of_mem _ hd))
    cases m with
    | none => exact ih
    | some d =>
      unfold newest
      split
      · have hd := hn d List.mem_cons_self
        rcases filter_one_or_none hd (fun r => decide (key r = k)) k (by simp) with h | ⟨a, -, h, -⟩
        · rw [h]; simp
        · rw [h]; simp
      · exact ih

/-- When no month could be read the table stays as it was. -/
theorem C68_none (key : ρ → κ) (months : List (Option (List ρ))) (old : List ρ) (h : ∀ m ∈ months, m = none) :
    histLoad key months old = old := by
  unfold histLoad
  induction months with
  | nil => rfl
  | cons m ms ih =>
    rw [h m List.mem_cons_self]
    exact ih (fun x hx => h x (List.mem_cons_of_mem _ hx))

/-- The months read are all from January 2010 to the given one, the newest first, each once. -/
theorem C68_months (year month : ℕ) :
    (∀ p, p ∈ historyMonths year month ↔ ValidMonth p ∧ 2010 ≤ p.1 ∧ (p.1 < year ∨ (p.1 = year ∧ p.2 ≤ month))) ∧
    (historyMonths year month).Pairwise (fun a b => monthIndex b < monthIndex a) := by
  constructor
  · rintro ⟨y, m⟩
    unfold historyMonths ValidMonth
    simp only [List.mem_flatMap, List.mem_reverse, List.mem_range'_1, List.mem_map, List.mem_filter, Bool.not_eq_true',
      decide_eq_false_iff_not, Prod.mk.injEq]
    constructor
    · rintro ⟨y', hy', m', ⟨hm', hne⟩, rfl, rfl⟩
      omega
    · intro h
      exact ⟨y, by omega, m, ⟨by omega, by omega⟩, rfl, rfl⟩
  · unfold historyMonths
    rw [List.pairwise_flatMap]
    refine ⟨fun y _ => ?_, ?_⟩
    · rw [List.pairwise_map]
      refine List.Pairwise.filter _ ?_
      rw [List.pairwise_reverse]
      refine List.Pairwise.imp ?_ (List.pairwise_lt_range' (s := 1) (n := 12) (step := 1) (by decide))
      intro a b hab
      unfold monthIndex
      dsimp only
      omega
    · rw [List.pairwise_reverse]
      refine List.Pairwise.imp ?_ (List.pairwise_lt_range' (s := 2010) (n := year + 1 - 2010) (step := 1) (by decide))
      intro a b hab p hp q hq
      obtain ⟨m, hm, rfl⟩ := List.mem_map.1 hp
      obtain ⟨n, hn, rfl⟩ := List.mem_map.1 hq
      have hm := (List.mem_filter.1 hm).1
      have hn := (List.mem_filter.1 hn).1
      rw [List.mem_reverse, List.mem_range'_1] at hm hn
      unfold monthIndex
      dsimp only
      omega

example : histLoad (Prod.fst) [none, some [("a", 1), ("b", 2)], none, some [("b", 3), ("c", 4), ("c", 5)], some [("c", 6), ("d", 7)]]
    [("x", 0)] = [("a", 1), ("b", 2), ("c", 4), ("c", 5), ("d", 7)] := by decide +kernel

end

/-! ### C69: months of `populate` -/

/-- month number `k`, counted from January of the year zero -/
def monthOf (k : ℕ) : ℕ × ℕ := (k / 12, k % 12 + 1)

theorem range'_months {y m c : ℕ} (h1 : 1 ≤ m) (h2 : m + c ≤ 13) :
    (List.range' m c).map (fun m => (y, m)) = (List.range' (12 * y + m - 1) c).map monthOf := by
  induction c generalizing m with
  | zero => rfl
  | succ c ih =>
    rw [List.range'_succ, List.range'_succ, List.map_cons, List.map_cons]
    have e : 12 * y + m - 1 + 1 = 12 * y + (m + 1) - 1 := by omega
    rw [e, ih (by omega) (by omega)]
    have : monthOf (12 * y + m - 1) = (y, m) := by
      unfold monthOf
      exact Prod.ext (by dsimp only; omega) (by dsimp only; omega)
    rw [this]

theorem takeWhile_all {α : Type} {p : α → Bool} {l : List α} (h : ∀ a ∈ l, p a = true) : l.takeWhile p = l := by
  induction l with
  | nil => rfl
  | cons a l ih =>
    rw [List.takeWhile_cons, if_pos (h a List.mem_cons_self), ih (fun b hb => h b (List.mem_cons_of_mem _ hb))]

theorem monthLoop_eq {ey em : ℕ} (he : 1 ≤ em ∧ em ≤ 12) (n : ℕ) : ∀ y m, y + n = ey + 1 → 1 ≤ m → m ≤ 12 →
    (y = ey → m ≤ em + 1) →
    monthLoop ey em (List.range' y n) m = (List.range' (12 * y + m - 1) (12 * ey + em - (12 * y + m - 1))).map monthOf := by
  induction n with
  | zero =>
    intro y m hy h1 h2 _
    have : 12 * ey + em - (12 * y + m - 1) = 0 := by omega
    rw [this]
    rfl
  | succ n ih =>
    intro y m hy h1 h2 h3
    rw [List.range'_succ]
    unfold monthLoop
    by_cases hlast : y = ey
    · have h3 := h3 hlast
      have hn : n = 0 := by omega
      subst hn
      have hym : yearMonths ey em y m = List.range' m (em + 1 - m) := by
        unfold yearMonths
        have hsplit : List.range' m (13 - m) = List.range' m (em + 1 - m) ++ List.range' (em + 1) (12 - em) := by
          rw [show em + 1 = m + (em + 1 - m) by omega, show 13 - m = (m + (em + 1 - m) - m) + (12 - em) by omega]
          rw [show m + (em + 1 - m) - m = em + 1 - m by omega]
          exact (List.range'_append_1).symm
        rw [hsplit, List.takeWhile_append_of_pos]
        · by_cases h12 : em = 12
          · have : 12 - em = 0 := by omega
            rw [this]
            simp
          · rw [show 12 - em = (11 - em) + 1 by omega, List.range'_succ, List.takeWhile_cons]
            simp [hlast]
        · intro a ha
          rw [List.mem_range'_1] at ha
          simp only [Bool.not_eq_true', decide_eq_false_iff_not, not_and]
          intro _
          omega
      have htail : (if y = ey ∧ em + 1 ∈ List.range' m (13 - m) then [] else monthLoop ey em (List.range' (y + 1) 0) 1) =
          ([] : List (ℕ × ℕ)) := by
        split <;> rfl
      rw [hym, htail, List.append_nil, range'_months h1 (by omega)]
      congr 2
      omega
    · have hym : yearMonths ey em y m = List.range' m (13 - m) := by
        unfold yearMonths
        refine takeWhile_all (fun a _ => ?_)
        simp [hlast]
      rw [hym, if_neg (fun h => hlast h.1), ih (y + 1) 1 (by omega) (by omega) (by omega) (by omega), range'_months h1 (by omega),
        ← List.map_append]
      congr 1
      rw [show 12 * (y + 1) + 1 - 1 = (12 * y + m - 1) + (13 - m) by omega, List.range'_append_1]
      congr 1
      omega

/-- `populate` downloads the dispatch tables of every month from the one before the start to the end, in order, each
once. -/
theorem C69_months {sy sm ey em : ℕ} (hs : ValidMonth (sy, sm)) (he : ValidMonth (ey, em)) (hy : 1 ≤ sy)
    (hle : monthIndex (sy, sm) ≤ monthIndex (ey, em)) :
    (∀ p, p ∈ populateMonths sy sm ey em ↔
      ValidMonth p ∧ monthIndex (sy, sm) ≤ monthIndex p + 1 ∧ monthIndex p ≤ monthIndex (ey, em)) ∧
    (populateMonths sy sm ey em).Pairwise (fun a b => monthIndex a < monthIndex b) := by
  unfold ValidMonth monthIndex at *
  dsimp only at hs he hle
  have heq : populateMonths sy sm ey em =
      (List.range' (12 * sy + sm - 2) (12 * ey + em - (12 * sy + sm - 2))).map monthOf := by
    unfold populateMonths monthBefore
    by_cases h1 : sm = 1
    · rw [if_pos h1]
      dsimp only
      by_cases hlast : sy - 1 = ey + 1
      · omega
      · rw [monthLoop_eq he _ (sy - 1) 12 (by omega) (by omega) (by omega) (by omega)]
        congr 2 <;> omega
    · rw [if_neg h1]
      dsimp only
      rw [monthLoop_eq he _ sy (sm - 1) (by omega) (by omega) (by omega) (by omega)]
      congr 2 <;> omega
  rw [heq]
  constructor
  · rintro ⟨y, m⟩
    simp only [List.mem_map, List.mem_range'_1]
    unfold monthOf
    constructor
    · rintro ⟨k, hk, e⟩
      rw [Prod.mk.injEq] at e
      omega
    · intro h
      refine ⟨12 * y + m - 1, by omega, ?_⟩
      exact Prod.ext (by dsimp only; omega) (by dsimp only; omega)
  · rw [List.pairwise_map]
    refine List.Pairwise.imp ?_ (List.pairwise_lt_range' (s := 12 * sy + sm - 2) (step := 1) (by decide))
    intro a b hab
    unfold monthOf
    dsimp only
    omega

example : ValidMonth (2019, 1) ∧ ValidMonth (2020, 2) ∧ monthIndex (2019, 1) ≤ monthIndex (2020, 2) ∧
    populateMonths 2019 1 2020 2 = [(2018, 12), (2019, 1), (2019, 2), (2019, 3), (2019, 4), (2019, 5), (2019, 6), (2019, 7),
      (2019, 8), (2019, 9), (2019, 10), (2019, 11), (2019, 12), (2020, 1), (2020, 2)] := by
  unfold ValidMonth monthIndex
  decide +kernel

/-! ### C77: contents of the dispatch tables -/

section
variable {τ κ β : Type} [DecidableEq τ] [DecidableEq κ]

theorem mem_fileData (file : List (FileRow τ κ β)) (r : DispRow τ κ β) : r ∈ fileData file ↔ FirstInFile file r := by
  unfold fileData
  induction file with
  | nil => simp [dropDup, FirstInFile]
  | cons f file ih =>
    rw [List.filter_cons]
    have hi : f.kept = true ↔ ∀ v, f.intervention = some v → v = 0 := by
      unfold FileRow.kept
      cases f.intervention <;> simp
    by_cases hf : ∀ v, f.intervention = some v → v = 0
    · rw [if_pos (hi.2 hf), List.map_cons]
      simp only [dropDup, List.mem_cons, List.mem_filter, decide_eq_true_eq]
      rw [ih]
      unfold FirstInFile
      constructor
      · rintro (rfl | ⟨⟨b, a, i, rfl, h1, h2⟩, hne⟩)
        · exact ⟨[], file, f.intervention, rfl, hf, by simp⟩
        · refine ⟨f :: b, a, i, rfl, h1, fun q hq hq' e => ?_⟩
          rcases List.mem_cons.1 hq with rfl | hq
          · exact hne (Prod.ext e.1.symm e.2.symm)
          · exact h2 q hq hq' e
      · rintro ⟨b, a, i, e, h1, h2⟩
        cases b with
        | nil =>
          simp only [List.nil_append, List.cons.injEq] at e
          left
          rw [e.1]
        | cons q b =>
          rw [List.cons_append, List.cons.injEq] at e
          obtain ⟨rfl, rfl⟩ := e
          refine .inr ⟨⟨b, a, i, rfl, h1, fun x hx => h2 x (List.mem_cons_of_mem _ hx)⟩, fun e => ?_⟩
          unfold DispRow.key at e
          rw [Prod.mk.injEq] at e
          exact h2 f List.mem_cons_self hf ⟨e.1.symm, e.2.symm⟩
    · rw [if_neg (fun h => hf (hi.1 h)), ih]
      unfold FirstInFile
      constructor
      · rintro ⟨b, a, i, rfl, h1, h2⟩
        refine ⟨f :: b, a, i, rfl, h1, fun q hq hq' => ?_⟩
        rcases List.mem_cons.1 hq with rfl | hq
        · exact absurd hq' hf
        · exact h2 q hq hq'
      · rintro ⟨b, a, i, e, h1, h2⟩
        cases b with
        | nil =>
          simp only [List.nil_append, List.cons.injEq] at e
          rw [e.1] at hf
          exact absurd h1 hf
        | cons q b =>
          rw [List.cons_append, List.cons.injEq] at e
          exact ⟨b, a, i, e.2, h1, fun x hx => h2 x (List.mem_cons_of_mem _ hx)⟩

theorem addData_ok {table t : List (DispRow τ κ β)} {download : Option (List (FileRow τ κ β))} :
    addData table download = .ok t ↔ ∃ file, download = some file ∧ (∀ r ∈ fileData file, ∀ q ∈ table, q.key ≠ r.key) ∧
      t = table ++ fileData file := by
  unfold addData
  cases download with
  | none => simp
  | some file =>
    dsimp only
    split
    · rename_i h
      constructor
      · intro h'; cases h'
      · rintro ⟨f, e, h1, -⟩
        cases e
        obtain ⟨r, hr, q, hq, e⟩ := h
        exact absurd e (h1 r hr q hq)
    · rename_i h
      constructor
      · intro h'
        cases h'
        exact ⟨file, rfl, fun r hr q hq e => h ⟨r, hr, q, hq, e⟩, rfl⟩
      · rintro ⟨f, e, -, rfl⟩
        cases e
        rfl

theorem addMonths_ok {download : ℕ × ℕ → Option (List (FileRow τ κ β))} {ms : List (ℕ × ℕ)} {table t : List (DispRow τ κ β)}
    (h : addMonths download ms table = .ok t) (hn : (table.map DispRow.key).Nodup) :
    (∀ r, r ∈ t ↔ r ∈ table ∨ ∃ m ∈ ms, ∃ file, download m = some file ∧ FirstInFile file r) ∧ (t.map DispRow.key).Nodup := by
  induction ms generalizing table with
  | nil =>
    cases h
    exact ⟨fun r => by simp, hn⟩
  | cons m ms ih =>
    unfold addMonths at h
    cases ha : addData table (download m) with
    | error e => rw [ha] at h; cases h
    | ok t' =>
      rw [ha] at h
      obtain ⟨file, hf, hd, rfl⟩ := addData_ok.1 ha
      have hn' : ((table ++ fileData file).map DispRow.key).Nodup := by
        rw [List.map_append, List.nodup_append]
        refine ⟨hn, dropDup_nodup _ _, fun a ha b hb e => ?_⟩
        obtain ⟨q, hq, rfl⟩ := List.mem_map.1 ha
        obtain ⟨r, hr, rfl⟩ := List.mem_map.1 hb
        exact hd r hr q hq e
      obtain ⟨h1, h2⟩ := ih h hn'
      refine ⟨fun r => ?_, h2⟩
      rw [h1, List.mem_append, mem_fileData]
      constructor
      · rintro ((h | h) | ⟨m', hm', h⟩)
        · exact .inl h
        · exact .inr ⟨m, List.mem_cons_self, file, hf, h⟩
        · exact .inr ⟨m', List.mem_cons_of_mem _ hm', h⟩
      · rintro (h | ⟨m', hm', f, hf', h⟩)
        · exact .inl (.inl h)
        · rcases List.mem_cons.1 hm' with rfl | hm'
          · rw [hf] at hf'
            cases hf'
            exact .inl (.inr h)
          · exact .inr ⟨m', hm', f, hf', h⟩

/-- After `populate`, whatever the table had before: `get_data` for a time returns exactly the rows of that time in the files
of the requested months that are not of an intervention run (the first of each key in a file), and no key twice. -/
theorem C77_contents {download : ℕ × ℕ → Option (List (FileRow τ κ β))} {sy sm ey em : ℕ} (hs : ValidMonth (sy, sm))
    (he : ValidMonth (ey, em)) (hy : 1 ≤ sy) (hle : monthIndex (sy, sm) ≤ monthIndex (ey, em))
    {old table : List (DispRow τ κ β)} (h : populate download sy sm ey em old = .ok table) (t : τ) :
    (∀ r, r ∈ bySettlementDate table t ↔ r.time = t ∧ ∃ m, ValidMonth m ∧ monthIndex (sy, sm) ≤ monthIndex m + 1 ∧
      monthIndex m ≤ monthIndex (ey, em) ∧ ∃ file, download m = some file ∧ FirstInFile file r) ∧
    ((bySettlementDate table t).map DispRow.id).Nodup := by
  obtain ⟨h1, h2⟩ := addMonths_ok h (by simp)
  constructor
  · intro r
    unfold bySettlementDate
    rw [List.mem_filter, decide_eq_true_eq, h1, and_comm]
    refine and_congr_right (fun _ => ?_)
    simp only [List.not_mem_nil, false_or]
    constructor
    · rintro ⟨m, hm, f⟩
      obtain ⟨a, b, c⟩ := ((C69_months hs he hy hle).1 m).1 hm
      exact ⟨m, a, b, c, f⟩
    · rintro ⟨m, a, b, c, f⟩
      exact ⟨m, ((C69_months hs he hy hle).1 m).2 ⟨a, b, c⟩, f⟩
  · unfold bySettlementDate
    have hsub : ((table.filter (fun r => decide (r.time = t))).map DispRow.key).Nodup :=
      h2.sublist (List.filter_sublist.map _)
    have hmap : (table.filter (fun r => decide (r.time = t))).map DispRow.key =
        ((table.filter (fun r => decide (r.time = t))).map DispRow.id).map (fun i => (t, i)) := by
      rw [List.map_map]
      refine List.map_congr_left (fun r hr => ?_)
      have := (List.mem_filter.1 hr).2
      rw [decide_eq_true_eq] at this
      exact Prod.ext this rfl
    rw [hmap] at hsub
    exact List.Nodup.of_map _ hsub

/-- `populate` succeeds exactly when the files of all months are there and no key is in the files of two months. -/
theorem C77_succeeds {download : ℕ × ℕ → Option (List (FileRow τ κ β))} {sy sm ey em : ℕ} (old : List (DispRow τ κ β)) :
    (∃ table, populate download sy sm ey em old = .ok table) ↔
      (∀ m ∈ populateMonths sy sm ey em, ∃ file, download m = some file) ∧
      (populateMonths sy sm ey em).Pairwise (fun m n => ∀ f g, download m = some f → download n = some g →
        ∀ q r, FirstInFile f q → FirstInFile g r → ¬(q.time = r.time ∧ q.id = r.id)) := by
  unfold populate
  have key : ∀ (ms : List (ℕ × ℕ)) (table : List (DispRow τ κ β)), (∃ t, addMonths download ms table = .ok t) ↔
      (∀ m ∈ ms, ∃ file, download m = some file) ∧
      (∀ q ∈ table, ∀ m ∈ ms, ∀ f, download m = some f → ∀ r, FirstInFile f r → ¬(q.time = r.time ∧ q.id = r.id)) ∧
      ms.Pairwise (fun m n => ∀ f g, download m = some f → download n = some g →
        ∀ q r, FirstInFile f q → FirstInFile g r → ¬(q.time = r.time ∧ q.id = r.id)) := by
    intro ms
    induction ms with
    | nil => intro table; simp [addMonths]
    | cons m ms ih =>
      intro table
      have hstep : (∃ t, addMonths download (m :: ms) table = .ok t) ↔
          ∃ file, download m = some file ∧ (∀ r ∈ fileData file, ∀ q ∈ table, q.key ≠ r.key) ∧
            ∃ t, addMonths download ms (table ++ fileData file) = .ok t := by
        conv_lhs => unfold addMonths
        constructor
        · rintro ⟨t, h⟩
          cases ha : addData table (download m) with
          | error e => rw [ha] at h; cases h
          | ok t' =>
            rw [ha] at h
            obtain ⟨file, hf, hd, rfl⟩ := addData_ok.1 ha
            exact ⟨file, hf, hd, t, h⟩
        · rintro ⟨file, hf, hd, t, h⟩
          refine ⟨t, ?_⟩
          rw [addData_ok.2 ⟨file, hf, hd, rfl⟩]
          exact h
      rw [hstep]
      constructor
      · rintro ⟨file, hf, hd, ht⟩
        obtain ⟨i1, i2, i3⟩ := (ih _).1 ht
        refine ⟨?_, ?_, List.pairwise_cons.2 ⟨?_, i3⟩⟩
        · intro m' hm'
          rcases List.mem_cons.1 hm' with rfl | hm'
          · exact ⟨file, hf⟩
          · exact i1 m' hm'
        · intro q hq m' hm' f hf' r hr e
          rcases List.mem_cons.1 hm' with rfl | hm'
          · rw [hf] at hf'
            cases hf'
            exact hd r ((mem_fileData _ _).2 hr) q hq (Prod.ext e.1 e.2)
          · exact i2 q (List.mem_append_left _ hq) m' hm' f hf' r hr e
        · intro n hn f g hf' hg q r hq hr
          rw [hf] at hf'
          cases hf'
          exact i2 q (List.mem_append_right _ ((mem_fileData _ _).2 hq)) n hn g hg r hr
      · rintro ⟨h1, h2, h3⟩
        obtain ⟨file, hf⟩ := h1 m List.mem_cons_self
        rw [List.pairwise_cons] at h3
        refine ⟨file, hf, ?_, (ih _).2 ⟨fun m' hm' => h1 m' (List.mem_cons_of_mem _ hm'), ?_, h3.2⟩⟩
        · intro r hr q hq e
          unfold DispRow.key at e
          rw [Prod.mk.injEq] at e
          exact h2 q hq m List.mem_cons_self file hf r ((mem_fileData _ _).1 hr) e
        · intro q hq m' hm' f hf' r hr
          rcases List.mem_append.1 hq with hq | hq
          · exact h2 q hq m' (List.mem_cons_of_mem _ hm') f hf' r hr
          · exact h3.1 m' hm' file f hf hf' q r ((mem_fileData _ _).1 hq) hr
  rw [key]
  simp

/-- Two months, an intervention run and a repeated row -/
def demoDownload : ℕ × ℕ → Option (List (FileRow ℕ String ℕ))
  | (2019, 12) => some [⟨some 0, 1, "NSW", 10⟩, ⟨some 1, 2, "NSW", 11⟩, ⟨some 0, 2, "NSW", 12⟩, ⟨some 0, 2, "NSW", 13⟩]
  | (2020, 1) => some [⟨none, 3, "NSW", 14⟩, ⟨none, 3, "VIC", 15⟩]
  | _ => none

example : populate demoDownload 2020 1 2020 1 [⟨3, "NSW", 99⟩] =
    .ok [⟨1, "NSW", 10⟩, ⟨2, "NSW", 12⟩, ⟨3, "NSW", 14⟩, ⟨3, "VIC", 15⟩] := by decide +kernel

example : populate demoDownload 2020 1 2020 2 [] = .error .missing := by decide +kernel

end

end Verif.Mms
