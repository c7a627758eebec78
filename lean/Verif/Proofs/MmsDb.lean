import Verif.Spec.MmsDb
import Verif.Proofs.Tables
import Mathlib.Algebra.Order.Field.Rat
import Mathlib.Data.List.Sort

/-!
# Lemmas on the historical database
-/

namespace Verif.Mms

open Verif

/-! ### Effective dates -/

section
variable {α : Type} [LinearOrder α]

theorem maxOf_spec (a : α) (l : List α) : a ≤ maxOf a l ∧ (∀ b ∈ l, b ≤ maxOf a l) ∧ (maxOf a l = a ∨ maxOf a l ∈ l) := by
  induction l generalizing a with
  | nil => simp [maxOf]
  | cons b l ih =>
    obtain ⟨h1, h2, h3⟩ := ih (max a b)
    have e : maxOf a (b :: l) = maxOf (max a b) l := rfl
    rw [e]
    refine ⟨(le_max_left a b).trans h1, ?_, ?_⟩
    · intro c hc
      rcases List.mem_cons.1 hc with rfl | hc
      · exact (le_max_right a c).trans h1
      · exact h2 c hc
    · rcases h3 with h3 | h3
      · rcases max_choice a b with h | h
        · exact .inl (h3.trans h)
        · exact .inr (by rw [h3, h]; exact List.mem_cons_self)
      · exact .inr (List.mem_cons_of_mem _ h3)

end

section
variable {τ κ β : Type} [LinearOrder τ] [DecidableEq κ]

theorem lastDate_spec (g : κ × τ × ℚ) (l : List (κ × τ × ℚ)) :
    (lastDate g l = g ∨ lastDate g l ∈ l) ∧ g.2.1 ≤ (lastDate g l).2.1 ∧ ∀ b ∈ l, b.2.1 ≤ (lastDate g l).2.1 := by
  induction l generalizing g with
  | nil => simp [lastDate]
  | cons b l ih =>
    have e : lastDate g (b :: l) = lastDate (if g.2.1 < b.2.1 then b else g) l := rfl
    rw [e]
    obtain ⟨h1, h2, h3⟩ := ih (if g.2.1 < b.2.1 then b else g)
    by_cases hlt : g.2.1 < b.2.1
    · rw [if_pos hlt] at h1 h2 h3 ⊢
      refine ⟨.inr ?_, hlt.le.trans h2, ?_⟩
      · rcases h1 with h | h
        · rw [h]; exact List.mem_cons_self
        · exact List.mem_cons_of_mem _ h
      · intro c hc
        rcases List.mem_cons.1 hc with rfl | hc
        · exact h2
        · exact h3 c hc
    · rw [if_neg hlt] at h1 h2 h3 ⊢
      refine ⟨?_, h2, ?_⟩
      · rcases h1 with h | h
        · exact .inl h
        · exact .inr (List.mem_cons_of_mem _ h)
      · intro c hc
        rcases List.mem_cons.1 hc with rfl | hc
        · exact (not_lt.1 hlt).trans h2
        · exact h3 c hc

theorem latestVersions_nodup (rows : List (EffRow τ κ β)) (t : τ) :
    ((latestVersions rows t).map (fun g => (g.1, g.2.1))).Nodup := by
  unfold latestVersions
  dsimp only
  rw [List.map_map]
  exact dropDup_nodup (fun r : EffRow τ κ β => (r.id, r.date)) _

theorem mem_latestVersions (rows : List (EffRow τ κ β)) (t : τ) (k : κ) (d : τ) (v : ℚ) :
    (k, d, v) ∈ latestVersions rows t ↔ d ≤ t ∧ (∃ r ∈ rows, r.id = k ∧ r.date = d ∧ r.version = v) ∧
      ∀ s ∈ rows, s.id = k → s.date = d → s.version ≤ v := by
  have fwd : ∀ k d v, (k, d, v) ∈ latestVersions rows t → d ≤ t ∧ (∃ r ∈ rows, r.id = k ∧ r.date = d ∧ r.version = v) ∧
      ∀ s ∈ rows, s.id = k → s.date = d → s.version ≤ v := by
    intro k d v h
    unfold latestVersions at h
    obtain ⟨g, hg, e⟩ := List.mem_map.1 h
    obtain ⟨hg1, hg2⟩ := List.mem_filter.1 (mem_of_mem_dropDup hg)
    rw [decide_eq_true_eq] at hg2
    rw [Prod.mk.injEq, Prod.mk.injEq] at e
    obtain ⟨rfl, rfl, rfl⟩ := e
    obtain ⟨m1, m2, m3⟩ := maxOf_spec g.version (((rows.filter (fun r : EffRow τ κ β => decide (r.date ≤ t))).filter
      (fun r : EffRow τ κ β => decide ((r.id, r.date) = (g.id, g.date)))).map EffRow.version)
    refine ⟨hg2, ?_, ?_⟩
    · rcases m3 with m3 | m3
      · exact ⟨g, hg1, rfl, rfl, m3.symm⟩
      · obtain ⟨r, hr, er⟩ := List.mem_map.1 m3
        obtain ⟨hr1, hr2⟩ := List.mem_filter.1 hr
        rw [decide_eq_true_eq, Prod.mk.injEq] at hr2
        exact ⟨r, (List.mem_filter.1 hr1).1, hr2.1, hr2.2, er⟩
    · intro s hs e1 e2
      refine m2 _ (List.mem_map.2 ⟨s, List.mem_filter.2 ⟨List.mem_filter.2 ⟨hs, ?_⟩, ?_⟩, rfl⟩)
      · rw [decide_eq_true_eq, e2]; exact hg2
      · rw [decide_eq_true_eq, e1, e2]
  refine ⟨fwd k d v, ?_⟩
  rintro ⟨h1, ⟨r, hr, rfl, rfl, rfl⟩, h3⟩
  have hr' : r ∈ rows.filter (fun r => decide (r.date ≤ t)) := List.mem_filter.2 ⟨hr, by simpa using h1⟩
  obtain ⟨g, hg, eg⟩ := exists_dropDup (key := fun r : EffRow τ κ β => (r.id, r.date)) hr'
  rw [Prod.mk.injEq] at eg
  have hm : (g.id, g.date, maxOf g.version (((rows.filter (fun r => decide (r.date ≤ t))).filter
      (fun r => decide ((r.id, r.date) = (g.id, g.date)))).map EffRow.version)) ∈ latestVersions rows t := by
    unfold latestVersions
    exact List.mem_map.2 ⟨g, hg, rfl⟩
  generalize maxOf g.version _ = w at hm
  obtain ⟨-, ⟨q, hq, e1, e2, e3⟩, h6⟩ := fwd _ _ _ hm
  have ew : w = r.version := le_antisymm (by rw [← e3]; exact h3 q hq (e1.trans eg.1) (e2.trans eg.2)) (h6 r hr eg.1.symm eg.2.symm)
  rw [eg.1, eg.2, ew] at hm
  exact hm

theorem mem_latestDates {l : List (κ × τ × ℚ)} (hn : (l.map (fun g => (g.1, g.2.1))).Nodup) (g : κ × τ × ℚ) :
    g ∈ latestDates l ↔ g ∈ l ∧ ∀ h ∈ l, h.1 = g.1 → h.2.1 ≤ g.2.1 := by
  have key : ∀ q ∈ l, lastDate q (l.filter (fun r => decide (r.1 = q.1))) ∈ l ∧
      (lastDate q (l.filter (fun r => decide (r.1 = q.1)))).1 = q.1 ∧
      ∀ h ∈ l, h.1 = q.1 → h.2.1 ≤ (lastDate q (l.filter (fun r => decide (r.1 = q.1)))).2.1 := by
    intro q hq
    obtain ⟨h1, h2, h3⟩ := lastDate_spec q (l.filter (fun r => decide (r.1 = q.1)))
    have hmem : lastDate q (l.filter (fun r => decide (r.1 = q.1))) ∈ l.filter (fun r => decide (r.1 = q.1)) := by
      rcases h1 with h1 | h1
      · rw [h1]; exact List.mem_filter.2 ⟨hq, by simp⟩
      · exact h1
    obtain ⟨m1, m2⟩ := List.mem_filter.1 hmem
    exact ⟨m1, by simpa using m2, fun h hh e => h3 h (List.mem_filter.2 ⟨hh, by simpa using e⟩)⟩
  unfold latestDates
  rw [List.mem_map]
  constructor
  · rintro ⟨q, hq, rfl⟩
    obtain ⟨k1, k2, k3⟩ := key q (mem_of_mem_dropDup hq)
    exact ⟨k1, fun h hh e => k3 h hh (e.trans k2)⟩
  · rintro ⟨h1, h2⟩
    obtain ⟨q, hq, e⟩ := exists_dropDup (key := fun g : κ × τ × ℚ => g.1) h1
    refine ⟨q, hq, ?_⟩
    obtain ⟨k1, k2, k3⟩ := key q (mem_of_mem_dropDup hq)
    refine List.inj_on_of_nodup_map hn k1 h1 ?_
    refine Prod.ext (k2.trans e) ?_
    exact le_antisymm (h2 _ k1 (k2.trans e)) (k3 g h1 e.symm)

theorem latestDates_nodup (l : List (κ × τ × ℚ)) : ((latestDates l).map (fun g => g.1)).Nodup := by
  have : (latestDates l).map (fun g => g.1) = (dropDup (fun g => g.1) l).map (fun g => g.1) := by
    unfold latestDates
    rw [List.map_map]
    refine List.map_congr_left (fun q hq => ?_)
    obtain ⟨h1, -⟩ := lastDate_spec q (l.filter (fun r => decide (r.1 = q.1)))
    show (lastDate q (l.filter (fun r => decide (r.1 = q.1)))).1 = q.1
    rcases h1 with h | h
    · rw [h]
    · simpa using (List.mem_filter.1 h).2
  rw [this]
  exact dropDup_nodup _ _

theorem mem_latest (rows : List (EffRow τ κ β)) (t : τ) (r : EffRow τ κ β) (hr : r ∈ rows) :
    (r.id, r.date, r.version) ∈ latestDates (latestVersions rows t) ↔ InEffect rows t r := by
  rw [mem_latestDates (latestVersions_nodup rows t), mem_latestVersions]
  unfold InEffect
  constructor
  · rintro ⟨⟨h1, -, h3⟩, h4⟩
    refine ⟨h1, fun s hs es hst => ?_⟩
    have hle : s.date ≤ r.date := by
      obtain ⟨q, hq, eq⟩ := exists_dropDup (key := fun r : EffRow τ κ β => (r.id, r.date))
        (List.mem_filter.2 ⟨hs, decide_eq_true hst⟩ : s ∈ rows.filter (fun r => decide (r.date ≤ t)))
      rw [Prod.mk.injEq] at eq
      have hm : (q.id, q.date, maxOf q.version (((rows.filter (fun r => decide (r.date ≤ t))).filter
          (fun r => decide ((r.id, r.date) = (q.id, q.date)))).map EffRow.version)) ∈ latestVersions rows t :=
        List.mem_map.2 ⟨q, hq, rfl⟩
      have := h4 _ hm (eq.1.trans es)
      dsimp only at this
      rwa [eq.2] at this
    rcases lt_or_eq_of_le hle with h | h
    · exact .inl h
    · exact .inr ⟨h, h3 s hs es h⟩
  · rintro ⟨h1, h2⟩
    refine ⟨⟨h1, ⟨r, hr, rfl, rfl, rfl⟩, fun s hs e1 e2 => ?_⟩, ?_⟩
    · rcases h2 s hs e1 (e2.le.trans h1) with h | h
      · exact absurd e2 h.ne
      · exact h.2
    · rintro ⟨k, d, v⟩ hh e
      obtain ⟨g1, ⟨s, hs, rfl, rfl, rfl⟩, -⟩ := (mem_latestVersions rows t k d v).1 hh
      dsimp only at e ⊢
      rcases h2 s hs e g1 with h | h
      · exact h.le
      · exact h.1.le

theorem flatMap_if {α : Type} (l : List α) (f : α → List α) (p : α → Bool)
    (h : ∀ a ∈ l, f a = if p a then [a] else []) : l.flatMap f = l.filter p := by
  induction l with
  | nil => rfl
  | cons a l ih =>
    rw [List.flatMap_cons, h a List.mem_cons_self, ih (fun b hb => h b (List.mem_cons_of_mem _ hb)), List.filter_cons]
    cases p a <;> rfl

theorem filter_one_or_none {ι α : Type} [DecidableEq ι] {l : List α} {key : α → ι} (hn : (l.map key).Nodup) (p : α → Bool)
    (k : ι) (hp : ∀ a ∈ l, p a = true → key a = k) : l.filter p = [] ∨ ∃ a ∈ l, l.filter p = [a] ∧ p a = true := by
  by_cases h : ∃ a ∈ l, p a = true
  · obtain ⟨a, ha, hpa⟩ := h
    refine .inr ⟨a, ha, ?_, hpa⟩
    have e : l.filter p = l.filter (fun b => decide (key b = key a)) := by
      refine List.filter_congr (fun b hb => ?_)
      by_cases hb' : p b = true
      · rw [hb', hp a ha hpa, hp b hb hb']; simp
      · have : key b ≠ key a := by
          intro e
          exact hb' (by rw [List.inj_on_of_nodup_map hn hb ha e]; exact hpa)
        simp [this, hb']
    rw [e]
    exact filter_key_unique hn ha
  · push Not at h
    left
    rw [List.filter_eq_nil_iff]
    exact h

theorem byEffectiveDate_eq (rows : List (EffRow τ κ β)) (t : τ) :
    byEffectiveDate rows t = rows.filter (fun r => decide (InEffect rows t r)) := by
  unfold byEffectiveDate
  refine flatMap_if _ _ _ (fun r hr => ?_)
  have hm := mem_latest rows t r hr
  have hmem : ∀ g ∈ latestDates (latestVersions rows t),
      decide (g.1 = r.id ∧ g.2.2 = r.version ∧ g.2.1 = r.date) = true → g = (r.id, r.date, r.version) := by
    intro g _ hg
    rw [decide_eq_true_eq] at hg
    exact Prod.ext hg.1 (Prod.ext hg.2.2 hg.2.1)
  rcases filter_one_or_none (latestDates_nodup _) (fun g => decide (g.1 = r.id ∧ g.2.2 = r.version ∧ g.2.1 = r.date)) r.id
    (fun g hg hp => congrArg Prod.fst (hmem g hg hp)) with h | ⟨g, hg, h, hp⟩
  · rw [h]
    have : ¬InEffect rows t r := by
      rw [← hm]
      intro hc
      have := List.filter_eq_nil_iff.1 h _ hc
      simp at this
    simp [this]
  · rw [h]
    have : InEffect rows t r := by
      rw [← hm, ← hmem g hg hp]
      exact hg
    simp [this]

/-! ### Start dates -/

theorem dropDupLast_spec {α ι : Type} [DecidableEq ι] (key : α → ι) (l : List α) (a : α) :
    a ∈ dropDupLast key l ↔ ∃ l1 l2, l = l1 ++ a :: l2 ∧ ∀ b ∈ l2, key b ≠ key a := by
  have hfirst : ∀ (m : List α), a ∈ dropDup key m ↔ ∃ m1 m2, m = m1 ++ a :: m2 ∧ ∀ b ∈ m1, key b ≠ key a := by
    intro m
    induction m with
    | nil => simp [dropDup]
    | cons c m ih =>
      simp only [dropDup, List.mem_cons, List.mem_filter, decide_eq_true_eq]
      constructor
      · rintro (rfl | ⟨h1, h2⟩)
        · exact ⟨[], m, rfl, by simp⟩
        · obtain ⟨m1, m2, rfl, h3⟩ := ih.1 h1
          refine ⟨c :: m1, m2, rfl, fun b hb => ?_⟩
          rcases List.mem_cons.1 hb with rfl | hb
          · exact fun e => h2 e.symm
          · exact h3 b hb
      · rintro ⟨m1, m2, e, h⟩
        cases m1 with
        | nil =>
          simp only [List.nil_append, List.cons.injEq] at e
          exact .inl e.1.symm
        | cons b m1 =>
          simp only [List.cons_append, List.cons.injEq] at e
          obtain ⟨rfl, rfl⟩ := e
          exact .inr ⟨ih.2 ⟨m1, m2, rfl, fun x hx => h x (List.mem_cons_of_mem _ hx)⟩,
            fun e => h c List.mem_cons_self e.symm⟩
  unfold dropDupLast
  rw [List.mem_reverse, hfirst]
  constructor
  · rintro ⟨m1, m2, e, h⟩
    refine ⟨m2.reverse, m1.reverse, ?_, fun b hb => h b (List.mem_reverse.1 hb)⟩
    rw [← List.reverse_reverse l, e]
    simp
  · rintro ⟨l1, l2, rfl, h⟩
    exact ⟨l2.reverse, l1.reverse, by simp, fun b hb => h b (List.mem_reverse.1 hb)⟩

theorem dropDupLast_nodup {α ι : Type} [DecidableEq ι] (key : α → ι) (l : List α) : ((dropDupLast key l).map key).Nodup := by
  unfold dropDupLast
  rw [List.map_reverse, List.nodup_reverse]
  exact dropDup_nodup _ _

end

/-! ### History -/

section
variable {ρ κ : Type} [DecidableEq κ]

theorem filter_key_append_new (key : ρ → κ) (t data : List ρ) (ks : List κ) (hk : ∀ k, k ∈ ks ↔ ∃ r ∈ t, key r = k) (k : κ) :
    (t ++ data.filter (fun r => !decide (key r ∈ ks))).filter (fun r => decide (key r = k)) =
      if ∃ r ∈ t, key r = k then t.filter (fun r => decide (key r = k)) else data.filter (fun r => decide (key r = k)) := by
  rw [List.filter_append, List.filter_filter]
  by_cases h : ∃ r ∈ t, key r = k
  · rw [if_pos h]
    have : data.filter (fun r => decide (key r = k) && !decide (key r ∈ ks)) = [] := by
      rw [List.filter_eq_nil_iff]
      intro r _ hc
      rw [Bool.and_eq_true, decide_eq_true_eq, Bool.not_eq_true', decide_eq_false_iff_not] at hc
      exact hc.2 (by rw [hc.1]; exact (hk k).2 h)
    rw [this, List.append_nil]
  · rw [if_neg h]
    have h1 : t.filter (fun r => decide (key r = k)) = [] := by
      rw [List.filter_eq_nil_iff]
      intro r hr hc
      exact h ⟨r, hr, by simpa using hc⟩
    rw [h1, List.nil_append]
    refine List.filter_congr (fun r _ => ?_)
    by_cases e : key r = k
    · have : decide (key r ∈ ks) = false := decide_eq_false (by rw [e, hk]; exact h)
      rw [this]
      simp
    · simp [e]

/-- the state while the months are read -/
theorem hist_fold (key : ρ → κ) (months : List (Option (List ρ))) (s : List ρ × List κ)
    (hs : s.2 = s.1.map key) :
    (months.foldl (histMonth key) s).2 = (months.foldl (histMonth key) s).1.map key ∧
    ∀ k, (months.foldl (histMonth key) s).1.filter (fun r => decide (key r = k)) =
      if ∃ r ∈ s.1, key r = k then s.1.filter (fun r => decide (key r = k)) else newest key k months := by
  induction months generalizing s with
  | nil =>
    refine ⟨hs, fun k => ?_⟩
    by_cases h : ∃ r ∈ s.1, key r = k
    · rw [if_pos h]; rfl
    · rw [if_neg h]
      show s.1.filter _ = []
      rw [List.filter_eq_nil_iff]
      intro r hr hc
      exact h ⟨r, hr, by simpa using hc⟩
  | cons m ms ih =>
    cases m with
    | none => exact ih s hs
    | some data =>
      rw [List.foldl_cons]
      show ((ms.foldl (histMonth key) (histStep key s data)).2 = (ms.foldl (histMonth key) (histStep key s data)).1.map key) ∧
        ∀ k, (ms.foldl (histMonth key) (histStep key s data)).1.filter (fun r => decide (key r = k)) = _
      have hmem : ∀ k, k ∈ s.2 ↔ ∃ r ∈ s.1, key r = k := by
        intro k
        rw [hs, List.mem_map]
      have hs' : (histStep key s data).2 = (histStep key s data).1.map key := by
        unfold histStep
        split
        · rfl
        · rw [List.map_append, hs]
      have hf : ∀ k, (histStep key s data).1.filter (fun r => decide (key r = k)) =
          if ∃ r ∈ s.1, key r = k then s.1.filter (fun r => decide (key r = k)) else
            data.filter (fun r => decide (key r = k)) := by
        intro k
        unfold histStep
        split
        · rename_i h0
          have : s.1 = [] := by
            rw [hs] at h0
            exact List.map_eq_nil_iff.1 h0
          rw [this]
          simp
        · exact filter_key_append_new key s.1 data s.2 hmem k
      obtain ⟨i1, i2⟩ := ih _ hs'
      refine ⟨i1, fun k => ?_⟩
      rw [i2 k, hf k]
      have hex : (∃ r ∈ (histStep key s data).1, key r = k) ↔ (∃ r ∈ s.1, key r = k) ∨ ∃ r ∈ data, key r = k := by
        have hne : (∃ r ∈ (histStep key s data).1, key r = k) ↔
            (histStep key s data).1.filter (fun r => decide (key r = k)) ≠ [] := by
          rw [Ne, List.filter_eq_nil_iff]
          push Not
          simp
        rw [hne, hf k]
        by_cases h1 : ∃ r ∈ s.1, key r = k
        · rw [if_pos h1]
          simp only [h1, true_or, iff_true, Ne, List.filter_eq_nil_iff]
          push Not
          simpa using h1
        · rw [if_neg h1]
          simp only [h1, false_or, Ne, List.filter_eq_nil_iff]
          push Not
          simp
      by_cases h1 : ∃ r ∈ s.1, key r = k
      · rw [if_pos (hex.2 (.inl h1)), if_pos h1, if_pos h1]
      · rw [if_neg h1, if_neg h1]
        by_cases h2 : ∃ r ∈ data, key r = k
        · rw [if_pos (hex.2 (.inr h2))]
          unfold newest
          rw [if_pos h2]
        · rw [if_neg (by rw [hex]; exact not_or.2 ⟨h1, h2⟩)]
          conv_rhs => unfold newest
          rw [if_neg h2]

end

end Verif.Mms
