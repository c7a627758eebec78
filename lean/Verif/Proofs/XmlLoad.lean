import Verif.Proofs.XmlCache
import Verif.Proofs.Tables

/-!
# Lemmas on loading of NEMDE files
-/

namespace Verif.Xml

open Verif

variable {ρ ξ : Type}

theorem name_inj {s t : Time} {name : Name} (hs : s.Valid) (ht : t.Valid) (h1 : name = s.plain ∨ name = s.ocd)
    (h2 : name = t.plain ∨ name = t.ocd) : s = t := by
  rcases h1 with h1 | h1 <;> rcases h2 with h2 | h2
  · exact stem_inj hs ht (List.append_cancel_right (h1.symm.trans h2))
  · exact absurd (h1.symm.trans h2) (plain_ne_ocd s t)
  · exact absurd (h2.symm.trans h1) (plain_ne_ocd t s)
  · exact stem_inj hs ht (List.append_cancel_right (h1.symm.trans h2))

theorem fileName_or (cache : Dict Name ρ) (t : Time) : fileName cache t = t.plain ∨ fileName cache t = t.ocd := by
  unfold fileName
  split
  · exact Or.inl rfl
  · exact Or.inr rfl

theorem has_iff {cache : Dict Name ρ} {n : Name} : cache.has n = true ↔ ∃ raw, cache.get? n = some raw := by
  unfold Dict.has
  rw [Option.isSome_iff_exists]

theorem extract_not (fs : List (Name × ρ)) (cache : Dict Name ρ) {n : Name} (h : n ∉ fs.map Prod.fst) :
    (extract cache fs).get? n = cache.get? n := by
  induction fs generalizing cache with
  | nil => rfl
  | cons f fs ih =>
    simp only [List.map_cons, List.mem_cons, not_or] at h
    show (extract (cache.set f.1 f.2) fs).get? n = _
    rw [ih _ h.2, Dict.get?_set_ne _ _ (Ne.symm h.1)]

theorem extract_mem {fs : List (Name × ρ)} (cache : Dict Name ρ) (hn : (fs.map Prod.fst).Nodup) {f : Name × ρ} (h : f ∈ fs) :
    (extract cache fs).get? f.1 = some f.2 := by
  induction fs generalizing cache with
  | nil => simp at h
  | cons g fs ih =>
    rw [List.map_cons, List.nodup_cons] at hn
    show (extract (cache.set g.1 g.2) fs).get? f.1 = _
    rcases List.mem_cons.1 h with rfl | h
    · rw [extract_not _ _ hn.1, Dict.get?_set_self]
    · exact ih _ hn.2 h

/-- what is read is available -/
theorem fileName_available {cache : Dict Name ρ} {t : Time} {raw : ρ} :
    cache.get? (fileName cache t) = some raw ↔ Available cache t raw := by
  unfold fileName Available Dict.has
  cases h : cache.get? t.plain with
  | none => simp
  | some r =>
    simp [h]

theorem inCache_iff {cache : Dict Name ρ} {t : Time} : inCache cache t = true ↔ ∃ raw, Available cache t raw := by
  unfold inCache
  rw [has_iff]
  simp only [fileName_available]

theorem available_unique {cache : Dict Name ρ} {t : Time} {a b : ρ} (h1 : Available cache t a) (h2 : Available cache t b) : a = b := by
  rw [← fileName_available] at h1 h2
  rw [h1] at h2
  exact Option.some.inj h2

/-! ### With an archive -/

theorem Archive.day {a : Archive ρ} {d : Date} {f : Name × ρ} {t : Time} (ht : t.Valid) (h : f ∈ a.files d)
    (hn : f.1 = t.plain ∨ f.1 = t.ocd) : d = t.marketDay := by
  obtain ⟨s, hs, hd, hs'⟩ := a.named d f h
  rw [name_inj ht hs hn hs', hd]

theorem Archive.days {a : Archive ρ} {d e : Date} {f g : Name × ρ} (hf : f ∈ a.files d) (hg : g ∈ a.files e) (h : f.1 = g.1) :
    d = e := by
  obtain ⟨t, ht, hd, hn⟩ := a.named e g hg
  rw [← h] at hn
  rw [Archive.day ht hf hn, hd]

theorem Archive.cached_extract {a : Archive ρ} {cache : Dict Name ρ} (h : a.Cached cache) (d : Date) :
    a.Cached (extract cache (a.files d)) ∧ ∀ n raw, cache.get? n = some raw → (extract cache (a.files d)).get? n = some raw := by
  have hkeep : ∀ n raw, cache.get? n = some raw → (extract cache (a.files d)).get? n = some raw := by
    intro n raw hn
    by_cases hm : n ∈ (a.files d).map Prod.fst
    · obtain ⟨f, hf, rfl⟩ := List.mem_map.1 hm
      obtain ⟨e, he⟩ := h.1 _ _ hn
      have hde : d = e := Archive.days hf he rfl
      subst hde
      rw [extract_mem _ (a.nodup d) hf]
      rw [h.2 d f hf (has_iff.2 ⟨raw, hn⟩) f hf] at hn
      exact hn
    · rw [extract_not _ _ hm]
      exact hn
  refine ⟨⟨?_, ?_⟩, hkeep⟩
  · intro n raw hn
    by_cases hm : n ∈ (a.files d).map Prod.fst
    · obtain ⟨f, hf, rfl⟩ := List.mem_map.1 hm
      rw [extract_mem _ (a.nodup d) hf] at hn
      refine ⟨d, ?_⟩
      rw [← Option.some.inj hn]
      exact hf
    · rw [extract_not _ _ hm] at hn
      exact h.1 n raw hn
  · intro e f hf hh g hg
    by_cases hm : f.1 ∈ (a.files d).map Prod.fst
    · obtain ⟨f', hf', hff⟩ := List.mem_map.1 hm
      have hde : d = e := Archive.days hf' hf hff
      subst hde
      exact extract_mem _ (a.nodup d) hg
    · refine hkeep _ _ (h.2 e f hf ?_ g hg)
      rw [has_iff] at hh ⊢
      rwa [extract_not _ _ hm] at hh

theorem Archive.available_of {a : Archive ρ} {cache : Dict Name ρ} (h : a.Cached cache) {t : Time} (ht : t.Valid) {raw : ρ}
    (hr : a.Has t raw) (hall : ∀ g ∈ a.files t.marketDay, cache.get? g.1 = some g.2) : Available cache t raw := by
  rcases hr with hr | hr
  · exact Or.inl (hall _ hr)
  · refine Or.inr ⟨?_, hall _ hr⟩
    cases hp : cache.get? t.plain with
    | none => rfl
    | some r =>
      obtain ⟨d, hd⟩ := h.1 _ _ hp
      have hde : d = t.marketDay := Archive.day ht hd (Or.inl rfl)
      subst hde
      exact absurd hr (a.single _ t _ _ hd)

theorem Archive.has_of {a : Archive ρ} {cache : Dict Name ρ} (h : a.Cached cache) {t : Time} (ht : t.Valid) {raw : ρ}
    (hr : Available cache t raw) : a.Has t raw ∧ ∀ g ∈ a.files t.marketDay, cache.get? g.1 = some g.2 := by
  rcases hr with hr | ⟨-, hr⟩
  · obtain ⟨d, hd⟩ := h.1 _ _ hr
    have hde : d = t.marketDay := Archive.day ht hd (Or.inl rfl)
    subst hde
    exact ⟨Or.inl hd, h.2 _ _ hd (has_iff.2 ⟨_, hr⟩)⟩
  · obtain ⟨d, hd⟩ := h.1 _ _ hr
    have hde : d = t.marketDay := Archive.day ht hd (Or.inr rfl)
    subst hde
    exact ⟨Or.inr hd, h.2 _ _ hd (has_iff.2 ⟨_, hr⟩)⟩

theorem Archive.has_unique {a : Archive ρ} {t : Time} {x y : ρ} (h1 : a.Has t x) (h2 : a.Has t y) : x = y := by
  rcases h1 with h1 | h1 <;> rcases h2 with h2 | h2
  · exact congrArg Prod.snd (List.inj_on_of_nodup_map (a.nodup _) h1 h2 rfl)
  · exact absurd h2 (a.single _ t _ _ h1)
  · exact absurd h1 (a.single _ t _ _ h2)
  · exact congrArg Prod.snd (List.inj_on_of_nodup_map (a.nodup _) h1 h2 rfl)

theorem Archive.download_ok {a : Archive ρ} {net : Time → Attempt ρ × Attempt ρ} (h : a.Serves net) (cache : Dict Name ρ) (t : Time) :
    download cache (net t) = .ok (extract cache (a.files t.marketDay)) := by
  unfold download
  rcases h t with h | ⟨h1, h2⟩
  · rw [h]
  · rw [h1]
    dsimp only
    rw [h2]

theorem readFile_of {parse : ρ → Option ξ} {m : Manager ρ ξ} {t : Time} {raw : ρ} {x : ξ} (h : Available m.cache t raw)
    (hp : parse raw = some x) : readFile parse m t = ({ m with xml := some x }, none) := by
  unfold readFile
  rw [fileName_available.2 h]
  dsimp only
  rw [hp]

theorem load_archive {a : Archive ρ} {net : Time → Attempt ρ × Attempt ρ} {parse : ρ → Option ξ} {m : Manager ρ ξ} {t : Time}
    (hc : a.Cached m.cache) (hs : a.Serves net) (ht : t.Valid) (hp : ∀ raw, (parse raw).isSome = true) :
    ∃ m', a.Cached m'.cache ∧ (∀ n raw, m.cache.get? n = some raw → m'.cache.get? n = some raw) ∧
      (∀ raw, a.Has t raw → load parse m t (net t) = (m', none) ∧ m'.xml = parse raw ∧
        ∀ g ∈ a.files t.marketDay, m'.cache.get? g.1 = some g.2) ∧
      ((∀ raw, ¬ a.Has t raw) → load parse m t (net t) = (m', some .missing)) := by
  have hp' : ∀ raw, ∃ x, parse raw = some x := fun raw => Option.isSome_iff_exists.1 (hp raw)
  unfold load
  by_cases hin : inCache m.cache t = true
  · rw [if_pos hin]
    obtain ⟨raw, hraw⟩ := inCache_iff.1 hin
    obtain ⟨hhas, hall⟩ := Archive.has_of hc ht hraw
    obtain ⟨x, hx⟩ := hp' raw
    refine ⟨{ m with interval := some t, xml := some x }, hc, fun _ _ h => h, ?_, fun hno => absurd hhas (hno raw)⟩
    intro raw' hr'
    refine ⟨readFile_of (m := { m with interval := some t }) hraw hx, ?_, hall⟩
    rw [Archive.has_unique hr' hhas, hx]
  · rw [if_neg hin, Archive.download_ok hs]
    dsimp only
    obtain ⟨hc', hkeep⟩ := Archive.cached_extract hc t.marketDay
    have hall : ∀ g ∈ a.files t.marketDay, (extract m.cache (a.files t.marketDay)).get? g.1 = some g.2 :=
      fun g hg => extract_mem _ (a.nodup _) hg
    by_cases hin' : inCache (extract m.cache (a.files t.marketDay)) t = true
    · rw [if_pos hin']
      obtain ⟨raw, hraw⟩ := inCache_iff.1 hin'
      obtain ⟨hhas, -⟩ := Archive.has_of hc' ht hraw
      obtain ⟨x, hx⟩ := hp' raw
      refine ⟨{ m with cache := extract m.cache (a.files t.marketDay), interval := some t, xml := some x }, hc', hkeep, ?_,
        fun hno => absurd hhas (hno raw)⟩
      intro raw' hr'
      refine ⟨readFile_of (m := { m with cache := _, interval := some t }) hraw hx, ?_, hall⟩
      rw [Archive.has_unique hr' hhas, hx]
    · rw [if_neg hin']
      refine ⟨{ m with cache := extract m.cache (a.files t.marketDay), interval := some t }, hc', hkeep, ?_, fun _ => rfl⟩
      intro raw hr
      exact absurd (inCache_iff.2 ⟨raw, Archive.available_of hc' ht hr hall⟩) hin'

/-! ### Days -/

theorem loadDays_spec {a : Archive ρ} {net : Time → Attempt ρ × Attempt ρ} {parse : ρ → Option ξ} (hs : a.Serves net)
    (hp : ∀ raw, (parse raw).isSome = true) (n : ℕ) : ∀ (d : Date) (m m' : Manager ρ ξ), a.Cached m.cache → d.Valid → 2 ≤ d.year →
    loadDays parse net n d m = (m', none) → a.Cached m'.cache ∧
      (∀ n raw, m.cache.get? n = some raw → m'.cache.get? n = some raw) ∧
      ∀ e : Date, e.Valid → d.ordinal ≤ e.ordinal + 1 → e.ordinal + 1 < d.ordinal + n →
        ∀ g ∈ a.files e, m'.cache.get? g.1 = some g.2 := by
  induction n with
  | zero =>
    intro d m m' hc hd hy h
    rw [loadDays] at h
    have : m = m' := congrArg Prod.fst h
    subst this
    exact ⟨hc, fun _ _ h => h, fun e he h1 h2 => by simp at h2; omega⟩
  | succ n ih =>
    intro d m m' hc hd hy h
    have ht : (⟨d, 0⟩ : Time).Valid := ⟨hd, hy, show 0 < 1440 by decide, show 0 % 5 = 0 by decide⟩
    obtain ⟨m1, hc1, hk1, hyes, hno⟩ := load_archive hc hs ht hp
    rw [loadDays] at h
    by_cases hh : ∃ raw, a.Has ⟨d, 0⟩ raw
    · obtain ⟨raw, hraw⟩ := hh
      obtain ⟨hl, -, hall⟩ := hyes raw hraw
      rw [hl] at h
      dsimp only at h
      obtain ⟨nv, no, -, ny⟩ := next_valid hd
      obtain ⟨r1, r2, r3⟩ := ih d.next m1 m' hc1 nv (by omega) h
      refine ⟨r1, fun k raw hk => r2 _ _ (hk1 _ _ hk), ?_⟩
      intro e he h1 h2 g hg
      by_cases h3 : d.ordinal < e.ordinal + 1
      · exact r3 e he (by omega) (by push_cast at h2; omega) g hg
      · refine r2 _ _ (hall g ?_)
        have hmd : (⟨d, 0⟩ : Time).marketDay = d.prev := rfl
        obtain ⟨pv, po, -⟩ := prev_valid hd hy
        have : e = d.prev := ordinal_inj he pv (by omega)
        rw [hmd, ← this]
        exact hg
    · rw [hno (fun raw hr => hh ⟨raw, hr⟩)] at h
      simp at h

theorem findLoop_spec {a : Archive ρ} {net : Time → Attempt ρ × Attempt ρ} {parse : ρ → Option ξ} (hs : a.Serves net)
    (hp : ∀ raw, (parse raw).isSome = true) (violations : ξ → List (String × ℚ)) (limit : ℕ) (finish : Time) (n : ℕ) :
    ∀ (t : Time) (m : Manager ρ ξ) (acc : List (Time × List String)), a.Cached m.cache → t.Valid →
      n = ((finish.minutes - t.minutes) / 5 + 1).toNat → acc.length ≤ limit →
      ∃ m' L, findLoop parse violations net limit finish n t m acc = (m', .ok (acc ++ L)) ∧ acc.length + L.length ≤ limit ∧
        (L.Pairwise fun p q => p.1.minutes < q.1.minutes) ∧
        (∀ p ∈ L, p.1.Valid ∧ t.minutes ≤ p.1.minutes ∧ p.1.minutes ≤ finish.minutes ∧ p.2 ≠ [] ∧
          ∃ raw x, a.Has p.1 raw ∧ parse raw = some x ∧ ∀ v, v ∈ p.2 ↔ ∃ q, (v, q) ∈ violations x ∧ 0 < q) ∧
        ∀ s raw x v q, s.Valid → t.minutes ≤ s.minutes → s.minutes ≤ finish.minutes → a.Has s raw → parse raw = some x →
          (v, q) ∈ violations x → 0 < q →
          (∃ names, (s, names) ∈ L) ∨ (acc.length + L.length = limit ∧ ∀ p ∈ L, p.1.minutes < s.minutes) := by
  induction n with
  | zero =>
    intro t m acc hc ht hn hl
    refine ⟨m, [], ?_, by simpa using hl, List.Pairwise.nil, by simp, ?_⟩
    · rw [findLoop, List.append_nil]
    · intro s raw x v q _ h1 h2
      omega
  | succ n ih =>
    intro t m acc hc ht hn hl
    rw [findLoop]
    have hle : t.minutes ≤ finish.minutes := by omega
    by_cases hlim : acc.length < limit
    · rw [if_pos ⟨hle, hlim⟩]
      obtain ⟨hv, hm⟩ := time_next ht
      have hn' : n = ((finish.minutes - t.next.minutes) / 5 + 1).toNat := by omega
      have hstep : ∀ s : Time, s.Valid → t.minutes ≤ s.minutes → s = t ∨ t.next.minutes ≤ s.minutes := by
        intro s hsv h
        by_cases he : s.minutes = t.minutes
        · exact Or.inl (minutes_inj hsv ht he)
        · right
          obtain ⟨-, -, -, s4⟩ := hsv
          obtain ⟨-, -, -, t4⟩ := ht
          rw [hm]
          unfold Time.minutes at h he ⊢
          omega
      obtain ⟨m1, hc1, -, hyes, hno⟩ := load_archive hc hs ht hp
      by_cases hh : ∃ raw, a.Has t raw
      · obtain ⟨raw, hraw⟩ := hh
        obtain ⟨hl1, hx, -⟩ := hyes raw hraw
        obtain ⟨x, hpx⟩ := Option.isSome_iff_exists.1 (hp raw)
        rw [hl1]
        dsimp only
        rw [hx, hpx]
        dsimp only
        have hnames : ∀ v, v ∈ violated violations x ↔ ∃ q, (v, q) ∈ violations x ∧ 0 < q := by
          intro v
          unfold violated
          simp only [List.mem_map, List.mem_filter, decide_eq_true_eq, Prod.exists]
          constructor
          · rintro ⟨v', q, ⟨h1, h2⟩, h3⟩
            exact ⟨q, h3 ▸ h1, h2⟩
          · rintro ⟨q, h1, h2⟩
            exact ⟨v, q, ⟨h1, h2⟩, rfl⟩
        by_cases hemp : violated violations x = []
        · have henter : enter acc t (violated violations x) = acc := by
            unfold enter
            rw [if_pos hemp]
          rw [henter]
          obtain ⟨m', L, r1, r2, r3, r4, r5⟩ := ih t.next m1 acc hc1 hv hn' hl
          refine ⟨m', L, r1, r2, r3, ?_, ?_⟩
          · intro p hpL
            obtain ⟨a1, a2, a3⟩ := r4 p hpL
            exact ⟨a1, by omega, a3⟩
          · intro s raw' x' v q hsv h1 h2 h3 h4 h5 h6
            rcases hstep s hsv h1 with rfl | h1'
            · rw [Archive.has_unique h3 hraw, hpx] at h4
              have := Option.some.inj h4
              subst this
              have := (hnames v).2 ⟨q, h5, h6⟩
              rw [hemp] at this
              simp at this
            · exact r5 s raw' x' v q hsv h1' h2 h3 h4 h5 h6
        · have henter : enter acc t (violated violations x) = acc ++ [(t, violated violations x)] := by
            unfold enter
            rw [if_neg hemp]
          rw [henter]
          obtain ⟨m', L, r1, r2, r3, r4, r5⟩ := ih t.next m1 (acc ++ [(t, violated violations x)]) hc1 hv hn'
            (by rw [List.length_append, List.length_singleton]; omega)
          simp only [List.length_append, List.length_singleton] at r2 r5
          refine ⟨m', (t, violated violations x) :: L, ?_, ?_, ?_, ?_, ?_⟩
          · rw [r1, List.append_assoc]
            rfl
          · rw [List.length_cons]
            omega
          · rw [List.pairwise_cons]
            refine ⟨?_, r3⟩
            intro p hpL
            have := (r4 p hpL).2.1
            dsimp only
            omega
          · intro p hpL
            rcases List.mem_cons.1 hpL with rfl | hpL
            · exact ⟨ht, le_refl _, hle, hemp, raw, x, hraw, hpx, hnames⟩
            · obtain ⟨a1, a2, a3⟩ := r4 p hpL
              exact ⟨a1, by omega, a3⟩
          · intro s raw' x' v q hsv h1 h2 h3 h4 h5 h6
            rcases hstep s hsv h1 with rfl | h1'
            · exact Or.inl ⟨_, List.mem_cons_self⟩
            · rcases r5 s raw' x' v q hsv h1' h2 h3 h4 h5 h6 with ⟨names, h⟩ | ⟨h, h'⟩
              · exact Or.inl ⟨names, List.mem_cons_of_mem _ h⟩
              · refine Or.inr ⟨by rw [List.length_cons]; omega, ?_⟩
                intro p hpL
                rcases List.mem_cons.1 hpL with rfl | hpL
                · dsimp only
                  omega
                · exact h' p hpL
      · rw [hno (fun raw hr => hh ⟨raw, hr⟩)]
        dsimp only
        obtain ⟨m', L, r1, r2, r3, r4, r5⟩ := ih t.next m1 acc hc1 hv hn' hl
        refine ⟨m', L, r1, r2, r3, ?_, ?_⟩
        · intro p hpL
          obtain ⟨a1, a2, a3⟩ := r4 p hpL
          exact ⟨a1, by omega, a3⟩
        · intro s raw' x' v q hsv h1 h2 h3 h4 h5 h6
          rcases hstep s hsv h1 with rfl | h1'
          · exact absurd ⟨raw', h3⟩ hh
          · exact r5 s raw' x' v q hsv h1' h2 h3 h4 h5 h6
    · rw [if_neg (fun h => hlim h.2)]
      refine ⟨m, [], by rw [List.append_nil], by simpa using hl, List.Pairwise.nil, by simp, ?_⟩
      intro s raw x v q _ _ _ _ _ _ _
      refine Or.inr ⟨?_, by simp⟩
      rw [List.length_nil]
      omega

end Verif.Xml
