import Verif.Proofs.Frame

/-! The coefficients of a constraint do not depend on the other constraint sets. -/

namespace Verif

theorem get?_filter_self {κ α : Type} [DecidableEq κ] (d : Dict κ α) (k : κ) :
    Dict.get? (d.filter (fun e => decide (e.1 = k))) k = d.get? k := by
  induction d with
  | nil => rfl
  | cons e d ih =>
    obtain ⟨k', v⟩ := e
    by_cases h : k' = k
    · simp [Dict.get?, h]
    · simp [Dict.get?, h, ih]

theorem get?_filter_ne {κ α : Type} [DecidableEq κ] (d : Dict κ α) {k k' : κ} (h : k' ≠ k) :
    Dict.get? (d.filter (fun e => decide (e.1 = k))) k' = none := by
  induction d with
  | nil => rfl
  | cons e d ih =>
    obtain ⟨k'', v⟩ := e
    by_cases h' : k'' = k
    · subst h'; simp [Dict.get?, h.symm, ih]
    · simp [h', ih]

theorem inTab_only {m : Market} {k k' : CKey} {c : Nat} (h : InTab (m.only k) k' c) : InTab m k' c := by
  rcases h with ⟨t, h, r⟩ | ⟨t, h, r⟩ | ⟨t, h, r⟩ | ⟨t, h, r⟩ | ⟨t, h, r⟩ | ⟨rfl, h⟩ | ⟨rfl, h⟩
  · exact Or.inl ⟨t, List.mem_of_mem_filter h, r⟩
  · exact Or.inr (Or.inl ⟨t, List.mem_of_mem_filter h, r⟩)
  · exact Or.inr (Or.inr (Or.inl ⟨t, List.mem_of_mem_filter h, r⟩))
  · exact Or.inr (Or.inr (Or.inr (Or.inl ⟨t, List.mem_of_mem_filter h, r⟩)))
  · exact Or.inr (Or.inr (Or.inr (Or.inr (Or.inl ⟨t, List.mem_of_mem_filter h, r⟩))))
  · refine Or.inr (Or.inr (Or.inr (Or.inr (Or.inr (Or.inl ⟨rfl, ?_⟩)))))
    by_cases hk : k = .interpWeights
    · simpa [Market.only, hk] using h
    · simp [Market.only, hk] at h
  · refine Or.inr (Or.inr (Or.inr (Or.inr (Or.inr (Or.inr ⟨rfl, ?_⟩)))))
    by_cases hk : k = .tieBreak
    · simpa [Market.only, hk] using h
    · simp [Market.only, hk] at h

theorem count_filter_le' {κ : Type} [DecidableEq κ] (d : Dict κ (List Row)) (k : κ) (i : Nat) :
    (((d.filter (fun e => decide (e.1 = k))).flatMap (fun e => e.2.map Row.cid)).count i) ≤
      ((d.flatMap (fun e => e.2.map Row.cid)).count i) := by
  induction d with
  | nil => simp
  | cons e d ih =>
    by_cases h : e.1 = k
    · simp only [List.filter_cons, h, decide_true, if_true, List.flatMap_cons, List.count_append]; omega
    · simp only [List.filter_cons, h, decide_false, List.flatMap_cons, List.count_append, Bool.false_eq_true, if_false]; omega

theorem conWF_only {m : Market} (h : ConWF m) (k : CKey) : ConWF (m.only k) := by
  have nk : ∀ {α : Type} (d : Dict CKey α), d.NodupKeys → Dict.NodupKeys (d.filter (fun e => decide (e.1 = k))) := by
    intro α d hd
    exact List.Nodup.sublist (List.Sublist.map _ List.filter_sublist) hd
  have hr : ∀ i, (m.only k).rcount i ≤ m.rcount i := by
    intro i
    unfold Market.rcount
    have h1 := count_filter_le' m.conRhs k i
    have h2 := count_filter_le' m.mktRhs k i
    have h3 : ((((m.only k).dynRhs).getD []).map DynRow.cid).count i ≤ (((m.dynRhs).getD []).map DynRow.cid).count i := by
      by_cases hk : k = .interpWeights
      · simp [Market.only, hk]
      · simp [Market.only, hk]
    simp only [Market.only] at h1 h2 h3 ⊢
    omega
  refine ⟨?_, ?_, nk _ h.unitKeys, nk _ h.regKeys, nk _ h.conKeys, nk _ h.mktKeys, nk _ h.defKeys, ?_, ?_⟩
  · obtain ⟨own, ho⟩ := h.own
    exact ⟨own, fun k' c hc => ho k' c (inTab_only hc)⟩
  · intro i
    obtain ⟨a, b⟩ := h.rows i
    refine ⟨(hr i).trans a, fun hi => ?_⟩
    have := b hi
    have := hr i
    omega
  · intro e he; exact h.conMkt e (List.mem_of_mem_filter he)
  · intro e he; exact h.mktMkt e (List.mem_of_mem_filter he)

theorem ownTerms_only (m : Market) (k : CKey) : (m.only k).ownTerms k = m.ownTerms k := by
  unfold Market.ownTerms Market.genericRows
  by_cases h1 : k = .generic
  · subst h1; simp [Market.only, get?_filter_self, Market.genericTermsFor, Market.regVars]
  by_cases h2 : k = .fcas
  · subst h2; simp [Market.only, get?_filter_self, Market.genericTermsFor, Market.regVars]
  by_cases h3 : k = .interpWeights
  · subst h3; simp [Market.only, get?_filter_self, Market.genericTermsFor, Market.regVars]
  by_cases h4 : k = .tieBreak
  · subst h4; simp [Market.only, get?_filter_self, Market.genericTermsFor, Market.regVars]
  · simp [Market.only, get?_filter_self, Market.genericTermsFor, Market.regVars, h1, h2, h3, h4]

theorem inTab_of_rowOf {m : Market} {k : CKey} {c : Nat} (h : m.rowOf k c) : InTab m k c := by
  rcases h with ⟨rows, h1, r, h2, h3⟩ | ⟨rows, h1, r, h2, h3⟩ | ⟨h1, r, h2, h3⟩
  · exact Or.inr (Or.inr (Or.inl ⟨rows, Dict.mem_of_get? h1, r, h2, h3⟩))
  · exact Or.inr (Or.inr (Or.inr (Or.inl ⟨rows, Dict.mem_of_get? h1, r, h2, h3⟩)))
  · exact Or.inr (Or.inr (Or.inr (Or.inr (Or.inr (Or.inl ⟨h1, Or.inr ⟨r, h2, h3⟩⟩)))))

theorem rowOf_only {m : Market} {k : CKey} {c : Nat} (h : m.rowOf k c) : (m.only k).rowOf k c := by
  rcases h with ⟨rows, h1, r⟩ | ⟨rows, h1, r⟩ | ⟨h1, r⟩
  · exact Or.inl ⟨rows, by simpa [Market.only, get?_filter_self] using h1, r⟩
  · exact Or.inr (Or.inl ⟨rows, by simpa [Market.only, get?_filter_self] using h1, r⟩)
  · exact Or.inr (Or.inr ⟨h1, by simpa [Market.only, h1] using r⟩)

theorem rowOf_of_allRows {m : Market} (hw : ConWF m) {c : Nat} {ty : CType} {r : Rhs} (h : (c, ty, r) ∈ m.allRows) :
    ∃ k, m.rowOf k c := by
  simp only [Market.allRows, Dict.concat, List.mem_append, List.mem_map, List.mem_flatMap] at h
  rcases h with (⟨r', ⟨e, he, hr⟩, heq⟩ | ⟨r', ⟨e, he, hr⟩, heq⟩) | ⟨r', hr, heq⟩
  · injection heq with h1 h2
    exact ⟨e.1, Or.inl ⟨e.2, Dict.get?_of_mem hw.conKeys he, r', hr, h1⟩⟩
  · injection heq with h1 h2
    exact ⟨e.1, Or.inr (Or.inl ⟨e.2, Dict.get?_of_mem hw.mktKeys he, r', hr, h1⟩)⟩
  · injection heq with h1 h2
    exact ⟨.interpWeights, Or.inr (Or.inr ⟨rfl, r', hr, h1⟩)⟩

theorem groupCoefs_congr {a b : List Term} {c : Nat}
    (h : a.filter (fun t => decide (t.cid = c)) = b.filter (fun t => decide (t.cid = c))) :
    groupCoefs a c = groupCoefs b c := by
  unfold groupCoefs; rw [h]

theorem solverRows_cids {ts : List Term} {rows : List (Nat × CType × Rhs)} {cs : List Nat} {out : List LRow}
    (h : solverRows ts rows cs = .ok out) : out.map LRow.cid = cs := by
  induction cs generalizing out with
  | nil => simp only [solverRows, Except.ok.injEq] at h; subst h; rfl
  | cons c cs ih =>
    simp only [solverRows] at h
    split at h
    · cases h
    split at h
    · cases h
    split at h
    · cases h
    rename_i rest hrest
    injection h with h
    subst h
    simp [ih hrest]

end Verif
