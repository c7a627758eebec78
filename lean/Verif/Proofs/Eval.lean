import Verif.Proofs.Ids

/-! What the rows of the assembled program say, in terms of the tables of the market. -/

namespace Verif

/-- value of the left hand side of constraint `c` -/
def rowVal (ts : List Term) (x : Nat → ℚ) (c : Nat) : ℚ :=
  ((ts.filter (fun t => decide (t.cid = c))).map (fun t => t.coef * x t.vid)).sum

theorem rowVal_append (a b : List Term) (x : Nat → ℚ) (c : Nat) :
    rowVal (a ++ b) x c = rowVal a x c + rowVal b x c := by
  simp [rowVal]

theorem rowVal_nil (x : Nat → ℚ) (c : Nat) : rowVal [] x c = 0 := by simp [rowVal]

theorem rowVal_zero {ts : List Term} {x : Nat → ℚ} {c : Nat} (h : ∀ t ∈ ts, t.cid ≠ c) : rowVal ts x c = 0 := by
  have : ts.filter (fun t => decide (t.cid = c)) = [] := by
    rw [List.filter_eq_nil_iff]; intro t ht; simpa using h t ht
  simp [rowVal, this]

theorem rowVal_flatMap {α : Type} (l : List α) (f : α → List Term) (x : Nat → ℚ) (c : Nat) :
    rowVal (l.flatMap f) x c = (l.map (fun a => rowVal (f a) x c)).sum := by
  induction l with
  | nil => simp [rowVal]
  | cons a l ih => rw [List.flatMap_cons, rowVal_append, ih]; simp

theorem linVal_groupCoefs (ts : List Term) (x : Nat → ℚ) (c : Nat) : linVal x (groupCoefs ts c) = rowVal ts x c := by
  unfold linVal groupCoefs rowVal
  rw [List.map_map]
  rw [← sum_dedup_groups (ts.filter (fun t => decide (t.cid = c))) (fun t => t.vid) (fun t => t.coef * x t.vid)]
  apply sum_map_congr
  intro v _
  simp only [Function.comp]
  rw [mul_comm, ← sum_map_mul_left]
  apply sum_map_congr
  intro t ht
  simp only [List.mem_filter, decide_eq_true_eq] at ht
  rw [ht.2]; ring

/-! ### Assembly -/

theorem lookupLast_of_unique {rows : List (Nat × CType × Rhs)} (h : (rows.map Prod.fst).Nodup) {c : Nat} {ty : CType}
    {r : Rhs} (hm : (c, ty, r) ∈ rows) : lookupLast rows c = some (ty, r) := by
  unfold lookupLast
  have hm' : (c, ty, r) ∈ rows.reverse := List.mem_reverse.2 hm
  have hn : (rows.reverse.map Prod.fst).Nodup := by rw [List.map_reverse]; exact List.nodup_reverse.2 h
  generalize rows.reverse = l at hm' hn
  induction l with
  | nil => simp at hm'
  | cons a l ih =>
    simp only [List.map_cons, List.nodup_cons] at hn
    rcases List.mem_cons.1 hm' with rfl | hm'
    · simp
    · have : ¬ a.1 = c := by
        intro e; exact hn.1 (List.mem_map.2 ⟨_, hm', e.symm⟩)
      simp only [List.find?_cons, this, decide_false]
      exact ih hm' hn.2

theorem lookupLast_mem {rows : List (Nat × CType × Rhs)} {c : Nat} {p : CType × Rhs} (h : lookupLast rows c = some p) :
    (c, p.1, p.2) ∈ rows := by
  unfold lookupLast at h
  simp only [Option.map_eq_some_iff] at h
  obtain ⟨a, h1, h2⟩ := h
  have hm := List.mem_of_find?_eq_some h1
  have hp := List.find?_some h1
  simp only [decide_eq_true_eq] at hp
  subst h2; subst hp
  exact List.mem_reverse.1 hm

theorem solverRows_mem {ts : List Term} {rows : List (Nat × CType × Rhs)} {cs : List Nat} {out : List LRow}
    (h : solverRows ts rows cs = .ok out) :
    (∀ c ∈ cs, ∃ ty r, lookupLast rows c = some (ty, r) ∧ ty ≠ .other ∧
      ({ cid := c, coefs := groupCoefs ts c, ctype := ty, rhs := r } : LRow) ∈ out) ∧
    (∀ o ∈ out, o.cid ∈ cs ∧ o.coefs = groupCoefs ts o.cid ∧ lookupLast rows o.cid = some (o.ctype, o.rhs)) := by
  induction cs generalizing out with
  | nil => simp only [solverRows, Except.ok.injEq] at h; subst h; simp
  | cons c cs ih =>
    simp only [solverRows] at h
    split at h
    · cases h
    rename_i ty r hl
    split at h
    · cases h
    rename_i hty
    split at h
    · cases h
    rename_i rest hrest
    injection h with h
    subst h
    obtain ⟨i1, i2⟩ := ih hrest
    constructor
    · intro c' hc'
      rcases List.mem_cons.1 hc' with rfl | hc'
      · exact ⟨ty, r, hl, hty, by simp⟩
      · obtain ⟨ty', r', a, b, d⟩ := i1 c' hc'
        exact ⟨ty', r', a, b, by simp [d]⟩
    · intro o ho
      rcases List.mem_cons.1 ho with rfl | ho
      · exact ⟨by simp, rfl, hl⟩
      · obtain ⟨a, b, d⟩ := i2 o ho
        exact ⟨by simp [a], b, d⟩

theorem assemble_parts {m : Market} {lp : Lp} (h : m.assemble = .ok lp) :
    lp.vars = m.allVars ∧ lp.obj = m.objective ∧ lp.sos2 = m.sos2Groups ∧ lp.sos1 = m.sos1Groups ∧
    (∀ o ∈ m.objective, o.1 ∈ m.allVars.map LVar.vid) ∧
    ((lp.rows = [] ∧ m.conRhs = [] ∧ m.mktRhs = [] ∧ m.dynRhs = none) ∨
     ((∀ t ∈ m.terms, t.vid ∈ m.allVars.map LVar.vid) ∧
       solverRows m.terms m.allRows ((m.terms.map Term.cid).dedup) = .ok lp.rows)) := by
  unfold Market.assemble at h
  split at h
  · cases h
  split at h
  · cases h
  split at h
  · cases h
  split at h
  · cases h
  rename_i hobj
  split at h
  · cases h
  have ho : ∀ o ∈ m.objective, o.1 ∈ m.allVars.map LVar.vid := by
    simp only [Bool.not_eq_true', Bool.not_eq_false, List.all_eq_true, decide_eq_true_eq] at hobj
    exact hobj
  split at h
  · cases h
  rename_i rows hrows
  injection h with h
  subst h
  refine ⟨rfl, rfl, rfl, rfl, ho, ?_⟩
  unfold Market.lpRows at hrows
  split at hrows
  · rename_i he
    injection hrows with hrows
    left
    simp only [Bool.and_eq_true, List.isEmpty_iff, Option.isNone_iff_eq_none] at he
    exact ⟨hrows.symm, he.1.1, he.1.2, he.2⟩
  split at hrows
  · cases hrows
  split at hrows
  · cases hrows
  rename_i ht
  right
  refine ⟨?_, hrows⟩
  simp only [Bool.not_eq_true', Bool.not_eq_false, List.all_eq_true, decide_eq_true_eq] at ht
  exact ht

theorem allRows_nodup {m : Market} (h : ConWF m) : (m.allRows.map Prod.fst).Nodup := by
  rw [List.nodup_iff_count_le_one]; intro i; rw [rcount_eq]; exact (h.rows i).1

/-- A right hand side whose constraint has a left hand side is enforced. -/
theorem feasible_row {m : Market} (hw : ConWF m) {lp : Lp} (h : m.assemble = .ok lp) {x : Nat → ℚ}
    (hx : Feasible lp x) {c : Nat} {ty : CType} {r : Rhs} (hr : (c, ty, r) ∈ m.allRows)
    (hc : ∃ t ∈ m.terms, t.cid = c) : ty.holds (rowVal m.terms x c) (r.eval x) := by
  obtain ⟨_, _, _, _, _, hcase⟩ := assemble_parts h
  rcases hcase with ⟨_, h1, h2, h3⟩ | ⟨_, hs⟩
  · simp [Market.allRows, h1, h2, h3, Dict.concat] at hr
  · have hcm : c ∈ (m.terms.map Term.cid).dedup := by
      obtain ⟨t, ht, rfl⟩ := hc
      exact List.mem_dedup.2 (List.mem_map.2 ⟨t, ht, rfl⟩)
    obtain ⟨ty', r', h1, _, h3⟩ := (solverRows_mem hs).1 c hcm
    rw [lookupLast_of_unique (allRows_nodup hw) hr] at h1
    injection h1 with h1
    injection h1 with h1 h1'
    subst h1; subst h1'
    have := hx.rows _ h3
    simp only [LRow.holds, linVal_groupCoefs] at this
    exact this

/-- every left hand side term has a right hand side (otherwise assembling fails) -/
theorem assembled_term_has_row {m : Market} {lp : Lp} (h : m.assemble = .ok lp)
    (hne : m.conRhs ≠ [] ∨ m.mktRhs ≠ []) {t : Term} (ht : t ∈ m.terms) : ∃ ty r, (t.cid, ty, r) ∈ m.allRows := by
  obtain ⟨_, _, _, _, _, hcase⟩ := assemble_parts h
  rcases hcase with ⟨_, h1, h2, h3⟩ | ⟨_, hs⟩
  · rcases hne with h | h <;> contradiction
  · obtain ⟨ty', r', h1, _, h3⟩ := (solverRows_mem hs).1 t.cid (List.mem_dedup.2 (List.mem_map.2 ⟨t, ht, rfl⟩))
    exact ⟨ty', r', lookupLast_mem h1⟩

/-! ### The terms of one constraint set -/

/-- rows whose coefficients come from the generic links -/
def Market.genericRows (m : Market) (k : CKey) : List Row :=
  if k = .generic then (m.conRhs.get? .generic).getD []
  else if k = .fcas then (m.mktRhs.get? .fcas).getD [] else []

/-- The left hand side terms that come from the tables of constraint set `k` alone. -/
def Market.ownTerms (m : Market) (k : CKey) : List Term :=
  (if k = .interpWeights then m.lossLhs.getD [] else []) ++
  (if k = .tieBreak then m.tieLhs.getD [] else []) ++
  ((m.deficits.get? k).elim [] (·.2)) ++
  m.genericTermsFor (setIds (m.genericRows k)) ++
  createLhsReg ((m.regCon.get? k).getD []) m.regVars ++
  createLhsUnit ((m.unitCon.get? k).getD []) (m.bidUnit.getD [])

theorem filter_dict {κ α β : Type} [DecidableEq κ] {d : Dict κ α} (hd : d.NodupKeys) (f : α → List β) (p : β → Bool)
    (k : κ) (h : ∀ k' t, (k', t) ∈ d → k' ≠ k → ∀ a ∈ f t, p a = false) :
    (d.flatMap (fun e => f e.2)).filter p = ((d.get? k).elim [] f).filter p := by
  induction d with
  | nil => simp [Dict.get?]
  | cons e d ih =>
    obtain ⟨k', v⟩ := e
    simp only [Dict.NodupKeys, List.map_cons, List.nodup_cons] at hd
    rw [List.flatMap_cons, List.filter_append]
    by_cases hk : k' = k
    · have h2 : (d.flatMap (fun e => f e.2)).filter p = [] := by
        rw [List.filter_eq_nil_iff]
        intro a ha
        obtain ⟨e, he, ha⟩ := List.mem_flatMap.1 ha
        have hne : e.1 ≠ k := by
          intro h0; apply hd.1; rw [hk, ← h0]; exact List.mem_map.2 ⟨e, he, rfl⟩
        simp [h e.1 e.2 (by simp [he]) hne a ha]
      rw [h2]; simp [Dict.get?, hk]
    · have h1 : (f v).filter p = [] := by
        rw [List.filter_eq_nil_iff]; intro a ha
        simp [h k' v (by simp) hk a ha]
      rw [h1, List.nil_append, ih hd.2 (fun k'' t ht hne a ha => h k'' t (by simp [ht]) hne a ha)]
      simp [Dict.get?, hk]

theorem filter_if_terms {k k0 : CKey} {l : List Term} {p : Term → Bool} (h : k ≠ k0 → ∀ t ∈ l, p t = false) :
    l.filter p = (if k = k0 then l else []).filter p := by
  by_cases hk : k = k0
  · simp [hk]
  · rw [if_neg hk]
    rw [List.filter_nil, List.filter_eq_nil_iff]
    intro t ht; simp [h hk t ht]

theorem createLhsReg_flatMap (d : Dict CKey (List ConReg)) (vs : List VarReg) :
    createLhsReg d.concat vs = d.flatMap (fun e => createLhsReg e.2 vs) := by
  simp only [createLhsReg, Dict.concat, List.flatMap_assoc]

theorem createLhsUnit_flatMap (d : Dict CKey (List ConUnit)) (vs : List VarUnit) :
    createLhsUnit d.concat vs = d.flatMap (fun e => createLhsUnit e.2 vs) := by
  simp only [createLhsUnit, Dict.concat, List.flatMap_assoc]

theorem createLhsReg_cid {cs : List ConReg} {vs : List VarReg} {t : Term} (h : t ∈ createLhsReg cs vs) :
    ∃ c ∈ cs, c.cid = t.cid := by
  simp only [createLhsReg, List.mem_flatMap, List.mem_map] at h
  obtain ⟨c, hc, v, _, rfl⟩ := h; exact ⟨c, hc, rfl⟩

theorem createLhsUnit_cid {cs : List ConUnit} {vs : List VarUnit} {t : Term} (h : t ∈ createLhsUnit cs vs) :
    ∃ c ∈ cs, c.cid = t.cid := by
  simp only [createLhsUnit, List.mem_flatMap, List.mem_map] at h
  obtain ⟨c, hc, v, _, rfl⟩ := h; exact ⟨c, hc, rfl⟩

theorem filter_flatMap' {α β : Type} (l : List α) (f : α → List β) (p : β → Bool) :
    (l.flatMap f).filter p = l.flatMap (fun a => (f a).filter p) := by
  induction l with
  | nil => rfl
  | cons a l ih => simp [ih]

theorem genericTermsFor_filter (m : Market) (ids : List (Nat × String)) (c : Nat) :
    (m.genericTermsFor ids).filter (fun t => decide (t.cid = c)) =
      m.genericTermsFor (ids.filter (fun i => decide (i.1 = c))) := by
  have h1 : ∀ g v, (genericUnitLhs g ids v).filter (fun t => decide (t.cid = c)) =
      genericUnitLhs g (ids.filter (fun i => decide (i.1 = c))) v := by
    intro g v
    simp only [genericUnitLhs, filter_flatMap', List.filter_map, List.filter_filter]
    congr 1; funext a; congr 1; funext b; congr 1
    apply List.filter_congr; intro i _; simp [Bool.and_comm]
  have h2 : ∀ g v, (genericRegionLhs g ids v).filter (fun t => decide (t.cid = c)) =
      genericRegionLhs g (ids.filter (fun i => decide (i.1 = c))) v := by
    intro g v
    simp only [genericRegionLhs, filter_flatMap', List.filter_map, List.filter_filter]
    congr 1; funext a; congr 1; funext b; congr 1
    apply List.filter_congr; intro i _; simp [Bool.and_comm]
  have h3 : ∀ g v, (genericInterLhs g ids v).filter (fun t => decide (t.cid = c)) =
      genericInterLhs g (ids.filter (fun i => decide (i.1 = c))) v := by
    intro g v
    simp only [genericInterLhs, filter_flatMap', List.filter_map, List.filter_filter]
    congr 1; funext a; congr 1; funext b; congr 1
    apply List.filter_congr; intro i _; simp [Bool.and_comm]
  unfold Market.genericTermsFor
  rw [List.filter_append, List.filter_append]
  congr 1
  · congr 1
    · split
      · exact h1 _ _
      · rfl
    · split
      · exact h2 _ _
      · rfl
  · split
    · exact h3 _ _
    · rfl

theorem genericTermsFor_nil (m : Market) : m.genericTermsFor [] = [] := by
  unfold Market.genericTermsFor
  have h1 : ∀ g v, genericUnitLhs g [] v = [] := by intro g v; simp [genericUnitLhs]
  have h2 : ∀ g v, genericRegionLhs g [] v = [] := by intro g v; simp [genericRegionLhs]
  have h3 : ∀ g v, genericInterLhs g [] v = [] := by intro g v; simp [genericInterLhs]
  split <;> split <;> split <;> simp [h1, h2, h3]

theorem genericTerms_eq (m : Market) :
    m.genericTerms = m.genericTermsFor (setIds ((m.conRhs.get? .generic).getD []) ++ setIds ((m.mktRhs.get? .fcas).getD [])) := by
  unfold Market.genericTerms Market.genericIds
  cases h1 : m.conRhs.get? .generic with
  | none =>
    cases h2 : m.mktRhs.get? .fcas with
    | none => simp [setIds, genericTermsFor_nil]
    | some q => simp
  | some g =>
    cases h2 : m.mktRhs.get? .fcas with
    | none => simp
    | some q => simp

theorem mem_setIds {rows : List Row} {i : Nat × String} (h : i ∈ setIds rows) :
    ∃ r ∈ rows, r.cid = i.1 ∧ r.set = some i.2 := by
  simp only [setIds, List.mem_filterMap, Option.map_eq_some_iff] at h
  obtain ⟨r, hr, s, hs, rfl⟩ := h
  exact ⟨r, hr, rfl, hs⟩

/-- The coefficients of a constraint come from the tables of its own constraint set only. -/
theorem terms_filter_own {m : Market} (hw : ConWF m) {k : CKey} {c : Nat} (hk : InTab m k c) :
    m.terms.filter (fun t => decide (t.cid = c)) = (m.ownTerms k).filter (fun t => decide (t.cid = c)) := by
  obtain ⟨own, ho⟩ := hw.own
  have huniq : ∀ k', InTab m k' c → k' = k := fun k' h' => by rw [← (ho k' c h').1, ← (ho k c hk).1]
  have hfilt : ∀ (t : Term) (k' : CKey), k' ≠ k → InTab m k' t.cid → decide (t.cid = c) = false := by
    intro t k' hne ht
    simp only [decide_eq_false_iff_not]
    rintro rfl
    exact hne (huniq k' ht)
  simp only [Market.terms, Market.fixedTerms, Market.ownTerms, List.filter_append]
  congr 1
  · congr 1
    · congr 1
      · congr 1
        · congr 1
          · apply filter_if_terms
            intro hne t ht
            exact hfilt t .interpWeights (fun h => hne h.symm) (Or.inr (Or.inr (Or.inr (Or.inr (Or.inr (Or.inl ⟨rfl, Or.inl ⟨t, ht, rfl⟩⟩))))))
          · apply filter_if_terms
            intro hne t ht
            exact hfilt t .tieBreak (fun h => hne h.symm) (Or.inr (Or.inr (Or.inr (Or.inr (Or.inr (Or.inr ⟨rfl, t, ht, rfl⟩))))))
        · refine filter_dict hw.defKeys (fun d => d.2) _ k ?_
          intro k' d hd hne t ht
          exact hfilt t k' hne (Or.inr (Or.inr (Or.inr (Or.inr (Or.inl ⟨d, hd, t, ht, rfl⟩)))))
      · rw [genericTerms_eq, genericTermsFor_filter, genericTermsFor_filter]
        congr 1
        rw [List.filter_append]
        have hg : k ≠ .generic → (setIds ((m.conRhs.get? .generic).getD [])).filter (fun i => decide (i.1 = c)) = [] := by
          intro hne
          rw [List.filter_eq_nil_iff]
          intro i hi
          obtain ⟨r, hr, h1, _⟩ := mem_setIds hi
          simp only [decide_eq_true_eq]
          rintro rfl
          cases hget : m.conRhs.get? .generic with
          | none => rw [hget] at hr; simp at hr
          | some rows =>
            rw [hget] at hr
            exact hne (huniq .generic (Or.inr (Or.inr (Or.inl ⟨rows, Dict.mem_of_get? hget, r, hr, h1⟩)))).symm
        have hf : k ≠ .fcas → (setIds ((m.mktRhs.get? .fcas).getD [])).filter (fun i => decide (i.1 = c)) = [] := by
          intro hne
          rw [List.filter_eq_nil_iff]
          intro i hi
          obtain ⟨r, hr, h1, _⟩ := mem_setIds hi
          simp only [decide_eq_true_eq]
          rintro rfl
          cases hget : m.mktRhs.get? .fcas with
          | none => rw [hget] at hr; simp at hr
          | some rows =>
            rw [hget] at hr
            exact hne (huniq .fcas (Or.inr (Or.inr (Or.inr (Or.inl ⟨rows, Dict.mem_of_get? hget, r, hr, h1⟩))))).symm
        unfold Market.genericRows
        by_cases h1 : k = .generic
        · subst h1
          rw [hf (by decide), if_pos rfl, List.append_nil]
        · by_cases h2 : k = .fcas
          · subst h2
            rw [hg (by decide), if_neg (by decide), if_pos rfl, List.nil_append]
          · rw [hg h1, hf h2, if_neg h1, if_neg h2]; simp [setIds]
    · rw [Market.regTerms, createLhsReg_flatMap, filter_dict hw.regKeys (fun t => createLhsReg t m.regVars) _ k]
      · cases m.regCon.get? k <;> simp [createLhsReg]
      · intro k' t ht hne a ha
        obtain ⟨r, hr, e⟩ := createLhsReg_cid ha
        exact hfilt a k' hne (Or.inr (Or.inl ⟨t, ht, r, hr, e⟩))
  · rw [Market.unitTerms, createLhsUnit_flatMap, filter_dict hw.unitKeys (fun t => createLhsUnit t (m.bidUnit.getD [])) _ k]
    · cases m.unitCon.get? k <;> simp [createLhsUnit]
    · intro k' t ht hne a ha
      obtain ⟨r, hr, e⟩ := createLhsUnit_cid ha
      exact hfilt a k' hne (Or.inl ⟨t, ht, r, hr, e⟩)

theorem rowVal_own {m : Market} (hw : ConWF m) {k : CKey} {c : Nat} (hk : InTab m k c) (x : Nat → ℚ) :
    rowVal m.terms x c = rowVal (m.ownTerms k) x c := by
  unfold rowVal; rw [terms_filter_own hw hk]

theorem mem_terms_own {m : Market} (hw : ConWF m) {k : CKey} {c : Nat} (hk : InTab m k c) :
    (∃ t ∈ m.terms, t.cid = c) ↔ (∃ t ∈ m.ownTerms k, t.cid = c) := by
  have h := terms_filter_own hw hk
  have e : ∀ (l : List Term), (∃ t ∈ l, t.cid = c) ↔ l.filter (fun t => decide (t.cid = c)) ≠ [] := by
    intro l
    rw [ne_eq, List.filter_eq_nil_iff]
    simp
  rw [e, e, h]

end Verif
