import Verif.Proofs.UnitRows
import Verif.Proofs.Only

/-! Exact descriptions of what a constraint set imposes. -/

namespace Verif

theorem Feasible.obeys {lp : Lp} {x : Nat → ℚ} (h : Feasible lp x) (m : Market) (k : CKey) : m.obeys lp x k :=
  fun r hr _ => h.rows r hr

/-- a row of the program, in terms of the market -/
theorem lpRow {m : Market} {lp : Lp} (h : m.assemble = .ok lp) {r : LRow} (hr : r ∈ lp.rows) :
    (∃ t ∈ m.terms, t.cid = r.cid) ∧ (r.cid, r.ctype, r.rhs) ∈ m.allRows ∧
    ∀ x, r.holds x ↔ r.ctype.holds (rowVal m.terms x r.cid) (r.rhs.eval x) := by
  obtain ⟨_, _, _, _, _, hcase⟩ := assemble_parts h
  rcases hcase with ⟨h1, _⟩ | ⟨_, hs⟩
  · rw [h1] at hr; simp at hr
  · obtain ⟨a, b, c⟩ := (solverRows_mem hs).2 r hr
    refine ⟨?_, lookupLast_mem c, ?_⟩
    · obtain ⟨t, ht, e⟩ := List.mem_map.1 (List.mem_dedup.1 a)
      exact ⟨t, ht, e⟩
    · intro x; rw [LRow.holds, b, linVal_groupCoefs]

/-- a right hand side whose constraint has a left hand side is a row of the program -/
theorem lpRow_of {m : Market} (hw : ConWF m) {lp : Lp} (h : m.assemble = .ok lp) {c : Nat} {ty : CType} {r : Rhs}
    (hr : (c, ty, r) ∈ m.allRows) (hc : ∃ t ∈ m.terms, t.cid = c) :
    ({ cid := c, coefs := groupCoefs m.terms c, ctype := ty, rhs := r } : LRow) ∈ lp.rows := by
  obtain ⟨_, _, _, _, _, hcase⟩ := assemble_parts h
  rcases hcase with ⟨_, h1, h2, h3⟩ | ⟨_, hs⟩
  · simp [Market.allRows, h1, h2, h3, Dict.concat] at hr
  · have hcm : c ∈ (m.terms.map Term.cid).dedup := by
      obtain ⟨t, ht, rfl⟩ := hc
      exact List.mem_dedup.2 (List.mem_map.2 ⟨t, ht, rfl⟩)
    obtain ⟨ty', r', h1, _, h3⟩ := (solverRows_mem hs).1 c hcm
    rw [lookupLast_of_unique (allRows_nodup hw) hr] at h1
    injection h1 with h1
    injection h1 with h1 h1'
    subst h1; subst h1'
    exact h3

theorem unique_row {m : Market} (hw : ConWF m) {c : Nat} {t t' : CType} {r r' : Rhs} (h : (c, t, r) ∈ m.allRows)
    (h' : (c, t', r') ∈ m.allRows) : t = t' ∧ r = r' := by
  have h1 := lookupLast_of_unique (allRows_nodup hw) h
  have h2 := lookupLast_of_unique (allRows_nodup hw) h'
  rw [h1] at h2
  injection h2 with h2
  injection h2 with a b
  exact ⟨a, b⟩

/-- A feasible point is one within the variable bounds and special ordered sets that obeys every
constraint set. -/
theorem feasible_iff_obeys {m : Market} (hw : ConWF m) {lp : Lp} (h : m.assemble = .ok lp) {x : Nat → ℚ} :
    Feasible lp x ↔ (∀ v ∈ lp.vars, v.holds x) ∧ (∀ g ∈ lp.sos2, Sos2 x g) ∧ (∀ g ∈ lp.sos1, Sos1 x g) ∧
      ∀ k, m.obeys lp x k := by
  constructor
  · intro hf; exact ⟨hf.vars, hf.sos2, hf.sos1, fun k => hf.obeys m k⟩
  · rintro ⟨a, b, c, d⟩
    refine ⟨a, fun r hr => ?_, b, c⟩
    obtain ⟨k, hk⟩ := rowOf_of_allRows hw (lpRow h hr).2.1
    exact d k r hr hk

/-- rows of a set stored in the table of ordinary constraints -/
theorem obeys_con {m : Market} (hw : ConWF m) {lp : Lp} (h : m.assemble = .ok lp) {x : Nat → ℚ} {k : CKey}
    (hk : k.isMarket = false) (hi : k ≠ .interpWeights) {rows : List Row} (hr : m.conRhs.get? k = some rows) :
    m.obeys lp x k ↔ ∀ r ∈ rows, (∃ t ∈ m.terms, t.cid = r.cid) → r.ctype.holds (rowVal m.terms x r.cid) r.rhs := by
  constructor
  · intro ho r hrr ht
    have hm := lpRow_of hw h (conRow_mem hr hrr) ht
    have := ho _ hm (Or.inl ⟨rows, hr, r, hrr, rfl⟩)
    exact ((lpRow h hm).2.2 x).1 this
  · intro ha q hq hro
    obtain ⟨h1, h2, h3⟩ := lpRow h hq
    rw [h3]
    rcases hro with ⟨rows', e, r, hrr, e'⟩ | ⟨rows', e, _⟩ | ⟨e, _⟩
    · rw [hr] at e; injection e with e; subst e
      have hu := conRow_mem hr hrr
      rw [e'] at hu
      obtain ⟨a, b⟩ := unique_row hw h2 hu
      rw [a, b, ← e']
      exact ha r hrr (by rw [e']; exact h1)
    · have := hw.mktMkt _ (Dict.mem_of_get? e)
      rw [hk] at this; cases this
    · exact absurd e hi

/-- rows of a set stored in the table of market constraints -/
theorem obeys_mkt {m : Market} (hw : ConWF m) {lp : Lp} (h : m.assemble = .ok lp) {x : Nat → ℚ} {k : CKey}
    (hk : k.isMarket = true) (hi : k ≠ .interpWeights) {rows : List Row} (hr : m.mktRhs.get? k = some rows) :
    m.obeys lp x k ↔ ∀ r ∈ rows, (∃ t ∈ m.terms, t.cid = r.cid) → r.ctype.holds (rowVal m.terms x r.cid) r.rhs := by
  constructor
  · intro ho r hrr ht
    have hm := lpRow_of hw h (mktRow_mem hr hrr) ht
    have := ho _ hm (Or.inr (Or.inl ⟨rows, hr, r, hrr, rfl⟩))
    exact ((lpRow h hm).2.2 x).1 this
  · intro ha q hq hro
    obtain ⟨h1, h2, h3⟩ := lpRow h hq
    rw [h3]
    rcases hro with ⟨rows', e, _⟩ | ⟨rows', e, r, hrr, e'⟩ | ⟨e, _⟩
    · have := hw.conMkt _ (Dict.mem_of_get? e)
      rw [hk] at this; cases this
    · rw [hr] at e; injection e with e; subst e
      have hu := mktRow_mem hr hrr
      rw [e'] at hu
      obtain ⟨a, b⟩ := unique_row hw h2 hu
      rw [a, b, ← e']
      exact ha r hrr (by rw [e']; exact h1)
    · exact absurd e hi

/-- a map row picks up a variable iff its unit is listed and bids -/
theorem mem_bidUnit_iff {m : Market} (hw : WF m) {u : String} {s : Service} {d : DType} :
    (∃ v ∈ m.bidUnit.getD [], v.unit = u ∧ v.service = s ∧ v.dtype = d) ↔ m.lists u d ∧ m.bidsFor u s d := by
  constructor
  · rintro ⟨v, hv, rfl, rfl, rfl⟩
    rcases hw.bid with ⟨_, a, _⟩ | ⟨bs, n, _, _, e1, e2, _⟩
    · rw [a] at hv; simp at hv
    · rw [e2] at hv
      simp only [Option.getD_some, bidUnitMap, List.mem_flatMap, List.mem_map, List.mem_filter] at hv
      obtain ⟨b, hb, i, ⟨hi, hc⟩, rfl⟩ := hv
      simp only [decide_eq_true_eq] at hc
      exact ⟨⟨i, hi, hc⟩, ⟨b, by rw [e1]; exact hb, rfl, rfl, rfl⟩⟩
  · rintro ⟨h1, h2⟩; exact mem_bidUnit hw h1 h2

theorem Imposed.term_iff {m : Market} {k : CKey} {t : List Row × List ConUnit} (h : Imposed m k t) {r : Row} (hr : r ∈ t.1) :
    (∃ q ∈ m.terms, q.cid = r.cid) ↔
      ∃ c ∈ t.2, c.cid = r.cid ∧ m.lists c.unit c.dtype ∧ m.bidsFor c.unit c.service c.dtype := by
  rw [mem_terms_own h.wf.con (h.inTab hr), h.ownTerms]
  constructor
  · rintro ⟨q, hq, e⟩
    rcases List.mem_append.1 hq with hq | hq
    · cases hd : m.deficits.get? k with
      | none => rw [hd] at hq; simp at hq
      | some d => rw [hd] at hq; exact absurd e (h.noDef r hr d hd q hq)
    · simp only [createLhsUnit, List.mem_flatMap, List.mem_map, List.mem_filter, decide_eq_true_eq] at hq
      obtain ⟨c, hc, v, ⟨hv, hcv⟩, rfl⟩ := hq
      exact ⟨c, hc, e, (mem_bidUnit_iff h.wf).1 ⟨v, hv, hcv⟩⟩
  · rintro ⟨c, hc, he, h1, h2⟩
    obtain ⟨v, hv, e1, e2, e3⟩ := mem_bidUnit h.wf h1 h2
    refine ⟨{ cid := c.cid, vid := v.vid, coef := c.coef * v.coef }, ?_, he⟩
    rw [List.mem_append]
    right
    simp only [createLhsUnit, List.mem_flatMap, List.mem_map, List.mem_filter]
    exact ⟨c, hc, v, ⟨hv, by simp [e1, e2, e3]⟩, rfl⟩

/-- What a non elastic unit level constraint set imposes, exactly. -/
theorem Imposed.obeys_iff {m : Market} {k : CKey} {t : List Row × List ConUnit} (h : Imposed m k t) {lp : Lp}
    (hl : m.assemble = .ok lp) {x : Nat → ℚ} :
    m.obeys lp x k ↔ ∀ r ∈ t.1, (∃ c ∈ t.2, c.cid = r.cid ∧ m.lists c.unit c.dtype ∧ m.bidsFor c.unit c.service c.dtype) →
      r.ctype.holds (m.unitLhs x t.2 r.cid) r.rhs := by
  have hi : k ≠ .interpWeights := by rintro rfl; have := h.unit; simp [CKey.isUnit] at this
  rw [obeys_con h.wf.con hl (isUnit_not_market h.unit) hi h.rhs]
  apply forall_congr'; intro r
  apply forall_congr'; intro hr
  rw [h.term_iff hr, h.rowVal hr]

/-- the case of one limit per row of a table -/
theorem limits_iff {m : Market} {k : CKey} {ls : List Lim} {n : Nat} {dir : CType}
    (h : Imposed m k (createConstraints ls n dir)) {lp : Lp} (hl : m.assemble = .ok lp) {x : Nat → ℚ} :
    m.obeys lp x k ↔ ∀ l ∈ ls, m.lists l.unit l.dtype → m.bidsFor l.unit l.service l.dtype →
      dir.holds (m.side l.unit l.service l.dtype * m.dispatched x l.unit l.service l.dtype) l.val := by
  rw [h.obeys_iff hl]
  have hf : ∀ (i : Nat) (l : Lim), ls[i]? = some l → ((createConstraints ls n dir).2.filter (fun c => decide (c.cid = n + i))) =
      [{ cid := n + i, unit := l.unit, service := l.service, dtype := l.dtype, coef := 1 }] := fun i l hi =>
    filter_saveIndex ls n _ ConUnit.cid (fun _ _ => rfl) hi
  constructor
  · intro ha l hm hu hb
    obtain ⟨i, hi, hr⟩ := mem_saveIndex' hm n (fun i l => ({ cid := i, ctype := dir, rhs := l.val } : Row))
    have := ha _ hr ⟨{ cid := n + i, unit := l.unit, service := l.service, dtype := l.dtype, coef := 1 },
      List.mem_of_mem_filter (by rw [hf i l hi]; simp), rfl, hu, hb⟩
    simp only [Market.unitLhs, hf i l hi] at this
    simpa [mapVal_eq h.wf hu] using this
  · intro ha r hr hc
    obtain ⟨i, l, hi, rfl⟩ := mem_saveIndex.1 hr
    obtain ⟨c, hc, e, h1, h2⟩ := hc
    have hcm : c ∈ (createConstraints ls n dir).2.filter (fun c => decide (c.cid = n + i)) :=
      List.mem_filter.2 ⟨hc, by simpa using e⟩
    rw [hf i l hi, List.mem_singleton] at hcm
    subst hcm
    simp only [Market.unitLhs, hf i l hi]
    have := ha l (List.mem_of_getElem? hi) h1 h2
    simpa [mapVal_eq h.wf h1] using this

end Verif
