import Verif.Proofs.Frame

/-! Unit level constraint sets: what a feasible solution satisfies. -/

namespace Verif

/-- value of the variables mapped to (unit, service, dispatch type) -/
def Market.mapVal (m : Market) (x : Nat → ℚ) (u : String) (s : Service) (d : DType) : ℚ :=
  (((m.bidUnit.getD []).filter (fun v => decide (v.unit = u ∧ v.service = s ∧ v.dtype = d))).map
    (fun v => v.coef * x v.vid)).sum

/-- sign of a variable in the unit level map -/
def Market.side (m : Market) (u : String) (s : Service) (d : DType) : ℚ :=
  if u ∈ m.bidi ∧ s = .energy ∧ d = .load then -1 else 1

theorem filter_units {units : List UnitInfo} (h : (units.map (fun u => (u.unit, u.dtype))).Nodup) {i : UnitInfo}
    (hi : i ∈ units) : units.filter (fun u => decide (u.unit = i.unit ∧ u.dtype = i.dtype)) = [i] := by
  have := filter_key_unique h hi
  rw [← this]
  apply List.filter_congr
  intro u _
  simp [Prod.ext_iff]

theorem filter_units_of_lists {m : Market} (h : (m.units.map (fun u => (u.unit, u.dtype))).Nodup) {u : String} {d : DType}
    (hl : m.lists u d) : ∃ i ∈ m.units, i.unit = u ∧ i.dtype = d ∧
      m.units.filter (fun v => decide (v.unit = u ∧ v.dtype = d)) = [i] := by
  obtain ⟨i, hi, rfl, rfl⟩ := hl
  exact ⟨i, hi, rfl, rfl, filter_units h hi⟩

theorem sum_bidUnitMap (vars : List BidVar) (units : List UnitInfo) (bidi : List String) (x : Nat → ℚ) (u : String)
    (s : Service) (d : DType) :
    (((bidUnitMap vars units bidi).filter (fun v => decide (v.unit = u ∧ v.service = s ∧ v.dtype = d))).map
      (fun v => v.coef * x v.vid)).sum =
    ((units.filter (fun i => decide (i.unit = u ∧ i.dtype = d))).length : ℚ) *
      ((if u ∈ bidi ∧ s = .energy ∧ d = .load then -1 else 1) *
      ((vars.filter (fun b => decide (b.unit = u ∧ b.service = s ∧ b.dtype = d))).map (fun b => x b.vid)).sum) := by
  rw [bidUnitMap, filter_flatMap', sum_map_flatMap, ← sum_map_mul_left, ← sum_map_mul_left]
  rw [sum_filter_eq_ite]
  apply sum_map_congr
  intro v _
  by_cases hv : v.unit = u ∧ v.service = s ∧ v.dtype = d
  · obtain ⟨h1, h2, h3⟩ := hv
    subst h1; subst h2; subst h3
    have hf : ((units.filter (fun i => decide (i.unit = v.unit ∧ i.dtype = v.dtype))).map (fun _ =>
        ({ vid := v.vid, unit := v.unit, service := v.service, dtype := v.dtype,
           coef := if v.unit ∈ bidi ∧ v.service = .energy ∧ v.dtype = .load then -1 else 1 } : VarUnit))).filter
        (fun w => decide (w.unit = v.unit ∧ w.service = v.service ∧ w.dtype = v.dtype)) =
        (units.filter (fun i => decide (i.unit = v.unit ∧ i.dtype = v.dtype))).map (fun _ =>
        ({ vid := v.vid, unit := v.unit, service := v.service, dtype := v.dtype,
           coef := if v.unit ∈ bidi ∧ v.service = .energy ∧ v.dtype = .load then -1 else 1 } : VarUnit)) := by
      rw [List.filter_eq_self]; intro w hw
      obtain ⟨_, _, rfl⟩ := List.mem_map.1 hw; simp
    rw [hf, List.map_map]
    simp only [Function.comp_def, sum_map_const, and_self, decide_true, if_true]
  · have hf : ((units.filter (fun i => decide (i.unit = v.unit ∧ i.dtype = v.dtype))).map (fun _ =>
        ({ vid := v.vid, unit := v.unit, service := v.service, dtype := v.dtype,
           coef := if v.unit ∈ bidi ∧ v.service = .energy ∧ v.dtype = .load then -1 else 1 } : VarUnit))).filter
        (fun w => decide (w.unit = u ∧ w.service = s ∧ w.dtype = d)) = [] := by
      rw [List.filter_eq_nil_iff]; intro w hw
      obtain ⟨_, _, rfl⟩ := List.mem_map.1 hw; simpa using hv
    rw [hf]; simp only [decide_eq_true_eq, hv, if_false]; rfl

theorem mapVal_eq {m : Market} (hw : WF m) {u : String} {d : DType} (hl : m.lists u d) (s : Service) (x : Nat → ℚ) :
    m.mapVal x u s d = m.side u s d * m.dispatched x u s d := by
  unfold Market.mapVal Market.side Market.dispatched
  rcases hw.bid with ⟨a, b, _⟩ | ⟨b, n, _, _, e1, e2, _⟩
  · simp [a, b]
  · rw [e1, e2]
    simp only [Option.getD_some]
    rw [sum_bidUnitMap]
    obtain ⟨i, _, _, _, hf⟩ := filter_units_of_lists hw.units hl
    rw [hf]; simp

/-- sum over the map rows of a constraint -/
def Market.unitLhs (m : Market) (x : Nat → ℚ) (cs : List ConUnit) (c : Nat) : ℚ :=
  ((cs.filter (fun k => decide (k.cid = c))).map (fun k => k.coef * m.mapVal x k.unit k.service k.dtype)).sum

theorem rowVal_createLhsUnit (m : Market) (x : Nat → ℚ) (cs : List ConUnit) (c : Nat) :
    rowVal (createLhsUnit cs (m.bidUnit.getD [])) x c = m.unitLhs x cs c := by
  rw [createLhsUnit, rowVal_flatMap, Market.unitLhs, sum_filter_eq_ite]
  apply sum_map_congr
  intro k _
  by_cases hk : k.cid = c
  · simp only [hk, decide_true, if_true]
    rw [rowVal, List.filter_eq_self.2, List.map_map, Market.mapVal, ← sum_map_mul_left]
    · apply sum_map_congr; intro v _; simp only [Function.comp]; ring
    · intro t ht; obtain ⟨v, _, rfl⟩ := List.mem_map.1 ht; simp
  · rw [if_neg (by simpa using hk)]
    apply rowVal_zero
    intro t ht; obtain ⟨v, _, rfl⟩ := List.mem_map.1 ht; exact hk

/-- A unit level constraint set that is present and not elastic. -/
structure Imposed (m : Market) (k : CKey) (t : List Row × List ConUnit) : Prop where
  wf : WF m
  unit : k.isUnit = true
  rhs : m.conRhs.get? k = some t.1
  map : m.unitCon.get? k = some t.2
  noDef : ∀ r ∈ t.1, ∀ d, m.deficits.get? k = some d → ∀ s ∈ d.2, s.cid ≠ r.cid

theorem imposed_of {a m : Market} {k : CKey} {t : List Row × List ConUnit} (ha : ConWF a) (hm : WF m)
    (hk : k.isUnit = true) (ht : FreshUnit a.nextCon t) (hs : SameSet k (a.addUnitSet k t).1 m) : Imposed m k t := by
  have hu : (a.addUnitSet k t).1.conRhs.get? k = some t.1 ∧ (a.addUnitSet k t).1.unitCon.get? k = some t.2 ∧
      (a.addUnitSet k t).1.deficits = a.deficits := by
    unfold Market.addUnitSet; dsimp only; split <;> simp [Dict.get?_set_self]
  refine ⟨hm, hk, by rw [hs.conRhs, hu.1], by rw [hs.unitCon, hu.2.1], ?_⟩
  intro r hr d hd s hs'
  rw [hs.deficits, hu.2.2] at hd
  obtain ⟨own, ho⟩ := ha.own
  have h1 := (ho k s.cid (Or.inr (Or.inr (Or.inr (Or.inr (Or.inl ⟨d, Dict.mem_of_get? hd, s, hs', rfl⟩)))))).2
  have h2 := ht.ge r hr
  omega

theorem get?_none_of_keys {κ α : Type} [DecidableEq κ] {d : Dict κ α} {k : κ} (h : ∀ e ∈ d, e.1 ≠ k) : d.get? k = none := by
  cases hg : d.get? k with
  | none => rfl
  | some v => exact absurd rfl (h _ (Dict.mem_of_get? hg))

/-- the terms of a row of an imposed unit level set -/
theorem Imposed.ownTerms {m : Market} {k : CKey} {t : List Row × List ConUnit} (h : Imposed m k t) :
    m.ownTerms k = ((m.deficits.get? k).elim [] (·.2)) ++ createLhsUnit t.2 (m.bidUnit.getD []) := by
  have h1 : k ≠ .interpWeights := by rintro rfl; have := h.unit; simp [CKey.isUnit] at this
  have h2 : k ≠ .tieBreak := by rintro rfl; have := h.unit; simp [CKey.isUnit] at this
  have h3 : k ≠ .generic := by rintro rfl; have := h.unit; simp [CKey.isUnit] at this
  have h4 : k ≠ .fcas := by rintro rfl; have := h.unit; simp [CKey.isUnit] at this
  have h5 : m.regCon.get? k = none := by
    apply get?_none_of_keys
    rintro e he rfl
    have := h.wf.key.2 e he
    have h' := isUnit_not_market h.unit
    rw [this] at h'; cases h'
  unfold Market.ownTerms Market.genericRows
  rw [if_neg h1, if_neg h2, if_neg h3, if_neg h4, h5, h.map]
  simp [setIds, genericTermsFor_nil, createLhsReg]

theorem Imposed.inTab {m : Market} {k : CKey} {t : List Row × List ConUnit} (h : Imposed m k t) {r : Row} (hr : r ∈ t.1) :
    InTab m k r.cid :=
  Or.inr (Or.inr (Or.inl ⟨t.1, Dict.mem_of_get? h.rhs, r, hr, rfl⟩))

theorem Imposed.rowVal {m : Market} {k : CKey} {t : List Row × List ConUnit} (h : Imposed m k t) {r : Row} (hr : r ∈ t.1)
    (x : Nat → ℚ) : rowVal m.terms x r.cid = m.unitLhs x t.2 r.cid := by
  rw [rowVal_own h.wf.con (h.inTab hr), h.ownTerms, rowVal_append, rowVal_createLhsUnit]
  have : Verif.rowVal ((m.deficits.get? k).elim [] (·.2)) x r.cid = 0 := by
    apply rowVal_zero
    cases hd : m.deficits.get? k with
    | none => simp
    | some d => exact h.noDef r hr d hd
  rw [this, zero_add]

theorem conRow_mem {m : Market} {k : CKey} {rows : List Row} (h : m.conRhs.get? k = some rows) {r : Row} (hr : r ∈ rows) :
    (r.cid, r.ctype, Rhs.const r.rhs) ∈ m.allRows := by
  simp only [Market.allRows, Dict.concat, List.mem_append, List.mem_map, List.mem_flatMap]
  exact Or.inl (Or.inl ⟨r, ⟨(k, rows), Dict.mem_of_get? h, hr⟩, rfl⟩)

theorem mktRow_mem {m : Market} {k : CKey} {rows : List Row} (h : m.mktRhs.get? k = some rows) {r : Row} (hr : r ∈ rows) :
    (r.cid, r.ctype, Rhs.const r.rhs) ∈ m.allRows := by
  simp only [Market.allRows, Dict.concat, List.mem_append, List.mem_map, List.mem_flatMap]
  exact Or.inl (Or.inr ⟨r, ⟨(k, rows), Dict.mem_of_get? h, hr⟩, rfl⟩)

theorem mem_bidUnit {m : Market} (hw : WF m) {u : String} {s : Service} {d : DType} (hl : m.lists u d)
    (hb : m.bidsFor u s d) : ∃ v ∈ m.bidUnit.getD [], v.unit = u ∧ v.service = s ∧ v.dtype = d := by
  obtain ⟨i, hi, hu, hd⟩ := hl
  obtain ⟨b, hb, rfl, rfl, rfl⟩ := hb
  rcases hw.bid with ⟨a, _, _⟩ | ⟨bs, n, _, _, e1, e2, _⟩
  · rw [a] at hb; simp at hb
  · rw [e1] at hb
    rw [e2]
    simp only [Option.getD_some] at hb ⊢
    refine ⟨_, List.mem_flatMap.2 ⟨b, hb, List.mem_map.2 ⟨i, List.mem_filter.2 ⟨hi, ?_⟩, rfl⟩⟩, rfl, rfl, rfl⟩
    simp [hu, hd]

/-- A row of an imposed set holds if one of its units has a bid variable. -/
theorem Imposed.holds {m : Market} {k : CKey} {t : List Row × List ConUnit} (h : Imposed m k t) {lp : Lp}
    (hl : m.assemble = .ok lp) {x : Nat → ℚ} (hx : Feasible lp x) {r : Row} (hr : r ∈ t.1)
    (hv : ∃ c ∈ t.2, c.cid = r.cid ∧ m.lists c.unit c.dtype ∧ m.bidsFor c.unit c.service c.dtype) :
    r.ctype.holds (m.unitLhs x t.2 r.cid) r.rhs := by
  have := feasible_row h.wf.con hl hx (conRow_mem h.rhs hr) ?_
  · rw [h.rowVal hr] at this; exact this
  · rw [mem_terms_own h.wf.con (h.inTab hr), h.ownTerms]
    obtain ⟨c, hc, he, h1, h2⟩ := hv
    obtain ⟨v, hv, e1, e2, e3⟩ := mem_bidUnit h.wf h1 h2
    refine ⟨{ cid := c.cid, vid := v.vid, coef := c.coef * v.coef }, ?_, he⟩
    rw [List.mem_append]
    right
    simp only [createLhsUnit, List.mem_flatMap, List.mem_map, List.mem_filter]
    exact ⟨c, hc, v, ⟨hv, by simp [e1, e2, e3]⟩, rfl⟩

theorem dispatched_eq_zero {m : Market} {x : Nat → ℚ} {u : String} {s : Service} {d : DType} (h : ¬ m.bidsFor u s d) :
    m.dispatched x u s d = 0 := by
  unfold Market.dispatched
  rw [List.filter_eq_nil_iff.2]
  · rfl
  · intro b hb hc
    simp only [decide_eq_true_eq] at hc
    exact h ⟨b, hb, hc.1, hc.2.1, hc.2.2⟩

theorem filter_saveIndex {α β : Type} (rows : List α) (n : Nat) (f : Nat → α → β) (key : β → Nat)
    (hk : ∀ i a, key (f i a) = i) {i : Nat} {a : α} (h : rows[i]? = some a) :
    (saveIndex rows n f).filter (fun b => decide (key b = n + i)) = [f (n + i) a] := by
  induction rows generalizing n i with
  | nil => simp at h
  | cons r rs ih =>
    simp only [saveIndex, List.filter_cons, hk]
    cases i with
    | zero =>
      simp only [List.getElem?_cons_zero, Option.some.injEq] at h
      subst h
      simp only [Nat.add_zero, decide_true, if_true]
      rw [List.filter_eq_nil_iff.2]
      intro b hb
      obtain ⟨j, r', _, rfl⟩ := mem_saveIndex.1 hb
      rw [hk]; simp only [decide_eq_true_eq]; omega
    | succ i =>
      simp only [List.getElem?_cons_succ] at h
      have := ih (n + 1) h
      rw [show n + 1 + i = n + (i + 1) by omega] at this
      simp [this]

theorem mem_saveIndex' {α β : Type} {rows : List α} {a : α} (h : a ∈ rows) (n : Nat) (f : Nat → α → β) :
    ∃ i, rows[i]? = some a ∧ f (n + i) a ∈ saveIndex rows n f := by
  obtain ⟨i, hi⟩ := List.mem_iff_getElem?.1 h
  exact ⟨i, hi, mem_saveIndex.2 ⟨i, a, hi, rfl⟩⟩

/-- A limit created by `create_constraints` holds. -/
theorem limit_holds {m : Market} {k : CKey} {ls : List Lim} {n : Nat} {dir : CType}
    (h : Imposed m k (createConstraints ls n dir)) {lp : Lp} (hl : m.assemble = .ok lp) {x : Nat → ℚ}
    (hx : Feasible lp x) {l : Lim} (hm : l ∈ ls) (hu : m.lists l.unit l.dtype)
    (hb : m.bidsFor l.unit l.service l.dtype) :
    dir.holds (m.side l.unit l.service l.dtype * m.dispatched x l.unit l.service l.dtype) l.val := by
  obtain ⟨i, hi, hr⟩ := mem_saveIndex' hm n (fun i l => ({ cid := i, ctype := dir, rhs := l.val } : Row))
  have hf : ((createConstraints ls n dir).2.filter (fun c => decide (c.cid = n + i))) =
      [{ cid := n + i, unit := l.unit, service := l.service, dtype := l.dtype, coef := 1 }] :=
    filter_saveIndex ls n _ ConUnit.cid (fun _ _ => rfl) hi
  have := h.holds hl hx hr ⟨{ cid := n + i, unit := l.unit, service := l.service, dtype := l.dtype, coef := 1 },
    List.mem_of_mem_filter (by rw [hf]; simp), rfl, hu, hb⟩
  simp only [Market.unitLhs, hf] at this
  simpa [mapVal_eq h.wf hu] using this

end Verif
