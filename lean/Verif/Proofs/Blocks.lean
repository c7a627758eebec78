import Verif.Proofs.Ramp

/-! Unit level constraint sets as lists of rows, each with its own map entries. -/

namespace Verif

/-- value of a list of map entries -/
def Market.entryVal (m : Market) (x : Nat → ℚ) (cs : List ConUnit) : ℚ :=
  (cs.map (fun c => c.coef * m.mapVal x c.unit c.service c.dtype)).sum

/-- `es` lists the rows of the table with their map entries -/
structure Entries (t : List Row × List ConUnit) (es : List (Row × List ConUnit)) : Prop where
  rows : t.1.Perm (es.map (·.1))
  maps : t.2.Perm (es.flatMap (·.2))
  own : ∀ e ∈ es, ∀ c ∈ e.2, c.cid = e.1.cid
  nodup : (t.1.map Row.cid).Nodup

theorem filter_flatMap_own {es : List (Row × List ConUnit)} (hn : (es.map (fun e => e.1.cid)).Nodup)
    (ho : ∀ e ∈ es, ∀ c ∈ e.2, c.cid = e.1.cid) {e : Row × List ConUnit} (he : e ∈ es) :
    (es.flatMap (·.2)).filter (fun c => decide (c.cid = e.1.cid)) = e.2 := by
  induction es with
  | nil => simp at he
  | cons f es ih =>
    simp only [List.map_cons, List.nodup_cons] at hn
    rw [List.flatMap_cons, List.filter_append]
    rcases List.mem_cons.1 he with rfl | he'
    · have h1 : e.2.filter (fun c => decide (c.cid = e.1.cid)) = e.2 :=
        List.filter_eq_self.2 (fun c hc => by simpa using ho e (by simp) c hc)
      have h2 : (es.flatMap (·.2)).filter (fun c => decide (c.cid = e.1.cid)) = [] := by
        rw [List.filter_eq_nil_iff]
        intro c hc
        obtain ⟨g, hg, hc⟩ := List.mem_flatMap.1 hc
        rw [ho g (by simp [hg]) c hc]
        simp only [decide_eq_true_eq]
        intro h
        exact hn.1 (List.mem_map.2 ⟨g, hg, h⟩)
      rw [h1, h2, List.append_nil]
    · have h1 : f.2.filter (fun c => decide (c.cid = e.1.cid)) = [] := by
        rw [List.filter_eq_nil_iff]
        intro c hc
        rw [ho f (by simp) c hc]
        simp only [decide_eq_true_eq]
        intro h
        exact hn.1 (List.mem_map.2 ⟨e, he', h.symm⟩)
      rw [h1, List.nil_append]
      exact ih hn.2 (fun e he => ho e (by simp [he])) he'

theorem Entries.lhs {t : List Row × List ConUnit} {es : List (Row × List ConUnit)} (h : Entries t es)
    {e : Row × List ConUnit} (he : e ∈ es) : (t.2.filter (fun c => decide (c.cid = e.1.cid))).Perm e.2 := by
  have hn : (es.map (fun e => e.1.cid)).Nodup := by
    have := (h.rows.map Row.cid).nodup_iff.1 h.nodup
    rwa [List.map_map] at this
  have := h.maps.filter (fun c => decide (c.cid = e.1.cid))
  rwa [filter_flatMap_own hn h.own he] at this

/-- what a set given by entries imposes -/
theorem Imposed.entries_iff {m : Market} {k : CKey} {t : List Row × List ConUnit} (h : Imposed m k t)
    {es : List (Row × List ConUnit)} (hes : Entries t es) {lp : Lp} (hl : m.assemble = .ok lp) {x : Nat → ℚ} :
    m.obeys lp x k ↔ ∀ e ∈ es, (∃ c ∈ e.2, m.lists c.unit c.dtype ∧ m.bidsFor c.unit c.service c.dtype) →
      e.1.ctype.holds (m.entryVal x e.2) e.1.rhs := by
  rw [h.obeys_iff hl]
  have hv : ∀ e ∈ es, m.unitLhs x t.2 e.1.cid = m.entryVal x e.2 := by
    intro e he
    unfold Market.unitLhs Market.entryVal
    exact sum_perm (hes.lhs he) _
  constructor
  · intro ha e he hc
    obtain ⟨c, hc, h1⟩ := hc
    have hr : e.1 ∈ t.1 := hes.rows.mem_iff.2 (List.mem_map.2 ⟨e, he, rfl⟩)
    have := ha e.1 hr ⟨c, hes.maps.mem_iff.2 (List.mem_flatMap.2 ⟨e, he, hc⟩), hes.own e he c hc, h1⟩
    rwa [hv e he] at this
  · intro ha r hr hc
    obtain ⟨e, he, rfl⟩ := List.mem_map.1 (hes.rows.mem_iff.1 hr)
    rw [hv e he]
    apply ha e he
    obtain ⟨c, hc, h1, h2⟩ := hc
    refine ⟨c, ?_, h2⟩
    exact (hes.lhs he).mem_iff.1 (List.mem_filter.2 ⟨hc, by simpa using h1⟩)

theorem forall_saveIndex {α β : Type} {rows : List α} {n : Nat} {f : Nat → α → β} {P : β → Prop} {Q : α → Prop}
    (h : ∀ i, ∀ a ∈ rows, P (f i a) ↔ Q a) : (∀ b ∈ saveIndex rows n f, P b) ↔ ∀ a ∈ rows, Q a := by
  induction rows generalizing n with
  | nil => simp [saveIndex]
  | cons r rs ih =>
    simp only [saveIndex, List.forall_mem_cons]
    rw [h n r (by simp), ih (fun i a ha => h i a (by simp [ha]))]

theorem saveIndex_append {α β : Type} (a b : List α) (n : Nat) (f : Nat → α → β) :
    saveIndex (a ++ b) n f = saveIndex a n f ++ saveIndex b (n + a.length) f := by
  induction a generalizing n with
  | nil => simp [saveIndex]
  | cons r rs ih =>
    simp only [List.cons_append, saveIndex, ih, List.length_cons]
    rw [show n + 1 + rs.length = n + (rs.length + 1) by omega]

theorem flatMap_saveIndex {α β γ : Type} (rows : List α) (n : Nat) (f : Nat → α → β) (g : β → List γ) :
    (saveIndex rows n f).flatMap g = (saveIndex rows n (fun i a => g (f i a))).flatten := by
  rw [List.flatMap_def, map_saveIndex]

theorem flatten_saveIndex_singleton {α β : Type} (rows : List α) (n : Nat) (f : Nat → α → β) :
    (saveIndex rows n (fun i a => [f i a])).flatten = saveIndex rows n f := by
  induction rows generalizing n with
  | nil => rfl
  | cons r rs ih => simp [saveIndex, ih]

/-- the entries of a simple table -/
def limEntry (dir : CType) (i : Nat) (l : Lim) : Row × List ConUnit :=
  (Row.mk i dir l.val none none, [ConUnit.mk i l.unit l.service l.dtype 1])

theorem createConstraints_parts (ls : List Lim) (n : Nat) (dir : CType) :
    (createConstraints ls n dir).1 = (saveIndex ls n (limEntry dir)).map (·.1) ∧
    (createConstraints ls n dir).2 = (saveIndex ls n (limEntry dir)).flatMap (·.2) := by
  constructor
  · simp only [createConstraints, map_saveIndex, limEntry]
  · rw [flatMap_saveIndex]
    simp only [limEntry, createConstraints]
    rw [flatten_saveIndex_singleton]

end Verif
