import Verif.Spec.Reads
import Verif.Proofs.Exact
import Verif.Proofs.Only
import Verif.Proofs.ElasticOps

/-! # Constraint sets depend only on what they refer to -/

namespace Verif

theorem unitCon_none {m : Market} (hw : KeyWF m) {k : CKey} (h : k.isUnit = false) : m.unitCon.get? k = none := by
  cases h' : m.unitCon.get? k with
  | none => rfl
  | some t => have := hw.1 _ (Dict.mem_of_get? h'); rw [h] at this; cases this

theorem regCon_none {m : Market} (hw : KeyWF m) {k : CKey} (h : k.isMarket = false) : m.regCon.get? k = none := by
  cases h' : m.regCon.get? k with
  | none => rfl
  | some t => have := hw.2 _ (Dict.mem_of_get? h'); rw [h] at this; cases this

theorem createLhsUnit_nil (vs : List VarUnit) : createLhsUnit [] vs = [] := rfl
theorem createLhsReg_nil (vs : List VarReg) : createLhsReg [] vs = [] := rfl

/-- the terms of a set are the same if what it refers to is the same -/
theorem ownTerms_same {m m' : Market} {k : CKey} (hw : KeyWF m) (hw' : KeyWF m') (hs : SameSet k m m')
    (hr : ∀ p ∈ k.reads, SamePart m m' p) : m'.ownTerms k = m.ownTerms k := by
  obtain ⟨s1, s2, s3, s4, s5, s6, s7⟩ := hs
  unfold Market.ownTerms Market.genericRows
  rw [s5, s2, s3]
  by_cases h1 : k = .generic
  · subst h1
    have hb := hr .bids (by simp [CKey.reads])
    have hi := hr .inters (by simp [CKey.reads])
    have h1 := hr .gUnit (by simp [CKey.reads])
    have h2 := hr .gRegion (by simp [CKey.reads])
    have h3 := hr .gInter (by simp [CKey.reads])
    simp only [SamePart] at hb hi h1 h2 h3
    rw [unitCon_none hw rfl, regCon_none hw rfl]
    simp [createLhsReg_nil, createLhsUnit_nil, s1, Market.genericTermsFor, hb, hi, h1, h2, h3]
  by_cases h2 : k = .fcas
  · subst h2
    have hb := hr .bids (by simp [CKey.reads])
    have hi := hr .inters (by simp [CKey.reads])
    have h1 := hr .gUnit (by simp [CKey.reads])
    have h2 := hr .gRegion (by simp [CKey.reads])
    have h3 := hr .gInter (by simp [CKey.reads])
    have hl := (hr (.set .interpWeights) (by simp [CKey.reads])).loss rfl
    simp only [SamePart] at hb hi h1 h2 h3
    rw [unitCon_none hw rfl]
    simp [createLhsUnit_nil, s4, Market.genericTermsFor, Market.regVars, hb, hi, h1, h2, h3, hl]
  by_cases h3 : k = .demand
  · subst h3
    have hb := hr .bids (by simp [CKey.reads])
    have hi := hr .inters (by simp [CKey.reads])
    have hl := (hr (.set .interpWeights) (by simp [CKey.reads])).loss rfl
    simp only [SamePart] at hb hi
    rw [unitCon_none hw rfl]
    simp [createLhsUnit_nil, setIds, genericTermsFor_nil, Market.regVars, hb, hi, hl]
  have hmk : k.isMarket = false := by cases k <;> simp_all [CKey.isMarket]
  rw [regCon_none hw hmk]
  by_cases h4 : k = .interpWeights
  · subst h4
    rw [unitCon_none hw rfl]
    simp [createLhsReg_nil, createLhsUnit_nil, setIds, genericTermsFor_nil, (s6 rfl).1]
  by_cases h5 : k = .tieBreak
  · subst h5
    rw [unitCon_none hw rfl]
    simp [createLhsReg_nil, createLhsUnit_nil, setIds, genericTermsFor_nil, s7 rfl]
  have hb : SamePart m m' .bids := hr _ (by cases k <;> simp_all [CKey.reads])
  simp only [SamePart] at hb
  simp [createLhsReg_nil, setIds, genericTermsFor_nil, h1, h2, h4, h5, hb]

theorem rowOf_same {m m' : Market} {k : CKey} (hs : SameSet k m m') {c : Nat} (h : m'.rowOf k c) : m.rowOf k c := by
  rcases h with ⟨rows, h1, h2⟩ | ⟨rows, h1, h2⟩ | ⟨rfl, h2⟩
  · exact Or.inl ⟨rows, hs.conRhs ▸ h1, h2⟩
  · exact Or.inr (Or.inl ⟨rows, hs.mktRhs ▸ h1, h2⟩)
  · refine Or.inr (Or.inr ⟨rfl, ?_⟩)
    rw [← (hs.loss rfl).2.1]; exact h2

/-- the right hand sides of a set are among all right hand sides -/
theorem allRows_of_rowOf {m : Market} {k : CKey} {c : Nat} (h : m.rowOf k c) :
    ∃ ty r, (c, ty, r) ∈ m.allRows ∧ ∀ m' : Market, SameSet k m m' → (c, ty, r) ∈ m'.allRows := by
  rcases h with ⟨rows, h1, r, h2, rfl⟩ | ⟨rows, h1, r, h2, rfl⟩ | ⟨rfl, r, h2, rfl⟩
  · have key : ∀ m' : Market, m'.conRhs.get? k = some rows → (r.cid, r.ctype, Rhs.const r.rhs) ∈ m'.allRows := by
      intro m' h
      simp only [Market.allRows, Dict.concat, List.mem_append, List.mem_map, List.mem_flatMap]
      exact Or.inl (Or.inl ⟨r, ⟨_, Dict.mem_of_get? h, h2⟩, rfl⟩)
    exact ⟨_, _, key m h1, fun m' hs => key m' (hs.conRhs ▸ h1)⟩
  · have key : ∀ m' : Market, m'.mktRhs.get? k = some rows → (r.cid, r.ctype, Rhs.const r.rhs) ∈ m'.allRows := by
      intro m' h
      simp only [Market.allRows, Dict.concat, List.mem_append, List.mem_map, List.mem_flatMap]
      exact Or.inl (Or.inr ⟨r, ⟨_, Dict.mem_of_get? h, h2⟩, rfl⟩)
    exact ⟨_, _, key m h1, fun m' hs => key m' (hs.mktRhs ▸ h1)⟩
  · have key : ∀ m' : Market, m'.dynRhs = m.dynRhs → (r.cid, r.ctype, Rhs.var r.rhsVid) ∈ m'.allRows := by
      intro m' h
      simp only [Market.allRows, List.mem_append, List.mem_map]
      exact Or.inr ⟨r, by rw [h]; exact h2, rfl⟩
    exact ⟨_, _, key m rfl, fun m' hs => key m' (hs.loss rfl).2.1⟩

theorem SameSet.symm {k : CKey} {m m' : Market} (h : SameSet k m m') : SameSet k m' m where
  conRhs := h.conRhs.symm
  unitCon := h.unitCon.symm
  regCon := h.regCon.symm
  mktRhs := h.mktRhs.symm
  deficits := h.deficits.symm
  loss hk := by obtain ⟨a, b, c, d, e⟩ := h.loss hk; exact ⟨a.symm, b.symm, c.symm, d.symm, e.symm⟩
  tie hk := (h.tie hk).symm

/-- a row of set `k` in one program is a row of the other -/
theorem row_same {m m' : Market} {k : CKey} (hc : ConWF m) (hc' : ConWF m') (ho : m'.ownTerms k = m.ownTerms k)
    (hs : SameSet k m m') {lp lp' : Lp} (hl : m.assemble = .ok lp) (hl' : m'.assemble = .ok lp') {r : LRow}
    (hr : r ∈ lp.rows) (hk : m.rowOf k r.cid) : ∃ r' ∈ lp'.rows, m'.rowOf k r'.cid ∧ ∀ x, r.holds x ↔ r'.holds x := by
  obtain ⟨ht, hrow, hh⟩ := lpRow hl hr
  obtain ⟨ty, rh, h1, h2⟩ := allRows_of_rowOf hk
  obtain ⟨e1, e2⟩ := unique_row hc hrow h1
  have hk' : m'.rowOf k r.cid := rowOf_same hs.symm hk
  have ht' : ∃ t ∈ m'.terms, t.cid = r.cid := by
    rw [mem_terms_own hc' (inTab_of_rowOf hk'), ho, ← mem_terms_own hc (inTab_of_rowOf hk)]; exact ht
  have hmem := lpRow_of hc' hl' (h2 m' hs) ht'
  refine ⟨_, hmem, hk', fun x => ?_⟩
  rw [hh, (lpRow hl' hmem).2.2 x, rowVal_own hc (inTab_of_rowOf hk), rowVal_own hc' (inTab_of_rowOf hk'), ho, e1, e2]

theorem obeys_same {m m' : Market} {k : CKey} (hw : WF m) (hw' : WF m') (hs : SameSet k m m')
    (hr : ∀ p ∈ k.reads, SamePart m m' p) {lp lp' : Lp} (hl : m.assemble = .ok lp) (hl' : m'.assemble = .ok lp')
    (x : Nat → ℚ) : m'.obeys lp' x k ↔ m.obeys lp x k := by
  have ho := ownTerms_same hw.key hw'.key hs hr
  constructor
  · intro h r hr hk
    obtain ⟨r', h1, h2, h3⟩ := row_same hw.con hw'.con ho hs hl hl' hr hk
    exact (h3 x).2 (h r' h1 h2)
  · intro h r hr hk
    obtain ⟨r', h1, h2, h3⟩ := row_same hw'.con hw.con ho.symm hs.symm hl' hl hr hk
    exact (h3 x).2 (h r' h1 h2)

theorem Reached.run {m : Market} (h : Reached m) {ops : List Op} (hb : Benign m ops) : Reached (m.run ops) := by
  obtain ⟨regions, units, di, m0, ops0, h1, h2, rfl⟩ := h
  exact ⟨regions, units, di, m0, ops0 ++ ops, h1, benign_append.2 ⟨h2, hb⟩, by rw [run_append]⟩

end Verif
