import Verif.Proofs.Soften
import Verif.Proofs.SimPrice
import Mathlib.Algebra.Order.BigOperators.Group.List

/-! The programs of a history and of the same history without violation costs. -/

namespace Verif

/-- the market without the violation variables of soft sets -/
def Market.stiff (m : Market) : Market := { m with deficits := m.deficits.filter (fun e => !e.1.soft) }

/-- the violation variables of soft sets are 0 -/
def Market.zeroAt (m : Market) (x : Nat → ℚ) : Prop :=
  ∀ e ∈ m.deficits, e.1.soft = true → ∀ v ∈ e.2.1, x v.vid = 0

section
variable {f g : Nat → Nat} {m M : Market}

theorem stiff_get (M : Market) (k : CKey) : M.stiff.deficits.get? k = if k.soft then none else M.deficits.get? k := by
  unfold Market.stiff
  dsimp only
  generalize M.deficits = d
  induction d with
  | nil => cases k.soft <;> rfl
  | cons e d ih =>
    obtain ⟨k', v⟩ := e
    by_cases hk : k' = k
    · subst hk
      cases hs : k'.soft with
      | true =>
        rw [hs] at ih
        simp only [if_true] at ih ⊢
        rw [List.filter_cons_of_neg (by simp [hs])]
        exact ih
      | false =>
        rw [List.filter_cons_of_pos (by simp [hs])]
        simp [Dict.get?]
    · have h1 : ∀ l : Dict CKey (List DefVar × List Term), Dict.get? ((k', v) :: l) k = Dict.get? l k := by
        intro l
        exact if_neg hk
      rw [h1]
      by_cases hs : k'.soft = true
      · rw [List.filter_cons_of_neg (by simp [hs])]
        exact ih
      · rw [List.filter_cons_of_pos (by simp [hs]), h1]
        exact ih

theorem stiff_same (h : Soften f g m M) (hn : ∀ k, k.soft = true → m.deficits.get? k = none) : SameUpTo f g m M.stiff where
  regions := h.sim.regions
  units := h.sim.units
  di := h.sim.di
  bids := fun q => h.sim.bids
  bidUnit := fun q => h.sim.bidUnit
  bidReg := fun q => h.sim.bidReg
  bidCost := fun q => h.sim.bidCost
  dirs := fun q => h.sim.dirs
  inters := fun q => h.sim.inters
  interReg := fun q => h.sim.interReg
  lossShares := by have t := SimG.lossShares h.sim; exact t
  losses := by have t := SimG.losses h.sim; exact t
  lossReg := by have t := SimG.lossReg h.sim; exact t
  weights := by have t := SimG.weights h.sim; exact t
  lossLhs := by have t := SimG.lossLhs h.sim; exact t
  tieLhs := by have t := SimG.tieLhs h.sim; exact t
  deficits := by
    intro k _
    rw [stiff_get]
    cases hk : k.soft with
    | true => rw [hn k hk]; rfl
    | false => exact SimG.deficits h.sim k (by simp [hk])
  gUnit := by have t := SimG.gUnit h.sim; exact t
  gRegion := by have t := SimG.gRegion h.sim; exact t
  gInter := by have t := SimG.gInter h.sim; exact t
  unitCon := by have t := SimG.unitCon h.sim; exact t
  regCon := by have t := SimG.regCon h.sim; exact t
  conRhs := by have t := SimG.conRhs h.sim; exact t
  mktRhs := by have t := SimG.mktRhs h.sim; exact t
  dynRhs := by have t := SimG.dynRhs h.sim; exact t
  nan := by have t := h.sim.nan; exact t
  vars := by have t := h.sim.vars; exact t
  cons := by have t := h.sim.cons; exact t

theorem stiff_wf (w : ConWF M) : ConWF M.stiff where
  own := by
    obtain ⟨own, ho⟩ := w.own
    refine ⟨own, fun k c hc => ho k c ?_⟩
    unfold InTab at hc ⊢
    rcases hc with h | h | h | h | ⟨d, hd, h⟩ | h | h
    · exact Or.inl h
    · exact Or.inr (Or.inl h)
    · exact Or.inr (Or.inr (Or.inl h))
    · exact Or.inr (Or.inr (Or.inr (Or.inl h)))
    · exact Or.inr (Or.inr (Or.inr (Or.inr (Or.inl ⟨d, List.mem_of_mem_filter hd, h⟩))))
    · exact Or.inr (Or.inr (Or.inr (Or.inr (Or.inr (Or.inl h)))))
    · exact Or.inr (Or.inr (Or.inr (Or.inr (Or.inr (Or.inr h)))))
  rows := w.rows
  unitKeys := w.unitKeys
  regKeys := w.regKeys
  conKeys := w.conKeys
  mktKeys := w.mktKeys
  defKeys := List.Nodup.sublist (List.filter_sublist.map _) w.defKeys
  conMkt := w.conMkt
  mktMkt := w.mktMkt

/-! ### Rows and cost -/

theorem stiff_terms {t : Term} : t ∈ M.terms ↔ t ∈ M.stiff.terms ∨ ∃ e ∈ M.deficits, e.1.soft = true ∧ t ∈ e.2.2 := by
  have h1 : M.stiff.genericTerms = M.genericTerms := rfl
  have h2 : M.stiff.regTerms = M.regTerms := rfl
  have h3 : M.stiff.unitTerms = M.unitTerms := rfl
  unfold Market.terms
  rw [h1, h2, h3]
  have h4 : t ∈ M.fixedTerms ↔ t ∈ M.stiff.fixedTerms ∨ ∃ e ∈ M.deficits, e.1.soft = true ∧ t ∈ e.2.2 := by
    unfold Market.fixedTerms
    simp only [List.mem_append, List.mem_flatMap, Market.stiff, List.mem_filter]
    constructor
    · rintro ((h | h) | ⟨e, he, h⟩)
      · exact Or.inl (Or.inl (Or.inl h))
      · exact Or.inl (Or.inl (Or.inr h))
      · by_cases hs : e.1.soft = true
        · exact Or.inr ⟨e, he, hs, h⟩
        · exact Or.inl (Or.inr ⟨e, ⟨he, by simpa using hs⟩, h⟩)
    · rintro (((h | h) | ⟨e, ⟨he, _⟩, h⟩) | ⟨e, he, _, h⟩)
      · exact Or.inl (Or.inl h)
      · exact Or.inl (Or.inr h)
      · exact Or.inr ⟨e, he, h⟩
      · exact Or.inr ⟨e, he, h⟩
  simp only [List.mem_append, h4]
  generalize (∃ e ∈ M.deficits, e.1.soft = true ∧ t ∈ e.2.2) = P
  tauto

theorem sum_stiff {β : Type} (d : Dict CKey (List DefVar × List Term)) (F : CKey × (List DefVar × List Term) → List β) (val : β → ℚ)
    (h : ∀ e ∈ d, e.1.soft = true → ∀ t ∈ F e, val t = 0) :
    ((List.flatMap F d).map val).sum = ((List.flatMap F (List.filter (fun e => !e.1.soft) d)).map val).sum := by
  induction d with
  | nil => rfl
  | cons e d ih =>
    have ih' := ih (fun e' he' => h e' (List.mem_cons_of_mem _ he'))
    rw [List.flatMap_cons, List.map_append, List.sum_append, ih']
    by_cases hs : e.1.soft = true
    · rw [List.filter_cons_of_neg (by simp [hs])]
      have : ((F e).map val).sum = 0 := by
        apply List.sum_eq_zero
        intro q hq
        obtain ⟨t, ht, rfl⟩ := List.mem_map.1 hq
        exact h e (List.mem_cons_self ..) hs t ht
      rw [this, zero_add]
    · rw [List.filter_cons_of_pos (by simp [hs]), List.flatMap_cons, List.map_append, List.sum_append]

theorem rowVal_eq_sum (ts : List Term) (x : Nat → ℚ) (c : Nat) :
    rowVal ts x c = (ts.map (fun t => if t.cid = c then t.coef * x t.vid else 0)).sum := by
  unfold rowVal
  induction ts with
  | nil => rfl
  | cons t ts ih =>
    by_cases hc : t.cid = c
    · simp [hc, ← ih]
    · simp [hc, ← ih]

theorem rowVal_stiff (hr : RefWF M) {x : Nat → ℚ} (hx : M.zeroAt x) (c : Nat) : rowVal M.terms x c = rowVal M.stiff.terms x c := by
  rw [rowVal_eq_sum, rowVal_eq_sum]
  have h1 : M.stiff.genericTerms = M.genericTerms := rfl
  have h2 : M.stiff.regTerms = M.regTerms := rfl
  have h3 : M.stiff.unitTerms = M.unitTerms := rfl
  unfold Market.terms
  rw [h1, h2, h3]
  unfold Market.fixedTerms
  simp only [List.map_append, List.sum_append]
  congr 3
  congr 1
  apply sum_stiff
  intro e he hs t ht
  obtain ⟨v, hv, hvt⟩ := List.mem_map.1 (hr.own e he t ht)
  split
  · rw [← hvt, hx e he hs v hv, mul_zero]
  · rfl

theorem objective_stiff {x : Nat → ℚ} (hx : M.zeroAt x) : linVal x M.objective = linVal x M.stiff.objective := by
  unfold linVal Market.objective
  simp only [List.map_append, List.sum_append]
  congr 1
  apply sum_stiff
  intro e he hs o ho
  obtain ⟨v, hv, rfl⟩ := List.mem_map.1 ho
  simp only [hx e he hs v hv, mul_zero]

theorem vars_stiff {v : LVar} : v ∈ M.allVars ↔ v ∈ M.stiff.allVars ∨
    ∃ e ∈ M.deficits, e.1.soft = true ∧ ∃ d ∈ e.2.1, v = { vid := d.vid, lb := 0, ub := none } := by
  unfold Market.allVars
  simp only [List.mem_append, List.mem_flatMap, Market.stiff, List.mem_filter, List.mem_map]
  constructor
  · rintro ((((h | h) | h) | h) | ⟨e, he, d, hd, rfl⟩)
    · exact Or.inl (Or.inl (Or.inl (Or.inl (Or.inl h))))
    · exact Or.inl (Or.inl (Or.inl (Or.inl (Or.inr h))))
    · exact Or.inl (Or.inl (Or.inl (Or.inr h)))
    · exact Or.inl (Or.inl (Or.inr h))
    · by_cases hs : e.1.soft = true
      · exact Or.inr ⟨e, he, hs, d, hd, rfl⟩
      · exact Or.inl (Or.inr ⟨e, ⟨he, by simpa using hs⟩, d, hd, rfl⟩)
  · rintro (((((h | h) | h) | h) | ⟨e, ⟨he, _⟩, d, hd, rfl⟩) | ⟨e, he, _, d, hd, rfl⟩)
    · exact Or.inl (Or.inl (Or.inl (Or.inl h)))
    · exact Or.inl (Or.inl (Or.inl (Or.inr h)))
    · exact Or.inl (Or.inl (Or.inr h))
    · exact Or.inl (Or.inr h)
    · exact Or.inr ⟨e, he, d, hd, rfl⟩
    · exact Or.inr ⟨e, he, d, hd, rfl⟩

/-- a row that only violation variables reach has a constant right hand side -/
theorem soft_const (w : ConWF M) {r : Nat × CType × Rhs} (hr : r ∈ M.allRows) {e} (he : e ∈ M.deficits) (hs : e.1.soft = true)
    {t : Term} (ht : t ∈ e.2.2) (hc : t.cid = r.1) : ∃ q, r.2.2 = .const q := by
  obtain ⟨own, ho⟩ := w.own
  simp only [Market.allRows, List.mem_append, List.mem_map] at hr
  rcases hr with (⟨a, _, rfl⟩ | ⟨a, _, rfl⟩) | ⟨a, ha, rfl⟩
  · exact ⟨_, rfl⟩
  · exact ⟨_, rfl⟩
  · exfalso
    have h1 := (ho e.1 t.cid (Or.inr (Or.inr (Or.inr (Or.inr (Or.inl ⟨e.2, he, t, ht, rfl⟩)))))).1
    have h2 := (ho .interpWeights a.cid (Or.inr (Or.inr (Or.inr (Or.inr (Or.inr (Or.inl ⟨rfl, Or.inr ⟨a, ha, rfl⟩⟩))))))).1
    have hc' : t.cid = a.cid := hc
    rw [hc', h2] at h1
    rw [← h1] at hs
    cases hs

theorem rowVal_none {ts : List Term} {c : Nat} (h : ¬ ∃ t ∈ ts, t.cid = c) (x : Nat → ℚ) : rowVal ts x c = 0 := by
  rw [rowVal_eq_sum]
  apply List.sum_eq_zero
  intro q hq
  obtain ⟨t, ht, rfl⟩ := List.mem_map.1 hq
  rw [if_neg (fun hc => h ⟨t, ht, hc⟩)]

/-! ### Feasible solutions -/

section
variable {LP lp' : Lp} (w : ConWF M) (hr : RefWF M) (E : M.assemble = .ok LP) (E' : M.stiff.assemble = .ok lp')
include w hr E E'

omit w hr in
theorem stiff_cost {x : Nat → ℚ} (hx : M.zeroAt x) : LP.cost x = lp'.cost x := by
  unfold Lp.cost
  rw [(assemble_parts E).2.1, (assemble_parts E').2.1, objective_stiff hx]

theorem stiff_feasible {x : Nat → ℚ} (hx : M.zeroAt x) (hf : Feasible LP x) : Feasible lp' x := by
  rw [feasible_iff w E] at hf
  rw [feasible_iff (stiff_wf w) E']
  obtain ⟨h1, h2, h3, h4⟩ := hf
  refine ⟨fun v hv => h1 v (vars_stiff.2 (Or.inl hv)), fun r hr' ⟨t, ht, htc⟩ => ?_, h3, h4⟩
  rw [← rowVal_stiff hr hx]
  exact h2 r hr' ⟨t, stiff_terms.2 (Or.inl ht), htc⟩

theorem soft_feasible {x y : Nat → ℚ} (hx : M.zeroAt x) (hf : Feasible LP x) (hy : M.zeroAt y) (hg : Feasible lp' y) : Feasible LP y := by
  rw [feasible_iff w E] at hf ⊢
  rw [feasible_iff (stiff_wf w) E'] at hg
  obtain ⟨h1, h2, h3, h4⟩ := hg
  refine ⟨fun v hv => ?_, fun r hr' hex => ?_, h3, h4⟩
  · rcases vars_stiff.1 hv with h | ⟨e, he, hs, d, hd, rfl⟩
    · exact h1 v h
    · have := hy e he hs d hd
      refine ⟨by rw [this], ?_⟩
      intro u hu; cases hu
  · by_cases hst : ∃ t ∈ M.stiff.terms, t.cid = r.1
    · rw [rowVal_stiff hr hy]
      exact h2 r hr' hst
    · obtain ⟨t, ht, htc⟩ := hex
      rcases stiff_terms.1 ht with h | ⟨e, he, hs, hte⟩
      · exact absurd ⟨t, h, htc⟩ hst
      · obtain ⟨q, hq⟩ := soft_const w hr' he hs hte htc
        have := hf.2.1 r hr' ⟨t, ht, htc⟩
        rw [rowVal_stiff hr hx, rowVal_none hst, hq] at this
        rw [rowVal_stiff hr hy, rowVal_none hst, hq]
        exact this

end

/-! ### Reports -/

theorem zero_of_nonneg (w : ConWF M) {x : Nat → ℚ} (hnn : ∀ e ∈ M.deficits, e.1.soft = true → ∀ d ∈ e.2.1, 0 ≤ x d.vid)
    (hv : ∀ k, k.soft = true → M.violationDegree x k = 0) : M.zeroAt x := by
  intro e he hs v hvm
  have hg : M.deficits.get? e.1 = some e.2 := Dict.get?_of_mem w.defKeys he
  have := hv e.1 hs
  unfold Market.violationDegree at this
  rw [hg] at this
  have hle := List.single_le_sum (l := e.2.1.map (fun v => x v.vid)) (by
    intro q hq
    obtain ⟨d, hd, rfl⟩ := List.mem_map.1 hq
    exact hnn e he hs d hd) _ (List.mem_map.2 ⟨v, hvm, rfl⟩)
  have this' : (e.2.1.map (fun v => x v.vid)).sum = 0 := this
  rw [this'] at hle
  exact le_antisymm hle (hnn e he hs v hvm)

theorem met_zero (w : ConWF M) {LP : Lp} (E : M.assemble = .ok LP) {x : Nat → ℚ} (hf : Feasible LP x)
    (hv : ∀ k, k.soft = true → M.violationDegree x k = 0) : M.zeroAt x := by
  rw [feasible_iff w E] at hf
  exact zero_of_nonneg w (fun e he hs d hd => (hf.1 _ (vars_stiff.2 (Or.inr ⟨e, he, hs, d, hd, rfl⟩))).1) hv

theorem zero_violation {x : Nat → ℚ} (hx : M.zeroAt x) {k : CKey} (hk : k.soft = true) : M.violationDegree x k = 0 := by
  unfold Market.violationDegree
  cases hd : M.deficits.get? k with
  | none => rfl
  | some d =>
    apply List.sum_eq_zero
    intro q hq
    obtain ⟨v, hv, rfl⟩ := List.mem_map.1 hq
    exact hx (k, d) (Dict.mem_of_get? hd) hk v hv

theorem stiff_violation {x : Nat → ℚ} (hx : M.zeroAt x) (k : CKey) :
    M.stiff.violationDegree x k = M.violationDegree x k := by
  cases hk : k.soft with
  | true =>
    rw [zero_violation hx hk]
    unfold Market.violationDegree
    rw [stiff_get, hk]
    rfl
  | false =>
    unfold Market.violationDegree
    rw [stiff_get, hk]
    rfl

theorem stiff_report {LP lp' : Lp} (E : M.assemble = .ok LP) (E' : M.stiff.assemble = .ok lp')
    {x : Nat → ℚ} (hx : M.zeroAt x) : M.report LP x = M.stiff.report lp' x := by
  unfold Market.report
  have h1 : M.violationDegree x = M.stiff.violationDegree x := funext (fun k => (stiff_violation hx k).symm)
  rw [stiff_cost E E' hx, h1]
  rfl

/-- a point of the rigid program as a point of the soft program -/
theorem soft_point (h : Soften f g m M) (w : ConWF M) (y : Nat → ℚ) : ∃ X : Nat → ℚ, (∀ v, X (f v) = y v) ∧ M.zeroAt X := by
  refine ⟨Function.extend f y 0, fun v => h.sim.vars.inj.extend_apply y 0 v, fun e he hs v hv => ?_⟩
  rw [Function.extend_apply']
  · rfl
  · rintro ⟨i, hi⟩
    exact h.avoid e.1 hs e.2 (Dict.get?_of_mem w.defKeys he) v hv i hi

end

end Verif
