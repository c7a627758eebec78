import Mathlib.Data.List.Sort
import Verif.Proofs.SimLp
import Verif.Proofs.Prices
import Verif.Proofs.Only

/-! Two markets that agree up to renaming of ids have the same prices. -/

namespace Verif

section
variable {f g : Nat → Nat} {m M : Market}

/-- the rows with a left hand side -/
def Market.liveRows (m : Market) : List (Nat × CType × Rhs) := m.allRows.filter (fun r => decide (∃ t ∈ m.terms, t.cid = r.1))

theorem liveRows_ren (h : SameUpTo f g m M) (wm : ConWF m) (wM : ConWF M) : M.liveRows.Perm (m.liveRows.map (renRhs f g)) := by
  unfold Market.liveRows
  refine ((allRows_ren h wm wM).filter _).trans ?_
  rw [List.filter_map]
  refine List.Perm.map _ (List.Perm.of_eq (List.filter_congr (fun r _ => ?_)))
  rw [Function.comp, decide_eq_decide]
  simp only [renRhs, (terms_ren h wm wM).mem_iff, List.mem_map]
  constructor
  · rintro ⟨_, ⟨t, ht, rfl⟩, e⟩; exact ⟨t, ht, h.cons.inj e⟩
  · rintro ⟨t, ht, e⟩; exact ⟨_, ⟨t, ht, rfl⟩, congrArg g e⟩

theorem rows_perm (w : ConWF m) {lp : Lp} (h : m.assemble = .ok lp) :
    (lp.rows.map (fun r => (r.cid, r.ctype, r.rhs))).Perm m.liveRows := by
  have hn := allRows_nodup w
  have n1 : (lp.rows.map (fun r => (r.cid, r.ctype, r.rhs))).Nodup := by
    apply List.Nodup.of_map Prod.fst
    rw [List.map_map]
    exact lpRows_nodup h
  have n2 : m.liveRows.Nodup := (List.Nodup.of_map _ hn).filter _
  rw [List.perm_ext_iff_of_nodup n1 n2]
  rintro ⟨c, ty, r⟩
  simp only [Market.liveRows, List.mem_map, List.mem_filter, decide_eq_true_eq]
  obtain ⟨_, _, _, _, _, h6⟩ := assemble_parts h
  rcases h6 with ⟨h7, a, b, d⟩ | ⟨_, h7⟩
  · constructor
    · rintro ⟨o, ho, _⟩; rw [h7] at ho; cases ho
    · rintro ⟨hr, _⟩; simp [Market.allRows, a, b, d, Dict.concat] at hr
  · constructor
    · rintro ⟨o, ho, e⟩
      obtain ⟨c1, _, c3⟩ := (solverRows_mem h7).2 o ho
      obtain ⟨t, ht, et⟩ := List.mem_map.1 (List.mem_dedup.1 c1)
      injection e with e1 e2
      injection e2 with e2 e3
      rw [← e1, ← e2, ← e3]
      exact ⟨lookupLast_mem c3, t, ht, et⟩
    · rintro ⟨hr, t, ht, et⟩
      obtain ⟨ty', r', a, _, ho⟩ := (solverRows_mem h7).1 c (List.mem_dedup.2 (List.mem_map.2 ⟨t, ht, et⟩))
      rw [lookupLast_of_unique hn hr] at a
      injection a with a
      injection a with a1 a2
      exact ⟨_, ho, by rw [a1, a2]⟩

theorem row_val {lp : Lp} (h : m.assemble = .ok lp) {o : LRow} (ho : o ∈ lp.rows) (y : Nat → ℚ) :
    linVal y o.coefs = rowVal m.terms y o.cid := by
  obtain ⟨_, _, _, _, _, h6⟩ := assemble_parts h
  rcases h6 with ⟨h7, _⟩ | ⟨_, h7⟩
  · rw [h7] at ho; cases ho
  · rw [((solverRows_mem h7).2 o ho).2.1, linVal_groupCoefs]

/-- shadow prices in terms of the tables of the market -/
theorem shadow_iff (w : ConWF m) {lp : Lp} (h : m.assemble = .ok lp) {lin : Lp} (hl : lin.rows = lp.rows) (h1 : lin.sos1 = [])
    (h2 : lin.sos2 = []) (z p : Nat → ℚ) :
    ShadowPrices lin z p ↔ (∀ v ∈ lin.vars, v.holds z) ∧ (∀ r ∈ m.liveRows, r.2.1.holds (rowVal m.terms z r.1) (r.2.2.eval z)) ∧
      (∀ r ∈ m.liveRows, r.2.1 = .ge → 0 ≤ p r.1) ∧ (∀ r ∈ m.liveRows, r.2.1 = .le → p r.1 ≤ 0) ∧
      ∀ y, (∀ v ∈ lin.vars, v.holds y) →
        lin.cost z ≤ lin.cost y - (m.liveRows.map (fun r => p r.1 * (rowVal m.terms y r.1 - r.2.2.eval y))).sum := by
  have hp := rows_perm w h
  have hs : ∀ y, (lin.rows.map (fun r => p r.cid * (linVal y r.coefs - r.rhs.eval y))).sum =
      (m.liveRows.map (fun r => p r.1 * (rowVal m.terms y r.1 - r.2.2.eval y))).sum := by
    intro y
    rw [hl, ← sum_perm hp, List.map_map]
    apply sum_map_congr
    intro o ho
    simp only [Function.comp, row_val h ho]
  constructor
  · intro H
    refine ⟨H.feasible.vars, ?_, ?_, ?_, fun y hy => hs y ▸ H.bound y hy⟩
    · intro r hr
      obtain ⟨o, ho, rfl⟩ := List.mem_map.1 (hp.mem_iff.2 hr)
      have := H.feasible.rows o (hl ▸ ho)
      unfold LRow.holds at this
      rwa [row_val h ho] at this
    · intro r hr
      obtain ⟨o, ho, rfl⟩ := List.mem_map.1 (hp.mem_iff.2 hr)
      exact H.ge o (hl ▸ ho)
    · intro r hr
      obtain ⟨o, ho, rfl⟩ := List.mem_map.1 (hp.mem_iff.2 hr)
      exact H.le o (hl ▸ ho)
  · rintro ⟨a, b, c, d, e⟩
    have hm : ∀ {o : LRow}, o ∈ lin.rows → (o.cid, o.ctype, o.rhs) ∈ m.liveRows := fun ho =>
      hp.mem_iff.1 (List.mem_map.2 ⟨_, hl ▸ ho, rfl⟩)
    refine ⟨⟨a, fun o ho => ?_, ?_, ?_⟩, fun o ho => c _ (hm ho), fun o ho => d _ (hm ho), fun y hy => (hs y).symm ▸ e y hy⟩
    · unfold LRow.holds
      rw [row_val h (hl ▸ ho)]
      exact b _ (hm ho)
    · rw [h2]; nofun
    · rw [h1]; nofun

/-- the sorting of the solver for ids renamed by `f` -/
noncomputable def renSort (f : Nat → Nat) (S : Solver) : Solver :=
  { S with sort := fun l => haveI := fun l : List (ℚ × Nat) => Classical.propDecidable (∃ l' : List (ℚ × Nat), l = l'.map (Prod.map id f))
    if ∃ l' : List (ℚ × Nat), l = l'.map (Prod.map id f) then
      (S.sort (l.map (Prod.map id (Function.invFun f)))).map (Prod.map id f)
    else l.insertionSort (fun a b => a.1 ≤ b.1) }

theorem renSort_map (hf : Function.Injective f) (S : Solver) (l : List (ℚ × Nat)) :
    (renSort f S).sort (l.map (Prod.map id f)) = (S.sort l).map (Prod.map id f) := by
  unfold renSort
  dsimp only
  rw [if_pos ⟨l, rfl⟩, List.map_map]
  congr 2
  rw [Prod.map_comp_map, Function.invFun_comp hf]
  simp

theorem renSort_sorts (hf : Function.Injective f) {S : Solver} (hS : S.sorts) : (renSort f S).sorts := by
  intro l
  by_cases h : ∃ l' : List (ℚ × Nat), l = l'.map (Prod.map id f)
  · obtain ⟨l', rfl⟩ := h
    rw [renSort_map hf]
    refine ⟨((hS l').1).map _, ?_⟩
    rw [List.pairwise_map]
    exact (hS l').2
  · have e : (renSort f S).sort l = l.insertionSort (fun a b => a.1 ≤ b.1) := by
      unfold renSort
      dsimp only
      rw [if_neg h]
    rw [e]
    have : Std.Total (fun a b : ℚ × Nat => a.1 ≤ b.1) := ⟨fun a b => le_total a.1 b.1⟩
    have : IsTrans (ℚ × Nat) (fun a b => a.1 ≤ b.1) := ⟨fun a b c h h' => le_trans h h'⟩
    exact ⟨List.perm_insertionSort _ _, List.pairwise_insertionSort _ _⟩

/-- a sorting of renamed ids sorts the ids -/
theorem sort_back (hf : Function.Injective f) {S : Solver} (hS : S.sorts) :
    ∃ S' : Solver, S'.sorts ∧ ∀ l, S.sort (l.map (Prod.map id f)) = (S'.sort l).map (Prod.map id f) := by
  have key : ∀ l : List (ℚ × Nat), ((S.sort (l.map (Prod.map id f))).map (Prod.map id (Function.invFun f))).map (Prod.map id f) =
      S.sort (l.map (Prod.map id f)) := by
    intro l
    rw [List.map_map]
    conv_rhs => rw [← List.map_id (S.sort _)]
    apply List.map_congr_left
    intro q hq
    obtain ⟨q', _, rfl⟩ := List.mem_map.1 ((hS _).1.mem_iff.1 hq)
    simp only [Function.comp, Prod.map, id, Function.leftInverse_invFun hf q'.2]
  refine ⟨{ S with sort := fun l => (S.sort (l.map (Prod.map id f))).map (Prod.map id (Function.invFun f)) }, fun l => ⟨?_, ?_⟩,
    fun l => (key l).symm⟩
  · have := ((hS (l.map (Prod.map id f))).1).map (Prod.map id (Function.invFun f))
    rwa [List.map_map, Prod.map_comp_map, Function.invFun_comp hf, Function.comp_id, Prod.map_id, List.map_id] at this
  · dsimp only
    rw [List.pairwise_map]
    exact (hS _).2

theorem distances_ren (h : SameUpTo f g m M) {x X : Nat → ℚ} (hX : ∀ v, X (f v) = x v) (v : InterVar) :
    M.distances X (v.ren f) = (m.distances x v).map (Prod.map id f) := by
  unfold Market.distances
  rw [h.weights nofalse]
  simp only [getD_ren, List.filter_map, List.map_map]
  have : (fun w : WeightVar => decide (w.inter = (v.ren f).inter ∧ w.link = (v.ren f).link)) ∘ WeightVar.ren f =
      fun w => decide (w.inter = v.inter ∧ w.link = v.link) := rfl
  rw [this]
  apply List.map_congr_left
  intro w _
  simp only [Function.comp, InterVar.ren, WeightVar.ren, hX, Prod.map, id]

theorem unused_ren (h : SameUpTo f g m M) {x X : Nat → ℚ} (hX : ∀ v, X (f v) = x v) {S S' : Solver}
    (hS : ∀ l, S'.sort (l.map (Prod.map id f)) = (S.sort l).map (Prod.map id f)) :
    M.unusedWeights S' X ++ M.unusedLinks X = (m.unusedWeights S x ++ m.unusedLinks x).map f := by
  unfold Market.unusedWeights Market.unusedLinks
  rw [h.inters, List.map_append]
  congr 1
  · simp only [getD_ren, List.flatMap_map, List.map_flatMap]
    apply List.flatMap_congr
    intro v _
    rw [distances_ren h hX, hS, ← List.map_drop, List.map_map, List.map_map]
    rfl
  · simp only [getD_ren, List.filter_map, List.map_map]
    have : (fun v : InterVar => decide (v.inter ≠ v.link ∧ X v.vid = 0)) ∘ InterVar.ren f =
        fun v => decide (v.inter ≠ v.link ∧ x v.vid = 0) := by
      funext v
      simp only [Function.comp, InterVar.ren, hX]
    rw [this]
    rfl

theorem linear_sos (S : Solver) (x : Nat → ℚ) (lp : Lp) : (m.linear S x lp).sos1 = [] ∧ (m.linear S x lp).sos2 = [] := by
  unfold Market.linear; dsimp only; split <;> exact ⟨rfl, rfl⟩

theorem linear_vars_ren (h : SameUpTo f g m M) (wm : ConWF m) (wM : ConWF M) {lp LP : Lp} (e : m.assemble = .ok lp)
    (E : M.assemble = .ok LP) {x X y Y : Nat → ℚ} (hX : ∀ v, X (f v) = x v) (hY : ∀ v, Y (f v) = y v) {S S' : Solver}
    (hS : ∀ l, S'.sort (l.map (Prod.map id f)) = (S.sort l).map (Prod.map id f)) :
    (∀ v ∈ (M.linear S' X LP).vars, v.holds Y) ↔ ∀ v ∈ (m.linear S x lp).vars, v.holds y := by
  have hl : M.losses.isSome = m.losses.isSome := by rw [h.losses nofalse]; cases m.losses <;> rfl
  have key : ∀ v : LVar, (v.ren f).holds Y ↔ v.holds y := by
    intro v
    simp only [LVar.holds, LVar.ren, hY]
  unfold Market.linear
  dsimp only
  rw [hl]
  split
  · unfold Lp.disable
    dsimp only
    rw [(assemble_parts e).1, (assemble_parts E).1, unused_ren h hX hS]
    simp only [List.forall_mem_map, (allVars_ren h wm wM).mem_iff]
    refine forall₂_congr (fun v _ => ?_)
    have : (v.ren f).vid ∈ (m.unusedWeights S x ++ m.unusedLinks x).map f ↔ v.vid ∈ m.unusedWeights S x ++ m.unusedLinks x := by
      constructor
      · intro hv
        obtain ⟨a, ha, ea⟩ := List.mem_map.1 hv
        rw [← h.vars.inj ea]
        exact ha
      · exact fun hv => List.mem_map.2 ⟨_, hv, rfl⟩
    by_cases hv : v.vid ∈ m.unusedWeights S x ++ m.unusedLinks x
    · rw [if_pos (this.2 hv), if_pos hv]
      exact key { v with lb := 0, ub := some 0 }
    · rw [if_neg (mt this.1 hv), if_neg hv]
      exact key v
  · dsimp only
    rw [(assemble_parts e).1, (assemble_parts E).1]
    simp only [List.forall_mem_map, (allVars_ren h wm wM).mem_iff]
    exact forall₂_congr (fun v _ => key v)

theorem shadow_ren (h : SameUpTo f g m M) (wm : ConWF m) (wM : ConWF M) {lp LP : Lp} (e : m.assemble = .ok lp)
    (E : M.assemble = .ok LP) {x X z Z p P : Nat → ℚ} (hX : ∀ v, X (f v) = x v) (hZ : ∀ v, Z (f v) = z v)
    (hP : ∀ c, P (g c) = p c) {S S' : Solver} (hS : ∀ l, S'.sort (l.map (Prod.map id f)) = (S.sort l).map (Prod.map id f)) :
    ShadowPrices (M.linear S' X LP) Z P ↔ ShadowPrices (m.linear S x lp) z p := by
  rw [shadow_iff wM E (linear_rows ..) (linear_sos ..).1 (linear_sos ..).2,
    shadow_iff wm e (linear_rows ..) (linear_sos ..).1 (linear_sos ..).2]
  have hr : ∀ {y Y : Nat → ℚ}, (∀ v, Y (f v) = y v) → ∀ c, rowVal M.terms Y (g c) = rowVal m.terms y c := by
    intro y Y hY c
    rw [rowVal_perm (terms_ren h wm wM), rowVal_ren h.cons.inj hY]
  have hsum : ∀ {y Y : Nat → ℚ}, (∀ v, Y (f v) = y v) →
      (M.liveRows.map (fun r => P r.1 * (rowVal M.terms Y r.1 - r.2.2.eval Y))).sum =
      (m.liveRows.map (fun r => p r.1 * (rowVal m.terms y r.1 - r.2.2.eval y))).sum := by
    intro y Y hY
    rw [sum_perm (liveRows_ren h wm wM), List.map_map]
    apply sum_map_congr
    intro r _
    simp only [Function.comp, renRhs, hP, hr hY, rhs_ren hY]
  have hc : ∀ {y Y : Nat → ℚ}, (∀ v, Y (f v) = y v) → (M.linear S' X LP).cost Y = (m.linear S x lp).cost y := by
    intro y Y hY
    rw [linear_cost, linear_cost, cost_ren h wm wM e E hY]
  refine and_congr (linear_vars_ren h wm wM e E hX hZ hS) (and_congr ?_ (and_congr ?_ (and_congr ?_ ?_)))
  · simp only [(liveRows_ren h wm wM).mem_iff, List.forall_mem_map]
    refine forall₂_congr (fun r _ => ?_)
    simp only [renRhs, hr hZ, rhs_ren hZ]
  · simp only [(liveRows_ren h wm wM).mem_iff, List.forall_mem_map]
    refine forall₂_congr (fun r _ => ?_)
    simp only [renRhs, hP]
  · simp only [(liveRows_ren h wm wM).mem_iff, List.forall_mem_map]
    refine forall₂_congr (fun r _ => ?_)
    simp only [renRhs, hP]
  · rw [hc hZ]
    constructor
    · intro H y hy
      obtain ⟨Y, hY⟩ := points_ren h y
      have := H Y ((linear_vars_ren h wm wM e E hX hY hS).2 hy)
      rwa [hc hY, hsum hY] at this
    · intro H Y hy
      have hY : ∀ v, Y (f v) = (fun v => Y (f v)) v := fun _ => rfl
      have := H _ ((linear_vars_ren h wm wM e E hX hY hS).1 hy)
      rwa [← hc hY, ← hsum hY] at this

theorem energyPrices_ren (h : SameUpTo f g m M) {p P : Nat → ℚ} (hP : ∀ c, P (g c) = p c) :
    M.energyPrices P = m.energyPrices p := by
  unfold Market.energyPrices
  rw [h.mktRhs .demand nofalse]
  cases m.mktRhs.get? .demand with
  | none => rfl
  | some rows =>
    simp only [Option.map_some, List.filterMap_map]
    congr 1
    apply List.filterMap_congr
    intro r _
    simp only [Function.comp, Row.ren, hP]

theorem fcasPrices_ren (h : SameUpTo f g m M) {p P : Nat → ℚ} (hP : ∀ c, P (g c) = p c) :
    M.fcasPrices P = m.fcasPrices p := by
  unfold Market.fcasPrices
  rw [h.mktRhs .fcas nofalse, h.regCon .fcas nofalse]
  cases m.regCon.get? .fcas with
  | none => rfl
  | some cs =>
    cases m.mktRhs.get? .fcas with
    | none => rfl
    | some rows =>
      simp only [Option.map_some]
      congr 1
      have e : (cs.map (ConReg.ren g)).flatMap (fun c => ((rows.map (Row.ren g)).filter (fun r => decide (r.cid = c.cid))).map
            (fun r => (c, r))) =
          (cs.flatMap (fun c => (rows.filter (fun r => decide (r.cid = c.cid))).map (fun r => (c, r)))).map
            (fun q => (q.1.ren g, q.2.ren g)) := by
        rw [List.flatMap_map, List.map_flatMap]
        apply List.flatMap_congr
        intro c _
        simp only [List.filter_map, List.map_map]
        have : (fun r : Row => decide (r.cid = (c.ren g).cid)) ∘ Row.ren g = fun r => decide (r.cid = c.cid) := by
          funext r
          simp only [Function.comp, Row.ren, ConReg.ren, h.cons.inj.eq_iff]
        rw [this]
        rfl
      rw [e]
      exact groupSum_ren _ (fun q : ConReg × Row => (q.1.ren g, q.2.ren g)) (fun _ => rfl) _ _ (fun q => hP _) _

end

end Verif
