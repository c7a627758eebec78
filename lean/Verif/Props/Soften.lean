import Verif.Proofs.SoftenLp
import Verif.Props.Equilibrium
import Verif.Props.PriceCap
import Verif.Proofs.Replace
import Verif.Props.Limits

/-!
# C120: elastic constraints that are met

A market whose constraints have violation costs, compared with the same market without them: as long as nothing is violated
the two dispatch the same.
-/

namespace Verif

section
variable {f g : Nat → Nat} {m M : Market}

theorem linear_vars_stiff {LP lp' : Lp} (E : M.assemble = .ok LP) (E' : M.stiff.assemble = .ok lp') (S : Solver) (x y : Nat → ℚ)
    (h : ∀ v ∈ (M.linear S x LP).vars, v.holds y) : ∀ v ∈ (M.stiff.linear S x lp').vars, v.holds y := by
  have e1 : M.stiff.losses = M.losses := rfl
  have e2 : M.stiff.unusedWeights S x ++ M.stiff.unusedLinks x = M.unusedWeights S x ++ M.unusedLinks x := rfl
  unfold Market.linear at h ⊢
  rw [e1, e2]
  dsimp only [Lp.disable] at h ⊢
  split
  · rename_i hl
    rw [if_pos hl] at h
    simp only [List.forall_mem_map, (assemble_parts E).1, (assemble_parts E').1] at h ⊢
    exact fun v hv => h v (vars_stiff.2 (Or.inl hv))
  · rename_i hl
    rw [if_neg hl] at h
    simp only [(assemble_parts E).1, (assemble_parts E').1] at h ⊢
    exact fun v hv => h v (vars_stiff.2 (Or.inl hv))

theorem linear_vars_soft {LP lp' : Lp} (E : M.assemble = .ok LP) (E' : M.stiff.assemble = .ok lp') (S : Solver) (x : Nat → ℚ)
    {y : Nat → ℚ} (hy : M.zeroAt y)
    (h : ∀ v ∈ (M.stiff.linear S x lp').vars, v.holds y) : ∀ v ∈ (M.linear S x LP).vars, v.holds y := by
  have e1 : M.stiff.losses = M.losses := rfl
  have e2 : M.stiff.unusedWeights S x ++ M.stiff.unusedLinks x = M.unusedWeights S x ++ M.unusedLinks x := rfl
  unfold Market.linear at h ⊢
  rw [e1, e2] at h
  dsimp only [Lp.disable] at h ⊢
  split
  · rename_i hl
    rw [if_pos hl] at h
    simp only [List.forall_mem_map, (assemble_parts E).1, (assemble_parts E').1] at h ⊢
    intro v hv
    rcases vars_stiff.1 hv with hv' | ⟨e, he, hs, d, hd, rfl⟩
    · exact h v hv'
    · have h0 := hy e he hs d hd
      split
      · exact ⟨by rw [h0], fun u hu => by cases hu; rw [h0]⟩
      · exact ⟨by rw [h0], fun u hu => by cases hu⟩
  · rename_i hl
    rw [if_neg hl] at h
    simp only [(assemble_parts E).1, (assemble_parts E').1] at h ⊢
    intro v hv
    rcases vars_stiff.1 hv with hv' | ⟨e, he, hs, d, hd, rfl⟩
    · exact h v hv'
    · have h0 := hy e he hs d hd
      exact ⟨by rw [h0], fun u hu => by cases hu⟩

theorem linear_nonneg {LP : Lp} (E : M.assemble = .ok LP) (S : Solver) {x y : Nat → ℚ} (h : ∀ v ∈ (M.linear S x LP).vars, v.holds y) :
    ∀ e ∈ M.deficits, e.1.soft = true → ∀ d ∈ e.2.1, 0 ≤ y d.vid := by
  intro e he hs d hd
  have hv : (⟨d.vid, 0, none⟩ : LVar) ∈ M.allVars := vars_stiff.2 (Or.inr ⟨e, he, hs, d, hd, rfl⟩)
  unfold Market.linear at h
  dsimp only [Lp.disable] at h
  split at h
  · simp only [List.forall_mem_map, (assemble_parts E).1] at h
    have := h _ hv
    split at this
    · exact this.1
    · exact this.1
  · simp only [(assemble_parts E).1] at h
    exact (h _ hv).1

theorem live_stiff {r : Nat × CType × Rhs} (h : r ∈ M.stiff.liveRows) : r ∈ M.liveRows := by
  simp only [Market.liveRows, List.mem_filter, decide_eq_true_eq] at h ⊢
  obtain ⟨h1, t, ht, htc⟩ := h
  exact ⟨h1, t, stiff_terms.2 (Or.inl ht), htc⟩

/-- rows that only violation variables reach do not count in the sum of the payments for rows -/
theorem live_sum (w : ConWF M) (hr : RefWF M) {z y p : Nat → ℚ} (hz : M.zeroAt z) (hy : M.zeroAt y)
    (hs : ∀ r ∈ M.liveRows, p r.1 * (rowVal M.terms z r.1 - r.2.2.eval z) = 0) :
    (M.liveRows.map (fun r => p r.1 * (rowVal M.terms y r.1 - r.2.2.eval y))).sum =
    (M.stiff.liveRows.map (fun r => p r.1 * (rowVal M.stiff.terms y r.1 - r.2.2.eval y))).sum := by
  have key : ∀ (rows : List (Nat × CType × Rhs)) (P Q : Nat × CType × Rhs → Bool) (F G : Nat × CType × Rhs → ℚ),
      (∀ r ∈ rows, Q r = true → P r = true ∧ F r = G r) → (∀ r ∈ rows, P r = true → Q r = false → F r = 0) →
      ((rows.filter P).map F).sum = ((rows.filter Q).map G).sum := by
    intro rows P Q F G h1 h2
    induction rows with
    | nil => rfl
    | cons r rows ih =>
      have ih' := ih (fun a ha => h1 a (List.mem_cons_of_mem _ ha)) (fun a ha => h2 a (List.mem_cons_of_mem _ ha))
      cases hQ : Q r with
      | true =>
        obtain ⟨a, b⟩ := h1 r (List.mem_cons_self ..) hQ
        rw [List.filter_cons_of_pos a, List.filter_cons_of_pos hQ, List.map_cons, List.map_cons, List.sum_cons, List.sum_cons, ih', b]
      | false =>
        rw [List.filter_cons_of_neg (p := Q) (by simp [hQ])]
        cases hP : P r with
        | true =>
          rw [List.filter_cons_of_pos hP, List.map_cons, List.sum_cons, ih', h2 r (List.mem_cons_self ..) hP hQ, zero_add]
        | false =>
          rw [List.filter_cons_of_neg (by simp [hP]), ih']
  apply key
  · intro r hr' hq
    rw [decide_eq_true_eq] at hq ⊢
    obtain ⟨t, ht, htc⟩ := hq
    exact ⟨⟨t, stiff_terms.2 (Or.inl ht), htc⟩, by rw [rowVal_stiff hr hy]⟩
  · intro r hr' hp hq
    rw [decide_eq_true_eq] at hp
    have hlive : r ∈ M.liveRows := List.mem_filter.2 ⟨hr', by rw [decide_eq_true_eq]; exact hp⟩
    have hq' : ¬ ∃ t ∈ M.stiff.terms, t.cid = r.1 := by simpa using hq
    obtain ⟨t, ht, htc⟩ := hp
    rcases stiff_terms.1 ht with h | ⟨e, he, hes, hte⟩
    · exact absurd ⟨t, h, htc⟩ hq'
    · obtain ⟨q, hq2⟩ := soft_const w hr' he hes hte htc
      have := hs r hlive
      rw [rowVal_stiff hr hz, rowVal_none hq', hq2] at this
      rw [rowVal_stiff hr hy, rowVal_none hq', hq2]
      exact this

theorem soft_shadow (h : Soften f g m M) (hn : ∀ k, k.soft = true → m.deficits.get? k = none) (wm : ConWF m) (wM : ConWF M)
    (hr : RefWF M) {lp LP : Lp} (e : m.assemble = .ok lp) (E : M.assemble = .ok LP) {x z P : Nat → ℚ} (hz : M.zeroAt z)
    {S S' : Solver} (hS : ∀ l, S'.sort (l.map (Prod.map id f)) = (S.sort l).map (Prod.map id f))
    (H : ShadowPrices (M.linear S' x LP) z P) :
    ShadowPrices (m.linear S (fun v => x (f v)) lp) (fun v => z (f v)) (fun c => P (g c)) := by
  have hsame := stiff_same h hn
  have ws := stiff_wf wM
  obtain ⟨lp', E'⟩ := (assemble_fine ws).2 ((fine_ren hsame wm ws).2 ((assemble_fine wm).1 ⟨lp, e⟩))
  have hX : ∀ v, x (f v) = (fun v => x (f v)) v := fun _ => rfl
  have hZ : ∀ v, z (f v) = (fun v => z (f v)) v := fun _ => rfl
  rw [shadow_iff wM E (linear_rows ..) (linear_sos ..).1 (linear_sos ..).2] at H
  rw [shadow_iff wm e (linear_rows ..) (linear_sos ..).1 (linear_sos ..).2]
  obtain ⟨H1, H2, H3, H4, H5⟩ := H
  have hrow : ∀ {y Y : Nat → ℚ}, (∀ v, Y (f v) = y v) → ∀ c, rowVal M.stiff.terms Y (g c) = rowVal m.terms y c := by
    intro y Y hY c
    rw [rowVal_perm (terms_ren hsame wm ws), rowVal_ren h.sim.cons.inj hY]
  have hmem : ∀ r ∈ m.liveRows, renRhs f g r ∈ M.liveRows :=
    fun r hr' => live_stiff ((liveRows_ren hsame wm ws).mem_iff.2 (List.mem_map.2 ⟨r, hr', rfl⟩))
  have hpay : ∀ r ∈ M.liveRows, 0 ≤ P r.1 * (rowVal M.terms z r.1 - r.2.2.eval z) :=
    fun r hr' => CType.pays (H3 r hr') (H4 r hr') (H2 r hr')
  have hzero : (M.liveRows.map (fun r => P r.1 * (rowVal M.terms z r.1 - r.2.2.eval z))).sum = 0 := by
    apply le_antisymm
    · have := H5 z H1; linarith
    · exact sum_map_nonneg _ _ hpay
  have hslack : ∀ r ∈ M.liveRows, P r.1 * (rowVal M.terms z r.1 - r.2.2.eval z) = 0 := by
    intro r hr'
    have := List.single_le_sum (l := M.liveRows.map (fun r => P r.1 * (rowVal M.terms z r.1 - r.2.2.eval z))) (by
      intro q hq
      obtain ⟨a, ha, rfl⟩ := List.mem_map.1 hq
      exact hpay a ha) _ (List.mem_map.2 ⟨r, hr', rfl⟩)
    rw [hzero] at this
    exact le_antisymm this (hpay r hr')
  refine ⟨(linear_vars_ren hsame wm ws e E' hX hZ hS).1 (linear_vars_stiff E E' S' x z H1), ?_, ?_, ?_, ?_⟩
  · intro r hr'
    have := H2 _ (hmem r hr')
    rw [rowVal_stiff hr hz] at this
    simpa only [renRhs, hrow hZ, rhs_ren hZ] using this
  · exact fun r hr' => H3 _ (hmem r hr')
  · exact fun r hr' => H4 _ (hmem r hr')
  · intro y hy
    obtain ⟨Y, hY, hY0⟩ := soft_point h wM y
    have hb := linear_vars_soft E E' S' x hY0 ((linear_vars_ren hsame wm ws e E' hX hY hS).2 hy)
    have := H5 Y hb
    rw [live_sum wM hr hz hY0 hslack, linear_cost, linear_cost, stiff_cost E E' hz, stiff_cost E E' hY0,
      cost_ren hsame wm ws e E' hZ, cost_ren hsame wm ws e E' hY, sum_perm (liveRows_ren hsame wm ws), List.map_map] at this
    rw [linear_cost, linear_cost]
    refine this.trans (le_of_eq ?_)
    congr 1
    apply sum_map_congr
    intro r _
    simp only [Function.comp, renRhs, hrow hY, rhs_ren hY]

end

/-! ### The two markets -/

section
variable {f g : Nat → Nat} {m M : Market}

/-- what relates the two markets -/
structure Softened (f g : Nat → Nat) (m M : Market) : Prop where
  rel : Soften f g m M
  rigid : Reached m
  soft : Reached M
  none : ∀ k, k.soft = true → m.deficits.get? k = none

theorem Softened.same (h : Softened f g m M) : SameUpTo f g m M.stiff := stiff_same h.rel h.none
theorem Softened.wm (h : Softened f g m M) : ConWF m := h.rigid.wf.con
theorem Softened.wM (h : Softened f g m M) : ConWF M := h.soft.wf.con
theorem Softened.ws (h : Softened f g m M) : ConWF M.stiff := stiff_wf h.wM

theorem Softened.stiff (h : Softened f g m M) {lp : Lp} (e : m.assemble = .ok lp) : ∃ lp', M.stiff.assemble = .ok lp' :=
  (assemble_fine h.ws).2 ((fine_ren h.same h.wm h.ws).2 ((assemble_fine h.wm).1 ⟨lp, e⟩))

variable {lp LP : Lp} {x : Nat → ℚ}

theorem Softened.met (h : Softened f g m M) (E : M.assemble = .ok LP) (hf : Feasible LP x) (hm : (M.report LP x).met) : M.zeroAt x :=
  met_zero h.wM E hf hm

theorem Softened.report (h : Softened f g m M) (e : m.assemble = .ok lp) (E : M.assemble = .ok LP) {y : Nat → ℚ} (hX : ∀ v, x (f v) = y v)
    (hx : M.zeroAt x) : m.report lp y = M.report LP x := by
  obtain ⟨lp', E'⟩ := h.stiff e
  rw [stiff_report E E' hx]
  unfold Market.report
  have hv : M.stiff.violationDegree x = m.violationDegree y := funext (fun k => violationDegree_ren h.same hX k)
  rw [cost_ren h.same h.wm h.ws e E' hX, unitDispatch_ren h.same hX, interFlows_ren h.same hX, regionSummary_ren h.same hX, hv]

theorem Softened.feasible (h : Softened f g m M) (e : m.assemble = .ok lp) (E : M.assemble = .ok LP) (hx : M.zeroAt x)
    (hf : Feasible LP x) : Feasible lp (fun v => x (f v)) := by
  obtain ⟨lp', E'⟩ := h.stiff e
  exact (feasible_ren h.same h.wm h.ws e E' (fun _ => rfl)).1 (stiff_feasible h.wM h.soft.refs E E' hx hf)

theorem Softened.back (h : Softened f g m M) (e : m.assemble = .ok lp) (E : M.assemble = .ok LP) (hx : M.zeroAt x)
    (hf : Feasible LP x) {y : Nat → ℚ} (hy : Feasible lp y) :
    ∃ Y, (∀ v, Y (f v) = y v) ∧ M.zeroAt Y ∧ Feasible LP Y := by
  obtain ⟨lp', E'⟩ := h.stiff e
  obtain ⟨Y, hY, hY0⟩ := soft_point h.rel h.wM y
  exact ⟨Y, hY, hY0, soft_feasible h.wM h.soft.refs E E' hx hf hY0 ((feasible_ren h.same h.wm h.ws e E' hY).2 hy)⟩

theorem zero_met (hx : M.zeroAt x) (LP : Lp) : (M.report LP x).met := fun _ hk => zero_violation hx hk

theorem Softened.optimal (h : Softened f g m M) (e : m.assemble = .ok lp) (E : M.assemble = .ok LP) (hx : M.zeroAt x)
    (ho : Optimal LP x) : Optimal lp (fun v => x (f v)) := by
  refine ⟨h.feasible e E hx ho.1, fun y hy => ?_⟩
  obtain ⟨Y, hY, hY0, hYf⟩ := h.back e E hx ho.1 hy
  have h1 := congrArg Report.cost (h.report e E (y := fun v => x (f v)) (fun _ => rfl) hx)
  have h2 := congrArg Report.cost (h.report e E hY hY0)
  have h3 := ho.2 Y hYf
  dsimp only [Market.report] at h1 h2
  rw [h1, h2]
  exact h3

end

/-- a variable of the rigid market is no violation variable -/
theorem Softened.image (h : Softened f g m M) {i : Nat} (hi : f i ∈ M.allVars.map LVar.vid) : f i ∈ M.stiff.allVars.map LVar.vid := by
  obtain ⟨v, hv, e⟩ := List.mem_map.1 hi
  rcases vars_stiff.1 hv with hv' | ⟨a, ha, hs, d, hd, rfl⟩
  · exact List.mem_map.2 ⟨v, hv', e⟩
  · exact absurd e.symm (h.rel.avoid a.1 hs a.2 (Dict.get?_of_mem h.wM.defKeys ha) d hd i)

theorem Softened.builds (h : Softened f g m M) (E : M.assemble = .ok LP)
    (hr : ∃ r ∈ LP.rows, ∃ c ∈ r.coefs, ∀ k, k.soft = true → c.1 ∉ M.deficitVids k) : ∃ lp, m.assemble = .ok lp := by
  rw [assemble_fine h.wm, ← fine_ren h.same h.wm h.ws]
  obtain ⟨h1, h2, _, h4, h5, h6⟩ := (assemble_fine h.wM).1 ⟨LP, E⟩
  obtain ⟨r, hr, c, hc, hk⟩ := hr
  have ht : ∃ t ∈ M.stiff.terms, t.vid = c.1 := by
    rcases (assemble_parts E).2.2.2.2.2 with ⟨h7, _⟩ | ⟨_, h7⟩
    · rw [h7] at hr; cases hr
    · rw [((solverRows_mem h7).2 r hr).2.1] at hc
      simp only [groupCoefs, List.mem_map, List.mem_dedup, List.mem_filter] at hc
      obtain ⟨v, ⟨t, ⟨ht, _⟩, rfl⟩, rfl⟩ := hc
      rcases stiff_terms.1 ht with hs | ⟨a, ha, hs, hta⟩
      · exact ⟨t, hs, rfl⟩
      · refine absurd (h.soft.refs.own a ha t hta) ?_
        have := hk a.1 hs
        unfold Market.deficitVids at this
        rw [Dict.get?_of_mem h.wM.defKeys ha] at this
        exact this
  rcases h6 with h6 | ⟨_, h7, h8⟩
  · exfalso
    have hm := List.mem_of_mem_filter ((rows_perm h.wM E).mem_iff.1 (List.mem_map.2 ⟨r, hr, rfl⟩))
    simp only [Bool.and_eq_true, Option.isNone_iff_eq_none, List.isEmpty_iff] at h6
    simp [Market.allRows, Dict.concat, h6] at hm
  have hvid : ∀ t ∈ M.stiff.terms, t.vid ∈ M.stiff.allVars.map LVar.vid := by
    intro t ht
    have h9 := h7 t (stiff_terms.2 (Or.inl ht))
    obtain ⟨t', _, rfl⟩ := List.mem_map.1 ((terms_ren h.same h.wm h.ws).mem_iff.1 ht)
    exact h.image h9
  refine ⟨h1, h2, ?_, ?_, ?_, Or.inr ⟨?_, hvid, fun t ht => h8 t (stiff_terms.2 (Or.inl ht))⟩⟩
  · intro hn
    obtain ⟨t, ht, _⟩ := ht
    have := hvid t ht
    unfold Market.noVars at hn
    simp only [Bool.and_eq_true, Option.isNone_iff_eq_none, List.isEmpty_iff] at hn
    unfold Market.allVars at this
    simp [hn] at this
  · intro o ho
    have h9 := h4 o (by
      simp only [Market.objective, List.mem_append, List.mem_flatMap, Market.stiff, List.mem_filter] at ho ⊢
      rcases ho with ho | ⟨a, ⟨ha, _⟩, ho⟩
      · exact Or.inl ho
      · exact Or.inr ⟨a, ha, ho⟩)
    obtain ⟨o', _, rfl⟩ := List.mem_map.1 ((objective_ren h.same h.wm h.ws).mem_iff.1 ho)
    exact h.image h9
  · intro d hd
    have h9 := h5 d hd
    rw [SimG.dynRhs h.same nofalse, getD_ren] at hd
    obtain ⟨d', _, rfl⟩ := List.mem_map.1 hd
    exact h.image h9
  · obtain ⟨t, ht, _⟩ := ht
    exact List.ne_nil_of_mem ht

/-! ### The theorems -/

section
variable {regions : List String} {units : List UnitInfo} {di : ℚ} {m0 : Market} {ops : List Op}

theorem softened_of (hi : Market.init regions units di = .ok m0) (hb : Benign m0 ops) :
    ∃ f g, Softened f g (m0.run (rigid ops)) (m0.run ops) := by
  have hd : ∀ k, m0.deficits.get? k = none := by
    intro k
    rw [(init_fresh hi).1]
    rfl
  have hm0 : Reached m0 := ⟨regions, units, di, m0, [], hi, trivial, rfl⟩
  have h0 : Soften id id m0 m0 := ⟨sim_refl m0, fun k _ d h => by rw [hd k] at h; cases h⟩
  obtain ⟨f, g, h1, h2⟩ := soften_run h0 hm0 hm0 hb
  refine ⟨f, g, h1, ⟨regions, units, di, m0, _, hi, h2, rfl⟩, ⟨regions, units, di, m0, _, hi, hb, rfl⟩, fun k hk => ?_⟩
  apply deficits_never (hd k)
  intro o ho
  obtain ⟨op, _, hop⟩ := List.mem_filterMap.1 ho
  exact rigid_asks hop hk

variable {lp LP : Lp}

/-- **C120** If a program can be built for the market with violation costs, and not all its constraints consist of violation
variables only, one can be built for the market without them. -/
theorem C120_builds (hi : Market.init regions units di = .ok m0) (hb : Benign m0 ops) (E : (m0.run ops).assemble = .ok LP)
    (hr : ∃ r ∈ LP.rows, ∃ c ∈ r.coefs, ∀ k, k.soft = true → c.1 ∉ (m0.run ops).deficitVids k) :
    ∃ lp, (m0.run (rigid ops)).assemble = .ok lp := by
  obtain ⟨f, g, h⟩ := softened_of hi hb
  exact h.builds E hr

/-- **C120** A dispatch of a market with violation costs that violates nothing is a dispatch of the market without them: with
the same cost, unit dispatch, interconnector flows and regional summary. -/
theorem C120_feasible (hi : Market.init regions units di = .ok m0) (hb : Benign m0 ops) (E : (m0.run ops).assemble = .ok LP)
    (e : (m0.run (rigid ops)).assemble = .ok lp) {x : Nat → ℚ} (hx : Feasible LP x) (hm : ((m0.run ops).report LP x).met) :
    ∃ y, Feasible lp y ∧ (m0.run (rigid ops)).report lp y = (m0.run ops).report LP x := by
  obtain ⟨f, g, h⟩ := softened_of hi hb
  have hz := h.met E hx hm
  exact ⟨_, h.feasible e E hz hx, h.report e E (fun _ => rfl) hz⟩

/-- **C120** If the cheapest dispatch with violation costs violates nothing, it is a cheapest dispatch of the market without
them. -/
theorem C120_optimal (hi : Market.init regions units di = .ok m0) (hb : Benign m0 ops) (E : (m0.run ops).assemble = .ok LP)
    (e : (m0.run (rigid ops)).assemble = .ok lp) {x : Nat → ℚ} (hx : Optimal LP x) (hm : ((m0.run ops).report LP x).met) :
    ∃ y, Optimal lp y ∧ (m0.run (rigid ops)).report lp y = (m0.run ops).report LP x := by
  obtain ⟨f, g, h⟩ := softened_of hi hb
  have hz := h.met E hx.1 hm
  exact ⟨_, h.optimal e E hz hx, h.report e E (fun _ => rfl) hz⟩

/-- **C120** If the constraints can be met at all with violation costs, every dispatch of the market without violation costs is
one of the market with them, and violates nothing there. -/
theorem C120_converse (hi : Market.init regions units di = .ok m0) (hb : Benign m0 ops) (E : (m0.run ops).assemble = .ok LP)
    (e : (m0.run (rigid ops)).assemble = .ok lp) (hx : ∃ x, Feasible LP x ∧ ((m0.run ops).report LP x).met) {y : Nat → ℚ}
    (hy : Feasible lp y) : ∃ x, Feasible LP x ∧ (m0.run ops).report LP x = (m0.run (rigid ops)).report lp y ∧
      ((m0.run ops).report LP x).met := by
  obtain ⟨f, g, h⟩ := softened_of hi hb
  obtain ⟨x, hx, hm⟩ := hx
  obtain ⟨Y, hY, hY0, hYf⟩ := h.back e E (h.met E hx hm) hx hy
  exact ⟨Y, hYf, (h.report e E hY hY0).symm, zero_met hY0 LP⟩

/-- **C120** If some cheapest dispatch with violation costs violates nothing, the cheapest dispatches that violate nothing are
exactly the cheapest dispatches of the market without violation costs. -/
theorem C120_same_optima (hi : Market.init regions units di = .ok m0) (hb : Benign m0 ops) (E : (m0.run ops).assemble = .ok LP)
    (e : (m0.run (rigid ops)).assemble = .ok lp) (hx : ∃ x, Optimal LP x ∧ ((m0.run ops).report LP x).met) (r : Report) :
    (∃ y, Optimal lp y ∧ (m0.run (rigid ops)).report lp y = r) ↔ (∃ x, Optimal LP x ∧ (m0.run ops).report LP x = r ∧ r.met) := by
  obtain ⟨f, g, h⟩ := softened_of hi hb
  obtain ⟨x, hx, hm⟩ := hx
  constructor
  · rintro ⟨y, hy, rfl⟩
    obtain ⟨Y, hY, hY0, hYf⟩ := h.back e E (h.met E hx.1 hm) hx.1 hy.1
    have hr := h.report e E hY hY0
    refine ⟨Y, ⟨hYf, fun z hz => ?_⟩, hr.symm, by rw [hr]; exact zero_met hY0 LP⟩
    have h1 := hy.2 _ (h.feasible e E (h.met E hx.1 hm) hx.1)
    have h2 := congrArg Report.cost hr
    have h3 := congrArg Report.cost (h.report e E (y := fun v => x (f v)) (fun _ => rfl) (h.met E hx.1 hm))
    dsimp only [Market.report] at h2 h3
    rw [h2, h3] at h1
    exact h1.trans (hx.2 z hz)
  · rintro ⟨z, hz, rfl, hzm⟩
    have hz0 := h.met E hz.1 hzm
    exact ⟨_, h.optimal e E hz0 hz, h.report e E (fun _ => rfl) hz0⟩

/-- **C120** If the market without violation costs has no feasible dispatch, every dispatch with violation costs reports a
positive violation of some constraint set. -/
theorem C120_infeasible (hi : Market.init regions units di = .ok m0) (hb : Benign m0 ops) (E : (m0.run ops).assemble = .ok LP)
    (e : (m0.run (rigid ops)).assemble = .ok lp) (hn : ¬ ∃ y, Feasible lp y) {x : Nat → ℚ} (hx : Feasible LP x) :
    ∃ k, k.soft = true ∧ 0 < ((m0.run ops).report LP x).violation k := by
  by_contra hc
  push Not at hc
  obtain ⟨f, g, h⟩ := softened_of hi hb
  refine hn ⟨_, h.feasible e E (h.met E hx (fun k hk => ?_)) hx⟩
  refine le_antisymm (hc k hk) ?_
  have hv := ((feasible_iff h.wM E x).1 hx).1
  change 0 ≤ (m0.run ops).violationDegree x k
  unfold Market.violationDegree
  split
  · rename_i d hd
    apply sum_map_nonneg
    intro v hvm
    exact (hv _ (vars_stiff.2 (Or.inr ⟨(k, d), Dict.mem_of_get? hd, hk, v, hvm, rfl⟩))).1
  · exact le_refl _

/-- **C120** The prices are those of the market without violation costs: if the cheapest dispatch `x` violates nothing, and nor
does the solution `z` of the linear model the prices are taken from, then next to that dispatch the market without violation
costs can have the same energy and FCAS prices. -/
theorem C120_prices (hi : Market.init regions units di = .ok m0) (hb : Benign m0 ops) (E : (m0.run ops).assemble = .ok LP)
    (e : (m0.run (rigid ops)).assemble = .ok lp) {x z p : Nat → ℚ} {S : Solver} (hx : Optimal LP x)
    (hm : ((m0.run ops).report LP x).met) (hS : S.sorts) (hp : ShadowPrices ((m0.run ops).linear S x LP) z p)
    (hz : ((m0.run ops).report LP z).met) :
    (m0.run (rigid ops)).canPrice ((m0.run ops).report LP x) ((m0.run ops).energyPrices p) ((m0.run ops).fcasPrices p) := by
  obtain ⟨f, g, h⟩ := softened_of hi hb
  have hx0 := h.met E hx.1 hm
  have hz0 : (m0.run ops).zeroAt z := zero_of_nonneg h.wM (linear_nonneg E S hp.feasible.vars) hz
  obtain ⟨S', hS', hSS⟩ := sort_back h.rel.sim.vars.inj hS
  refine ⟨lp, fun v => x (f v), S', fun v => z (f v), fun c => p (g c), e, h.optimal e E hx0 hx, hS',
    soft_shadow h.rel h.none h.wm h.wM h.soft.refs e E hz0 hSS hp, h.report e E (fun _ => rfl) hx0, ?_, ?_⟩
  · exact (energyPrices_ren h.same (p := fun c => p (g c)) (fun _ => rfl)).symm
  · exact (fcasPrices_ren h.same (p := fun c => p (g c)) (fun _ => rfl)).symm

/-- **C120** A call with a violation cost that is in force, but for calls that make its constraints elastic, is in force without
the cost in the market without violation costs, so that what is proved about such calls (C06 to C22 and others) holds for
every dispatch that violates nothing. -/
theorem C120_in_force {before after : List Op} {op o : Op} (hi : Market.init regions units di = .ok m0)
    (hb : Benign m0 (before ++ op :: after)) (h : op.rigid = some o) (hok : ((m0.run before).step op).2 = none)
    (hl : ∀ a ∈ after, ∀ p ∈ op.parts, p ∈ a.parts → ∃ k c, k.soft = true ∧ a = .elastic k c) :
    InForce o (m0.run (rigid (before ++ op :: after))) := by
  have hd : ∀ k, m0.deficits.get? k = none := by
    intro k
    rw [(init_fresh hi).1]
    rfl
  have hm0 : Reached m0 := ⟨regions, units, di, m0, [], hi, trivial, rfl⟩
  have h0 : Soften id id m0 m0 := ⟨sim_refl m0, fun k _ d h => by rw [hd k] at h; cases h⟩
  obtain ⟨f, g, s1, s2⟩ := soften_run h0 hm0 hm0 (benign_append.1 hb).1
  obtain ⟨_, _, _, b2⟩ := soften_run h0 hm0 hm0 hb
  exact rigid_inForce hi h hok hl ⟨f, g, s1⟩ ⟨regions, units, di, m0, _, hi, s2, rfl⟩ b2

/-- **C120**, for capacity limits: where a capacity limit has a violation cost, and no violation is reported, the limit holds
as it does without a violation cost (C06). -/
theorem C120_capacity {before after : List Op} {ls : List Lim} {vc : Option VCost} (hi : Market.init regions units di = .ok m0)
    (hb : Benign m0 (before ++ .capacity ls vc :: after)) (hok : ((m0.run before).step (.capacity ls vc)).2 = none)
    (hl : ∀ a ∈ after, Part.set .unitBidCapacity ∈ a.parts → ∃ c, a = .elastic .unitBidCapacity c)
    (E : (m0.run (before ++ .capacity ls vc :: after)).assemble = .ok LP)
    (e : (m0.run (rigid (before ++ .capacity ls vc :: after))).assemble = .ok lp) {x : Nat → ℚ} (hx : Feasible LP x)
    (hm : ((m0.run (before ++ .capacity ls vc :: after)).report LP x).met) {l : Lim} (hmem : l ∈ ls)
    (hu : (m0.run (before ++ .capacity ls vc :: after)).lists l.unit l.dtype)
    (hv : 0 ≤ l.val ∨ (m0.run (before ++ .capacity ls vc :: after)).bidsFor l.unit .energy l.dtype) :
    (m0.run (before ++ .capacity ls vc :: after)).dispatched x l.unit .energy l.dtype ≤ l.val := by
  have hf := C120_in_force hi hb (o := .capacity ls none) rfl hok (by
    intro a ha p hp hpa
    simp only [Op.parts, List.mem_singleton] at hp
    subst hp
    obtain ⟨c, rfl⟩ := hl a ha hpa
    exact ⟨_, c, rfl, rfl⟩)
  obtain ⟨f, g, h⟩ := softened_of hi hb
  have hz := h.met E hx hm
  have hbids := SimG.bids h.rel.sim id
  have hd : ∀ u s d, (m0.run (before ++ .capacity ls vc :: after)).dispatched x u s d =
      (m0.run (rigid (before ++ .capacity ls vc :: after))).dispatched (fun v => x (f v)) u s d := by
    intro u s d
    unfold Market.dispatched
    rw [hbids, getD_ren, List.filter_map, List.map_map]
    rfl
  rw [hd]
  refine C06_capacity_limit hf e (h.feasible e E hz hx) hmem ?_ ?_
  · unfold Market.lists at hu ⊢
    rwa [SimG.units h.rel.sim] at hu
  · refine hv.imp id (fun hv => ?_)
    unfold Market.bidsFor at hv ⊢
    rw [hbids, getD_ren] at hv
    obtain ⟨b, hb', h1⟩ := hv
    obtain ⟨b', hb2, rfl⟩ := List.mem_map.1 hb'
    exact ⟨b', hb2, h1⟩

end

/-! ### Instances -/

/-- without losses and special ordered sets shadow prices show that a solution is optimal -/
theorem optimal_of_shadow {m : Market} {lp : Lp} {S : Solver} {x p : Nat → ℚ} (h1 : m.assemble = .ok lp) (hl : m.losses = none)
    (s1 : m.sos1Groups = []) (s2 : m.sos2Groups = []) (h5 : ShadowPrices (m.linear S x lp) x p) : Optimal lp x := by
  obtain ⟨-, -, p3, p4, -⟩ := assemble_parts h1
  have hlv : (m.linear S x lp).vars = lp.vars := by
    unfold Market.linear
    rw [hl]
    rfl
  have hfe : ∀ y, Feasible (m.linear S x lp) y ↔ Feasible lp y := by
    intro y
    constructor
    · intro hy
      exact ⟨by rw [← hlv]; exact hy.vars, by have := hy.rows; rwa [linear_rows] at this, by rw [p3, s2]; simp, by rw [p4, s1]; simp⟩
    · intro hy
      exact ⟨by rw [hlv]; exact hy.vars, by rw [linear_rows]; exact hy.rows, by unfold Market.linear; rw [hl]; simp,
        by unfold Market.linear; rw [hl]; simp⟩
  refine ⟨(hfe _).1 h5.feasible, fun y hy => ?_⟩
  have hb := h5.bound y ((hfe y).2 hy).vars
  rw [linear_cost, linear_cost] at hb
  have : 0 ≤ ((m.linear S x lp).rows.map (fun r => p r.cid * (linVal y r.coefs - r.rhs.eval y))).sum := by
    apply sum_map_nonneg
    intro r hr
    exact CType.pays (h5.ge r hr) (h5.le r hr) (((hfe y).2 hy).rows r hr)
  linarith

/-- two units; an elastic capacity limit, elastic demand, and a limit that is made elastic by a later call -/
def softCase : Case where
  regions := ["NSW"]
  units := [{ unit := "A", region := "NSW" }, { unit := "B", region := "NSW" }]
  hist := [.volumeBids [{ unit := "A", bands := [("1", 50)] }, { unit := "B", bands := [("1", 80)] }],
    .capacity [{ unit := "A", val := 40 }] (some (.num 500)),
    .priceBids [{ unit := "A", bands := [("1", 20)] }, { unit := "B", bands := [("1", 60)] }],
    .demand [{ region := "NSW", demand := 70 }] (some (.num 1000)),
    .uigf [{ unit := "B", val := 60 }] none, .elastic .uigf (.num 300)]
  sol := [40, 30, 0, 0, 0, 0]

/-- instance of C120: the cheapest dispatch with violation costs violates nothing -/
example : ∃ (m0 : Market) (ops : List Op) (LP lp : Lp) (x p : Nat → ℚ) (S : Solver), Market.init ["NSW"] softCase.units 5 = .ok m0 ∧
    Benign m0 ops ∧ (m0.run ops).assemble = .ok LP ∧ (m0.run (rigid ops)).assemble = .ok lp ∧ Optimal LP x ∧
    ((m0.run ops).report LP x).met ∧ S.sorts ∧ ShadowPrices ((m0.run ops).linear S x LP) x p ∧
    (∃ r ∈ LP.rows, ∃ c ∈ r.coefs, ∀ k, k.soft = true → c.1 ∉ (m0.run ops).deficitVids k) ∧
    ((m0.run ops).deficits.map (·.1)).length = 3 ∧ (m0.run (rigid ops)).deficits = [] ∧
    (m0.run ops).energyPrices p = .ok [("NSW", 60)] ∧ (m0.run ops).dispatched x "A" .energy .generator = 40 ∧
    ops.length = 6 ∧ (rigid ops).length = 5 := by
  have h : softCase.shadow [-40, 60, 0] (fun m => decide (
      (∀ d ∈ m.deficits, m.violationDegree softCase.x d.1 = 0 ∧ 0 ∉ m.deficitVids d.1) ∧ m.losses = none ∧
      m.sos1Groups = [] ∧ m.sos2Groups = [] ∧ (m.deficits.map (·.1)).length = 3 ∧
      m.energyPrices (fun c => [-40, 60, 0].getD c 0) = .ok [("NSW", 60)] ∧ m.dispatched softCase.x "A" .energy .generator = 40)) = true := by
    decide +kernel
  obtain ⟨m, lp, o, h0, h1, h2, h3, h4, h5, h6⟩ := Case.shadow_spec h
  obtain ⟨k1, k2, k3, k4, k5, k6, k7⟩ := of_decide_eq_true h6
  have h7 : (match (Market.run { regions := ["NSW"], units := softCase.units, di := 5 } (rigid softCase.hist)).assemble with
    | .ok _ => true | .error _ => false) = true := by decide +kernel
  have h8 : (match (Market.run { regions := ["NSW"], units := softCase.units, di := 5 } softCase.hist).assemble with
    | .ok lp => decide (∃ r ∈ lp.rows, ∃ c ∈ r.coefs, c.1 = 0) | .error _ => false) = true := by decide +kernel
  obtain ⟨lp', h7'⟩ : ∃ lp', (Market.run { regions := ["NSW"], units := softCase.units, di := 5 } (rigid softCase.hist)).assemble = .ok lp' := by
    split at h7
    · exact ⟨_, by assumption⟩
    · cases h7
  have hm : m = Market.run { regions := ["NSW"], units := softCase.units, di := 5 } softCase.hist := by
    unfold Case.final at h0
    split at h0
    · cases h0
    · rename_i m0 hm0
      rw [(init_fresh hm0).1] at h0
      split at h0
      · cases h0; rfl
      · cases h0
  have k0 : ∀ k, m.violationDegree softCase.x k = 0 ∧ 0 ∉ m.deficitVids k := by
    intro k
    by_cases hk : k ∈ m.deficits.map Prod.fst
    · obtain ⟨d, hd, rfl⟩ := List.mem_map.1 hk
      exact k1 d hd
    · unfold Market.violationDegree Market.deficitVids
      rw [Dict.none_of_not_mem hk]
      simp
  rw [← hm, h1] at h8
  obtain ⟨r, hr, c, hc, hc0⟩ := of_decide_eq_true h8
  rw [h3] at h5
  refine ⟨{ regions := ["NSW"], units := softCase.units, di := 5 }, softCase.hist, lp, lp', softCase.x, o.price, softCase.solver [-40, 60, 0],
    rfl, benignB_iff.1 (by decide +kernel), by rw [← hm]; exact h1, h7', ?_, ?_, Case.solver_sorts _ _, by rw [← hm]; exact h5, ?_, ?_,
    by decide +kernel, ?_, ?_, rfl, rfl⟩
  · exact optimal_of_shadow h1 k2 k3 k4 h5
  · intro k hk
    rw [← hm]
    exact (k0 k).1
  · refine ⟨r, hr, c, hc, fun k hk => ?_⟩
    rw [hc0, ← hm]
    exact (k0 k).2
  · rw [← hm]; exact k5
  · rw [← hm, h4]; exact k6
  · rw [← hm]; exact k7

/-- instance of `C120_in_force`: the limit that a later call makes elastic -/
example : InForce (.uigf [{ unit := "B", val := 60 }] none)
    (Market.run { regions := ["NSW"], units := softCase.units, di := 5 } (rigid softCase.hist)) :=
  C120_in_force (before := softCase.hist.take 4) (op := .uigf [{ unit := "B", val := 60 }] none) (after := [.elastic .uigf (.num 300)])
    (regions := ["NSW"]) (units := softCase.units) (di := 5) (m0 := { regions := ["NSW"], units := softCase.units, di := 5 }) rfl
    (benignB_iff.1 (by decide +kernel)) rfl (by decide +kernel) (by
      intro a ha p _ _
      rw [List.mem_singleton.1 ha]
      exact ⟨_, _, rfl, rfl⟩)

/-- instance of `C120_capacity`: its hypotheses on the history -/
example : ((Market.run { regions := ["NSW"], units := softCase.units, di := 5 } (softCase.hist.take 1)).step
      (.capacity [{ unit := "A", val := 40 }] (some (.num 500)))).2 = none ∧
    (∀ a ∈ softCase.hist.drop 2, Part.set .unitBidCapacity ∈ a.parts → ∃ c, a = .elastic .unitBidCapacity c) ∧
    (Market.run { regions := ["NSW"], units := softCase.units, di := 5 } softCase.hist).lists "A" .generator :=
  ⟨by decide +kernel, fun a ha h => absurd h ((by decide +kernel :
    ∀ a ∈ softCase.hist.drop 2, Part.set .unitBidCapacity ∉ a.parts) a ha), by decide +kernel⟩

/-- 200 MW of elastic demand, which cannot be met -/
def scarceHist : List Op := [.volumeBids [{ unit := "A", bands := [("1", 50)] }, { unit := "B", bands := [("1", 80)] }],
  .priceBids [{ unit := "A", bands := [("1", 20)] }, { unit := "B", bands := [("1", 60)] }],
  .demand [{ region := "NSW", demand := 200 }] (some (.num 1000))]

/-- instance of `C120_infeasible` -/
example : ∃ (m0 : Market) (LP lp : Lp) (x : Nat → ℚ), Market.init ["NSW"] softCase.units 5 = .ok m0 ∧
    Benign m0 scarceHist ∧ (m0.run scarceHist).assemble = .ok LP ∧ (m0.run (rigid scarceHist)).assemble = .ok lp ∧
    (¬ ∃ y, Feasible lp y) ∧ Feasible LP x ∧ (m0.run scarceHist).violationDegree x .demand = 70 := by
  refine ⟨{ regions := ["NSW"], units := softCase.units, di := 5 },
    { vars := [{ vid := 0, lb := 0, ub := some 50 }, { vid := 1, lb := 0, ub := some 80 }, { vid := 2, lb := 0, ub := none },
        { vid := 3, lb := 0, ub := none }],
      rows := [{ cid := 0, coefs := [(2, -1), (3, 1), (0, 1), (1, 1)], ctype := .eq, rhs := .const 200 }], sos2 := [], sos1 := [],
      obj := [(0, 20), (1, 60), (2, 1000), (3, 1000)] },
    { vars := [{ vid := 0, lb := 0, ub := some 50 }, { vid := 1, lb := 0, ub := some 80 }],
      rows := [{ cid := 0, coefs := [(0, 1), (1, 1)], ctype := .eq, rhs := .const 200 }], sos2 := [], sos1 := [],
      obj := [(0, 20), (1, 60)] },
    fun i => [50, 80, 0, 70].getD i 0, rfl, benignB_iff.1 (by decide +kernel), by decide +kernel, by decide +kernel, ?_,
    by decide +kernel, by decide +kernel⟩
  rintro ⟨y, h1, h2, -, -⟩
  have a := (h1 _ List.mem_cons_self).2 50 rfl
  have b := (h1 _ (List.mem_cons_of_mem _ List.mem_cons_self)).2 80 rfl
  have c := h2 _ List.mem_cons_self
  simp only [LRow.holds, CType.holds, linVal, Rhs.eval, List.map_cons, List.map_nil, List.sum_cons, List.sum_nil] at c
  simp only at a b
  linarith

end Verif
