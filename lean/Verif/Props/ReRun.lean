import Verif.Proofs.Prices
import Verif.Proofs.Elastic
import Verif.Proofs.Duality
import Verif.Proofs.ShadowCheck

/-!
# C31: the over constrained dispatch re-run
-/

namespace Verif

/-- **C31, only prices.**  Allowing the re-run changes neither whether `dispatch` succeeds nor the dispatch or its cost. -/
theorem C31_only_prices {m : Market} {S : Solver} {r : ReRun} {o : Outcome} (h : m.dispatch S (some r) = .ok o) :
    ∃ o', m.dispatch S none = .ok o' ∧ o'.x = o.x ∧ o'.cost = o.cost := by
  obtain ⟨lp, h1, h2, h3, h4, h5⟩ := dispatch_parts h
  refine ⟨⟨o.x, m.prices S none o.x (m.linear S o.x lp), lp.cost o.x⟩, ?_, rfl, h5.symm⟩
  unfold Market.dispatch
  rw [h1]
  simp only [h2]
  rw [if_pos h3]

theorem C31_errors {m : Market} {S : Solver} {r : ReRun} {e : Err} : m.dispatch S (some r) = .error e ↔ m.dispatch S none = .error e := by
  unfold Market.dispatch
  cases m.assemble with
  | error => simp
  | ok lp =>
    dsimp only
    cases S.mip lp with
    | none => simp
    | some x => dsimp only; split <;> simp

/-- **C31, when.**  The prices with the re-run allowed differ from the prices without only if, without it, an energy price reaches
the ceiling or the floor or the price of an FCAS requirement reaches the ceiling, and a violation variable of the generic or FCAS
requirement constraints is beyond 0.0001. -/
theorem C31_only_if {m : Market} {S : Solver} {r : ReRun} {o o' : Outcome} (h : m.dispatch S (some r) = .ok o)
    (h' : m.dispatch S none = .ok o') (hne : o.price ≠ o'.price) :
    ((∃ c ∈ (m.mktRhs.get? .demand).getD [], o'.price c.cid ≥ r.energyCeiling ∨ o'.price c.cid ≤ r.energyFloor) ∨
      (∃ c ∈ (m.mktRhs.get? .fcas).getD [], o'.price c.cid ≥ r.fcasCeiling)) ∧
    ∃ v, (v ∈ m.deficitVids .generic ∨ v ∈ m.deficitVids .fcas) ∧ |o.x v| > 1 / 10000 := by
  obtain ⟨lp, h1, h2, h3, h4, h5⟩ := dispatch_parts h
  obtain ⟨lp', h1', h2', h3', h4', h5'⟩ := dispatch_parts h'
  rw [h1] at h1'; injection h1' with h1'; subst h1'
  rw [h2] at h2'; injection h2' with h2'
  rw [← h2'] at h4'
  have hp' : o'.price = S.dual (m.linear S o.x lp) := h4'
  unfold Market.prices at h4
  dsimp only at h4
  split at h4
  · rename_i hc
    rw [← hp', Bool.and_eq_true] at hc
    constructor
    · have := hc.1
      unfold Market.limitReached at this
      simp only [Bool.or_eq_true, List.any_eq_true, decide_eq_true_eq] at this
      rcases this with (⟨c, hc, h⟩ | ⟨c, hc, h⟩) | ⟨c, hc, h⟩
      · exact Or.inr ⟨c, hc, h⟩
      · exact Or.inl ⟨c, hc, Or.inl h⟩
      · exact Or.inl ⟨c, hc, Or.inr h⟩
    · have := hc.2
      have key : ∀ k, m.setViolated o.x k = true → ∃ v, v ∈ m.deficitVids k ∧ |o.x v| > 1 / 10000 := by
        intro k hk
        unfold Market.setViolated at hk
        simp only [List.any_eq_true, decide_eq_true_eq] at hk
        obtain ⟨v, hv, h⟩ := hk
        refine ⟨v.vid, List.mem_map_of_mem hv, ?_⟩
        rw [gt_iff_lt, lt_abs]
        rcases h with h | h
        · exact Or.inl h
        · right; linarith
      rw [Bool.or_eq_true] at this
      rcases this with h | h
      · obtain ⟨v, hv, h⟩ := key _ h; exact ⟨v, Or.inl hv, h⟩
      · obtain ⟨v, hv, h⟩ := key _ h; exact ⟨v, Or.inr hv, h⟩
  · rw [h4, hp'] at hne
    exact absurd rfl hne

/-- **C31, how.**  If both conditions hold, the prices are those of the linear model with relaxed constraints. -/
theorem C31_relaxed_prices {m : Market} {S : Solver} {r : ReRun} {o o' : Outcome} (h : m.dispatch S (some r) = .ok o)
    (h' : m.dispatch S none = .ok o') {lp : Lp} (hl : m.assemble = .ok lp)
    (h1 : (∃ c ∈ (m.mktRhs.get? .demand).getD [], o'.price c.cid ≥ r.energyCeiling ∨ o'.price c.cid ≤ r.energyFloor) ∨
      (∃ c ∈ (m.mktRhs.get? .fcas).getD [], o'.price c.cid ≥ r.fcasCeiling))
    (h2 : ∃ v, (v ∈ m.deficitVids .generic ∨ v ∈ m.deficitVids .fcas) ∧ |o.x v| > 1 / 10000) :
    o.price = S.dual ((m.linear S o.x lp).relax (m.adjusters o.x)) := by
  obtain ⟨lp1, q1, q2, q3, q4, q5⟩ := dispatch_parts h
  obtain ⟨lp', q1', q2', q3', q4', q5'⟩ := dispatch_parts h'
  rw [hl] at q1 q1'; injection q1 with q1; subst q1; injection q1' with q1'; subst q1'
  rw [q2] at q2'; injection q2' with q2'
  rw [← q2'] at q4'
  have hp' : o'.price = S.dual (m.linear S o.x lp) := q4'
  rw [q4]
  unfold Market.prices
  dsimp only
  rw [if_pos, ]
  rw [Bool.and_eq_true, ← hp']
  constructor
  · unfold Market.limitReached
    simp only [Bool.or_eq_true, List.any_eq_true, decide_eq_true_eq]
    rcases h1 with ⟨c, hc, h | h⟩ | ⟨c, hc, h⟩
    · exact Or.inl (Or.inr ⟨c, hc, h⟩)
    · exact Or.inr ⟨c, hc, h⟩
    · exact Or.inl (Or.inl ⟨c, hc, h⟩)
  · have key : ∀ k v, v ∈ m.deficitVids k → |o.x v| > 1 / 10000 → m.setViolated o.x k = true := by
      intro k v hv hx
      obtain ⟨d, hd, rfl⟩ := List.mem_map.1 hv
      unfold Market.setViolated
      simp only [List.any_eq_true, decide_eq_true_eq]
      refine ⟨d, hd, ?_⟩
      rw [gt_iff_lt, lt_abs] at hx
      rcases hx with h | h
      · exact Or.inl h
      · right; linarith
    rw [Bool.or_eq_true]
    obtain ⟨v, hv | hv, hx⟩ := h2
    · exact Or.inl (key _ v hv hx)
    · exact Or.inr (key _ v hv hx)

/-! ### The adjusted right hand sides -/

theorem relax_row {lp : Lp} {adj : List (Nat × ℚ)} {r : LRow} (hr : r ∈ lp.rows) {q : ℚ} (hq : r.rhs = .const q) :
    ({ r with rhs := .const (q + ((adj.filter (fun a => decide (a.1 = r.cid))).map Prod.snd).sum) } : LRow) ∈ (lp.relax adj).rows := by
  unfold Lp.relax
  refine List.mem_map.2 ⟨r, hr, ?_⟩
  rw [hq]

theorem adjust_other {m : Market} (hw : ConWF m) {k k' : CKey} {c : Nat} (hc : InTab m k c) (hne : k' ≠ k) (x : Nat → ℚ) :
    (m.adjustSet x k').filter (fun a => decide (a.1 = c)) = [] := by
  rw [List.filter_eq_nil_iff]
  intro a ha e
  have e := of_decide_eq_true e
  unfold Market.adjustSet at ha
  split at ha
  · obtain ⟨v, hv, ha⟩ := List.mem_flatMap.1 ha
    obtain ⟨t, ht, rfl⟩ := List.mem_map.1 ha
    have ht := List.mem_of_mem_filter ht
    cases hd : m.deficits.get? k' with
    | none => rw [hd] at ht; cases ht
    | some d =>
      rw [hd] at ht
      obtain ⟨own, ho⟩ := hw.own
      have h1 := (ho k' t.cid (Or.inr (Or.inr (Or.inr (Or.inr (Or.inl ⟨d, Dict.mem_of_get? hd, t, ht, rfl⟩)))))).1
      have h2 := (ho k c hc).1
      dsimp only at e
      rw [e, h2] at h1
      exact hne h1.symm
  · cases ha

theorem slot_sum {ss : List Slot} (hn : (ss.map Slot.vid).Nodup) (x : Nat → ℚ) (c : Nat) :
    (((((ss.map (fun s : Slot => (⟨s.vid, s.cost⟩ : DefVar))).filter (fun v : DefVar => decide (x v.vid > 0 ∨ x v.vid < -0))).flatMap (fun v : DefVar =>
      (((ss.map (fun s : Slot => (⟨s.row.cid, s.vid, s.sg⟩ : Term))).filter (fun t : Term => decide (t.vid = v.vid))).map (fun t : Term =>
        (t.cid, (x v.vid + 1 / 100) * t.coef * -1))))).filter (fun a => decide (a.1 = c))).map Prod.snd).sum =
    ((ss.filter (fun s => decide (s.row.cid = c))).map (fun s => if x s.vid > 0 ∨ x s.vid < -0 then -(x s.vid + 1 / 100) * s.sg else 0)).sum := by
  have hone : ∀ s ∈ ss, ((ss.map (fun s : Slot => (⟨s.row.cid, s.vid, s.sg⟩ : Term))).filter (fun t : Term => decide (t.vid = s.vid))) =
      [⟨s.row.cid, s.vid, s.sg⟩] := by
    intro s hs
    rw [List.filter_map]
    have := filter_key_unique hn hs
    rw [show ((fun t : Term => decide (t.vid = s.vid)) ∘ fun s : Slot => (⟨s.row.cid, s.vid, s.sg⟩ : Term)) =
      fun b : Slot => decide (b.vid = s.vid) from rfl, this]
    rfl
  have hgen : ∀ L : List Slot, (∀ s ∈ L, s ∈ ss) →
      (((((L.map (fun s : Slot => (⟨s.vid, s.cost⟩ : DefVar))).filter (fun v : DefVar => decide (x v.vid > 0 ∨ x v.vid < -0))).flatMap (fun v : DefVar =>
      (((ss.map (fun s : Slot => (⟨s.row.cid, s.vid, s.sg⟩ : Term))).filter (fun t : Term => decide (t.vid = v.vid))).map (fun t : Term =>
        (t.cid, (x v.vid + 1 / 100) * t.coef * -1))))).filter (fun a => decide (a.1 = c))).map Prod.snd).sum =
      ((L.filter (fun s => decide (s.row.cid = c))).map (fun s => if x s.vid > 0 ∨ x s.vid < -0 then -(x s.vid + 1 / 100) * s.sg else 0)).sum := by
    intro L
    induction L with
    | nil => intro _; rfl
    | cons s L ih =>
      intro hL
      have ih := ih (fun s hs => hL s (List.mem_cons_of_mem _ hs))
      rw [List.map_cons, List.filter_cons]
      by_cases hx : x s.vid > 0 ∨ x s.vid < -0
      · rw [if_pos (by simpa using hx), List.flatMap_cons, hone s (hL s (by simp)), List.filter_append, List.map_append, List.sum_append, ih]
        by_cases hc : s.row.cid = c
        · rw [List.filter_cons, if_pos (by simpa using hc), List.map_cons, List.map_nil, List.filter_cons, if_pos (by simpa using hc),
            List.filter_nil, List.map_cons, List.map_nil, List.map_cons, List.sum_cons, List.sum_cons, List.sum_nil, if_pos hx]
          ring
        · simp [hc]
      · rw [if_neg (by simpa using hx), ih]
        by_cases hc : s.row.cid = c
        · rw [List.filter_cons, if_pos (by simpa using hc), List.map_cons, List.sum_cons, if_neg hx, zero_add]
        · rw [List.filter_cons, if_neg (by simpa using hc)]
  exact hgen ss (fun _ h => h)

/-- **C31, the relaxation of inequality constraints.**  If some constraint of the (elastic) generic or FCAS requirement
set is violated by more than 0.0001, then each inequality of that set which the original solution violates has in the re-run a right hand
side which that solution meets, without violation variables, with a margin of at least 0.01. -/
theorem C31_relaxation_partial {m : Market} {k : CKey} {vc : VCost} (hk : k = .generic ∨ k = .fcas) (h : InForce (.elastic k vc) m)
    (hp : vc.proper) (hne : m.elasticRows k vc ≠ []) {lp : Lp} (hl : m.assemble = .ok lp) {x : Nat → ℚ} (hx : Feasible lp x)
    {S : Solver} (hv : ∃ v ∈ m.deficitVids k, |x v| > 1 / 10000) {e : Row} (he : e ∈ m.elasticRows k vc)
    (hviol : 0 < m.rowViolation k x e) :
    ∃ r ∈ ((m.linear S x lp).relax (m.adjusters x)).rows, ∃ q, r.cid = e.cid ∧ r.ctype = e.ctype ∧ r.rhs = .const q ∧
      (e.ctype = .le → m.originalLhs k x e.cid + 1 / 100 ≤ q) ∧ (e.ctype = .ge → q + 1 / 100 ≤ m.originalLhs k x e.cid) ∧
      (e.ctype = .eq → q = m.originalLhs k x e.cid ∨ |q - m.originalLhs k x e.cid| = 1 / 100) := by
  obtain ⟨n, E⟩ := elasticSet_of h hp hne
  have h0 := E.nonneg hl hx.vars
  have hset : m.setViolated x k = true := by
    obtain ⟨v, hv, hx⟩ := hv
    obtain ⟨d, hd, rfl⟩ := List.mem_map.1 hv
    unfold Market.setViolated
    simp only [List.any_eq_true, decide_eq_true_eq]
    refine ⟨d, hd, ?_⟩
    rw [gt_iff_lt, lt_abs] at hx
    rcases hx with h | h
    · exact Or.inl h
    · right; linarith
  have hin := (elasticRows_mem he).2
  have hslots : ∀ s ∈ (slots (m.costed k vc) n).filter (fun s => decide (s.row.cid = e.cid)),
      0 ≤ x s.vid ∧ s ∈ slots (m.costed k vc) n ∧ s.row.cid = e.cid := by
    intro s hs
    have hm := List.mem_filter.1 hs
    refine ⟨h0 _ ?_, hm.1, of_decide_eq_true hm.2⟩
    rw [E.vids]
    exact List.mem_map_of_mem hm.1
  -- the total adjustment of the row
  have hadj : (((m.adjusters x).filter (fun a => decide (a.1 = e.cid))).map Prod.snd).sum =
      (((slots (m.costed k vc) n).filter (fun s => decide (s.row.cid = e.cid))).map (fun s =>
        if x s.vid > 0 ∨ x s.vid < -0 then -(x s.vid + 1 / 100) * s.sg else 0)).sum := by
    have hd := E.deficits
    have : ((m.adjustSet x k).filter (fun a => decide (a.1 = e.cid))).map Prod.snd = _ := rfl
    have hown : (((m.adjustSet x k).filter (fun a => decide (a.1 = e.cid))).map Prod.snd).sum =
      (((slots (m.costed k vc) n).filter (fun s => decide (s.row.cid = e.cid))).map (fun s =>
        if x s.vid > 0 ∨ x s.vid < -0 then -(x s.vid + 1 / 100) * s.sg else 0)).sum := by
      unfold Market.adjustSet
      rw [if_pos hset, hd]
      simp only [Option.elim_some]
      rw [slots_vars, slots_terms]
      exact slot_sum (slots_nodup _ n) x e.cid
    unfold Market.adjusters
    rw [List.filter_append, List.map_append, List.sum_append]
    rcases hk with rfl | rfl
    · rw [hown, adjust_other E.wf.con hin (by simp) x]; simp
    · rw [hown, adjust_other E.wf.con hin (by simp) x]; simp
  have hpick : ∃ s, s ∈ (slots (m.costed k vc) n).filter (fun s => decide (s.row.cid = e.cid)) := by
    rcases slots_row E.nodup n (ElasticSet.costed_mem he) with ⟨i, h⟩ | ⟨i, j, hc, h⟩ | ⟨hc, h⟩
    · rcases h with ⟨hc, h⟩ | ⟨hc, h⟩ <;> simp only [] at h <;> exact ⟨_, by rw [h]; exact List.mem_singleton.2 rfl⟩
    · simp only [] at h; exact ⟨_, by rw [h]; exact List.mem_cons_self ..⟩
    · simp only [] at hc
      rw [Market.rowViolation, hc] at hviol
      simp [CType.violation] at hviol
  obtain ⟨s, hs⟩ := hpick
  obtain ⟨_, hs1, hs2⟩ := hslots s hs
  obtain ⟨r, hr, hc⟩ := E.reaches hl he hs1 hs2
  have hold := (E.row_iff hl hr he hc x).1 (hx.rows r hr)
  have hu := unique_row E.wf.con (elasticRows_mem he).1 (by rw [hc]; exact (lpRow hl hr).2.1)
  have hr' : r ∈ (m.linear S x lp).rows := by rw [linear_rows]; exact hr
  refine ⟨_, relax_row hr' hu.2.symm, _, hc.symm, hu.1.symm, rfl, ?_⟩
  rw [← hc, hadj]
  unfold Market.rowViolation at hviol
  rcases slots_row E.nodup n (ElasticSet.costed_mem he) with ⟨i, h⟩ | ⟨i, j, hc, h⟩ | ⟨hc, h⟩
  · rcases h with ⟨hc, h⟩ | ⟨hc, h⟩ <;> simp only [] at hc h
    · rw [h] at hold hslots ⊢
      have b := (hslots _ (List.mem_singleton.2 rfl)).1
      simp only [hc, CType.holds, CType.violation, List.map_cons, List.map_nil, List.sum_cons, List.sum_nil] at hold b hviol ⊢
      rw [lt_max_iff] at hviol
      have hpos : x i > 0 := by rcases hviol with h | h <;> linarith
      rw [if_pos (Or.inl hpos)]
      refine ⟨by simp, fun _ => by linarith, by simp⟩
    · rw [h] at hold hslots ⊢
      have b := (hslots _ (List.mem_singleton.2 rfl)).1
      simp only [hc, CType.holds, CType.violation, List.map_cons, List.map_nil, List.sum_cons, List.sum_nil] at hold b hviol ⊢
      rw [lt_max_iff] at hviol
      have hpos : x i > 0 := by rcases hviol with h | h <;> linarith
      rw [if_pos (Or.inl hpos)]
      refine ⟨fun _ => by linarith, by simp, by simp⟩
  · simp only [] at hc h
    rw [h] at hold hslots ⊢
    have b := (hslots _ (List.mem_cons_self ..)).1
    have c := (hslots _ (List.mem_cons_of_mem _ (List.mem_singleton.2 rfl))).1
    simp only [hc, CType.holds, CType.violation, List.map_cons, List.map_nil, List.sum_cons, List.sum_nil] at hold b c hviol ⊢
    refine ⟨by simp, by simp, fun _ => ?_⟩
    rcases b.lt_or_eq with b | b <;> rcases c.lt_or_eq with c | c
    · left; rw [if_pos (Or.inl b), if_pos (Or.inl c)]; linarith
    · right
      rw [if_pos (Or.inl b), if_neg (by rw [← c]; simp), show e.rhs + (-(x i + 1 / 100) * -1 + (0 + 0)) - m.originalLhs k x e.cid = 1 / 100 by linarith]
      norm_num
    · right
      rw [if_pos (Or.inl c), if_neg (by rw [← b]; simp), show e.rhs + (0 + (-(x j + 1 / 100) * 1 + 0)) - m.originalLhs k x e.cid = -(1 / 100) by linarith]
      norm_num
    · rw [← b, ← c] at hold
      rw [← hold] at hviol
      simp at hviol
  · simp only [] at hc
    rw [hc] at hviol
    simp [CType.violation] at hviol

/-- **C31, the rest is kept.**  A constraint of the pricing model whose violation variables of the generic and FCAS requirement sets (if it
has any) are zero is unchanged in the re-run. -/
theorem C31_others_kept {m : Market} {lp : Lp} {x : Nat → ℚ} {S : Solver} {r : LRow} (hr : r ∈ (m.linear S x lp).rows)
    (h : ∀ k, k = .generic ∨ k = .fcas → ∀ d, m.deficits.get? k = some d → ∀ t ∈ d.2, t.cid = r.cid → x t.vid = 0) :
    r ∈ ((m.linear S x lp).relax (m.adjusters x)).rows := by
  have key : ∀ k, k = .generic ∨ k = .fcas → (m.adjustSet x k).filter (fun a => decide (a.1 = r.cid)) = [] := by
    intro k hk
    rw [List.filter_eq_nil_iff]
    intro a ha e
    have e := of_decide_eq_true e
    unfold Market.adjustSet at ha
    split at ha
    · obtain ⟨v, hv, ha⟩ := List.mem_flatMap.1 ha
      obtain ⟨t, ht, rfl⟩ := List.mem_map.1 ha
      have ht := List.mem_filter.1 ht
      have hv := of_decide_eq_true (List.mem_filter.1 hv).2
      have hvt := of_decide_eq_true ht.2
      cases hd : m.deficits.get? k with
      | none => rw [hd] at ht; cases ht.1
      | some d =>
        rw [hd] at ht
        have := h k hk d hd t ht.1 e
        rw [← hvt, this] at hv
        simp at hv
    · cases ha
  unfold Lp.relax
  refine List.mem_map.2 ⟨r, hr, ?_⟩
  cases hq : r.rhs with
  | var v => cases r; cases hq; rfl
  | const q =>
    unfold Market.adjusters
    simp only []
    rw [List.filter_append, key _ (Or.inl rfl), key _ (Or.inr rfl)]
    simp only [List.append_nil, List.map_nil, List.sum_nil, add_zero]
    cases r; cases hq; rfl

/-! ### Instances -/

/-- two units of 90 and 100 MW serve 150 MW although G1 limits A to 30 MW and G2 fixes B at 50 MW -/
def overCase : Case where
  regions := ["NSW"]
  units := [{ unit := "A", region := "NSW" }, { unit := "B", region := "NSW" }]
  hist := [.volumeBids [{ unit := "A", bands := [("1", 90)] }, { unit := "B", bands := [("1", 100)] }],
    .priceBids [{ unit := "A", bands := [("1", 10)] }, { unit := "B", bands := [("1", 20)] }],
    .demand [{ region := "NSW", demand := 150 }] none,
    .generic [⟨"G1", .le, 30⟩, ⟨"G2", .eq, 50⟩] none, .elastic .generic (.num 20000),
    .linkUnits [⟨"G1", "A", .energy, 1⟩, ⟨"G2", "B", .energy, 1⟩]]
  sol := [90, 60, 60, 10, 0]

/-- a solver with the energy price 20020, and 10 if the limit of A is 90.01 -/
def overSolver : Solver where
  mip := fun _ => some overCase.x
  dual := fun lp _ => if lp.rows.any (fun r => decide (r.rhs = .const (9001 / 100))) then 10 else 20020
  sort := fun l => l

/-- instance of C31: without the re-run the energy price is 20020, with it 10 -/
example : ∃ (m : Market) (o o' : Outcome), m.dispatch overSolver (some ⟨15000, -1000, 15000⟩) = .ok o ∧ m.dispatch overSolver none = .ok o' ∧
    o.price 0 = 10 ∧ o'.price 0 = 20020 := by
  have h : (match overCase.final with
    | none => false
    | some m => (match m.dispatch overSolver (some ⟨15000, -1000, 15000⟩), m.dispatch overSolver none with
      | .ok o, .ok o' => decide (o.price 0 = 10 ∧ o'.price 0 = 20020)
      | _, _ => false)) = true := by decide +kernel
  split at h
  · cases h
  rename_i m _
  split at h
  · rename_i o o' h1 h2
    exact ⟨m, o, o', h1, h2, of_decide_eq_true h⟩
  · cases h

/-- instance of the relaxation theorem: A violates G1 by 60 and B violates G2 by 10 -/
example : ∃ m lp, InForce (.elastic .generic (.num 20000)) m ∧ m.elasticRows .generic (.num 20000) ≠ [] ∧ m.assemble = .ok lp ∧
    Feasible lp overCase.x ∧ (∃ v ∈ m.deficitVids .generic, |overCase.x v| > 1 / 10000) ∧
    ∃ e ∈ m.elasticRows .generic (.num 20000), e.ctype = .le ∧ 0 < m.rowViolation .generic overCase.x e := by
  have hb : overCase.ok (fun m => decide (m.elasticRows .generic (.num 20000) ≠ [] ∧
    (∃ v ∈ m.deficitVids .generic, |overCase.x v| > 1 / 10000) ∧
    ∃ e ∈ m.elasticRows .generic (.num 20000), e.ctype = .le ∧ 0 < m.rowViolation .generic overCase.x e)) = true := by decide +kernel
  obtain ⟨m, lp, h0, h1, h2, h3⟩ := Case.witness hb
  obtain ⟨k1, k2, k3⟩ := of_decide_eq_true h3
  exact ⟨m, lp, (Case.inForce (i := 4) (keep := []) h0 rfl (by decide +kernel)).inForce, k1, h1, h2, k2, k3⟩

/-- **C31 fails for equalities.**  The relaxed right hand side of a violated equality constraint is 0.01 beyond the dispatch, so
the original solution does not satisfy it without violation variables. -/
theorem C31_equality_negation : ∃ m lp, InForce (.elastic .generic (.num 20000)) m ∧ m.assemble = .ok lp ∧
    Feasible lp overCase.x ∧ ∃ e ∈ m.elasticRows .generic (.num 20000), 0 < m.rowViolation .generic overCase.x e ∧
    ∃ r ∈ ((m.linear overSolver overCase.x lp).relax (m.adjusters overCase.x)).rows, r.cid = e.cid ∧
      ¬ r.ctype.holds (m.originalLhs .generic overCase.x e.cid) (r.rhs.eval overCase.x) := by
  have hb : overCase.ok (fun m => match m.assemble with
    | .error _ => false
    | .ok lp => decide (∃ e ∈ m.elasticRows .generic (.num 20000), 0 < m.rowViolation .generic overCase.x e ∧
      ∃ r ∈ ((m.linear overSolver overCase.x lp).relax (m.adjusters overCase.x)).rows, r.cid = e.cid ∧
      ¬ r.ctype.holds (m.originalLhs .generic overCase.x e.cid) (r.rhs.eval overCase.x))) = true := by decide +kernel
  obtain ⟨m, lp, h0, h1, h2, h3⟩ := Case.witness hb
  rw [h1] at h3
  exact ⟨m, lp, (Case.inForce (i := 4) (keep := []) h0 rfl (by decide +kernel)).inForce, h1, h2, of_decide_eq_true h3⟩

end Verif
