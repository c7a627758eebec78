import Verif.Spec.Dearer
import Verif.Proofs.Dearer
import Verif.Proofs.DefAll
import Verif.Proofs.ExactPenalty
import Verif.Props.Existence
import Verif.Props.Soften

/-!
# C128: high violation costs are only paid when they have to be

When the violation costs of a market are multiplied by a factor that is high enough, the cheapest dispatches are those that
violate as little as possible, and among these the cheapest; if all constraints can be met they are met, and the dispatches are
the ones of the market without violation costs.
-/

namespace Verif

theorem fines_eq (m : Market) (x : Nat → ℚ) : m.fines x = linVal x m.softObj := by
  unfold Market.fines Market.softObj linVal
  rw [sum_map_flatMap]
  congr 1
  apply List.map_congr_left
  intro e _
  rw [List.map_map]
  rfl

theorem rigid_dearer (k : ℚ) (ops : List Op) : rigid (dearer k ops) = rigid ops := by
  unfold rigid dearer
  rw [List.filterMap_map]
  congr 1
  funext o
  cases o with
  | elastic s v =>
    simp only [Function.comp, Op.dearer]
    by_cases h : s.soft = true
    · simp only [h, if_true, Op.rigid]
    · simp only [h, if_false, Bool.false_eq_true, Op.rigid]
  | _ => rfl

theorem benign_dearer {c : ℚ} (hc : c ≠ 0) {m : Market} {ops : List Op} (h : Benign m ops) : Benign (m.dr c) (dearer c ops) := by
  induction ops generalizing m with
  | nil => trivial
  | cons o ops ih =>
    obtain ⟨h1, h2⟩ := h
    refine ⟨?_, ?_⟩
    · cases o with
      | elastic s v =>
        by_cases hs : s.soft = true
        · rw [show Op.dearer c (.elastic s v) = .elastic s (v.inCurrency c) from if_pos hs]; trivial
        · rw [show Op.dearer c (.elastic s v) = .elastic s v from if_neg hs]; trivial
      | _ => exact h1
    · rw [step_dr hc]
      exact ih h2

theorem stiff_objective_sub (m : Market) : ∀ o ∈ m.stiff.objective, o ∈ m.objective := by
  intro o ho
  simp only [Market.objective, List.mem_append, List.mem_flatMap, Market.stiff, List.mem_filter] at ho ⊢
  rcases ho with ho | ⟨a, ⟨ha, _⟩, ho⟩
  · exact Or.inl ho
  · exact Or.inr ⟨a, ha, ho⟩

theorem softObj_sub (m : Market) : ∀ o ∈ m.softObj, o ∈ m.objective := by
  intro o ho
  simp only [Market.objective, Market.softObj, List.mem_append, List.mem_flatMap, List.mem_filter] at ho ⊢
  obtain ⟨a, ⟨ha, _⟩, ho⟩ := ho
  exact Or.inr ⟨a, ha, ho⟩

theorem dr_one (m : Market) : m.dr 1 = m := by
  have : m.deficits.map (fun d => (d.1, defDr 1 d.1 d.2)) = m.deficits := by
    conv_rhs => rw [← List.map_id m.deficits]
    apply List.map_congr_left
    intro d _
    unfold defDr
    split
    · have : d.2.1.map (DefVar.sc 1) = d.2.1 := by
        conv_rhs => rw [← List.map_id d.2.1]
        apply List.map_congr_left
        intro v _
        simp [DefVar.sc]
      simp only [defSc, this, id]
    · rfl
  unfold Market.dr
  rw [this]

section
variable {regions : List String} {units : List UnitInfo} {di : ℚ} {m0 : Market} {ops : List Op} {LP lp : Lp}

/-- **C128** Every call raises the same exception, or none, when the violation costs are multiplied by a factor. -/
theorem C128_same_exceptions (hi : Market.init regions units di = .ok m0) {k : ℚ} (hk : k ≠ 0) (before : List Op) (op : Op) :
    ((m0.run (dearer k before)).step (op.dearer k)).2 = ((m0.run before).step op).2 := by
  rw [run_dearer hi hk, step_dr hk]
  rfl

/-- **C128** With violation costs that are high enough, the cheapest dispatches are those that violate as little as possible,
measured at the violation costs, and are the cheapest among these. -/
theorem C128_violations_first (hi : Market.init regions units di = .ok m0) (hb : Benign m0 ops) (hc : ∀ o ∈ ops, o.nonnegCost)
    (E : (m0.run ops).assemble = .ok LP) (hf : ∃ x, Feasible LP x) :
    ∃ K, ∀ k, K < k → ∃ LPk, (m0.run (dearer k ops)).assemble = .ok LPk ∧
      ∀ x, Optimal LPk x ↔ Feasible LP x ∧ (∀ y, Feasible LP y → (m0.run ops).fines x ≤ (m0.run ops).fines y) ∧
        ∀ y, Feasible LP y → (m0.run ops).fines y = (m0.run ops).fines x → LP.cost x ≤ LP.cost y := by
  have hr : Reached (m0.run ops) := ⟨regions, units, di, m0, ops, hi, hb, rfl⟩
  have hd : DefCosts (m0.run ops) := defAll_run hi (fun o ho vc hv => VCost.nonneg_all (hc o ho vc hv))
  have hbound := objective_bounded_of hr.refs hd E
  have e2 : LP.obj = (m0.run ops).objective := (assemble_parts E).2.1
  rw [e2] at hbound
  obtain ⟨b, hB⟩ := linVal_bounded (vars := LP.vars) (m0.run ops).stiff.objective
    (fun c hc => hbound c (stiff_objective_sub _ c hc))
  obtain ⟨a, hA⟩ := linVal_bounded (vars := LP.vars) (m0.run ops).softObj (fun c hc => hbound c (softObj_sub _ c hc))
  obtain ⟨K, hK⟩ := penalty_first (m0.run ops).stiff.objective (m0.run ops).softObj hB hA hf
  have hcost : ∀ x, LP.cost x = linVal x (m0.run ops).stiff.objective + linVal x (m0.run ops).softObj := by
    intro x
    have := linVal_dr 1 (m0.run ops) x
    rw [dr_one, one_mul, ← e2] at this
    exact this
  refine ⟨max 0 K, fun k hk => ⟨LP.dr k (m0.run ops), ?_, fun x => ?_⟩⟩
  · rw [run_dearer hi (lt_of_le_of_lt (le_max_left _ _) hk).ne', assemble_dr, E]
    rfl
  · unfold Optimal
    simp only [feasible_dr, cost_dr, fines_eq, hcost]
    constructor
    · rintro ⟨hx, ho⟩
      obtain ⟨h1, h2⟩ := (hK k (lt_of_le_of_lt (le_max_right _ _) hk) x hx).1 ho
      exact ⟨hx, h1, fun y hy he => by rw [he]; linarith [h2 y hy he]⟩
    · rintro ⟨hx, h1, h2⟩
      refine ⟨hx, (hK k (lt_of_le_of_lt (le_max_right _ _) hk) x hx).2 ⟨h1, fun y hy he => ?_⟩⟩
      have := h2 y hy he
      rw [he] at this
      linarith

theorem fines_zero {m : Market} {x : Nat → ℚ} (h : m.zeroAt x) : m.fines x = 0 := by
  unfold Market.fines
  apply List.sum_eq_zero
  intro q hq
  obtain ⟨e, he, rfl⟩ := List.mem_map.1 hq
  apply List.sum_eq_zero
  intro q hq
  obtain ⟨v, hv, rfl⟩ := List.mem_map.1 hq
  rw [h e (List.mem_of_mem_filter he) (List.mem_filter.1 he).2 v hv, mul_zero]

theorem zero_of_fines {m : Market} (hp : DefAll (0 < ·) m) {x : Nat → ℚ}
    (hx : ∀ e ∈ m.deficits, e.1.soft = true → ∀ v ∈ e.2.1, 0 ≤ x v.vid) (h : m.fines x ≤ 0) : m.zeroAt x := by
  intro e he hs v hv
  by_contra hne
  have hpos : 0 < x v.vid := lt_of_le_of_ne (hx e he hs v hv) (Ne.symm hne)
  have h1 : 0 < (e.2.1.map (fun v => v.cost * x v.vid)).sum := by
    refine lt_of_lt_of_le (mul_pos (hp e he v hv) hpos) (List.single_le_sum ?_ _ (List.mem_map.2 ⟨v, hv, rfl⟩))
    intro q hq
    obtain ⟨w, hw, rfl⟩ := List.mem_map.1 hq
    exact mul_nonneg (hp e he w hw).le (hx e he hs w hw)
  have h2 : (e.2.1.map (fun v => v.cost * x v.vid)).sum ≤ m.fines x := by
    refine List.single_le_sum ?_ _ (List.mem_map.2 ⟨e, List.mem_filter.2 ⟨he, hs⟩, rfl⟩)
    intro q hq
    obtain ⟨d, hd, rfl⟩ := List.mem_map.1 hq
    apply List.sum_nonneg
    intro q hq
    obtain ⟨w, hw, rfl⟩ := List.mem_map.1 hq
    exact mul_nonneg (hp d (List.mem_of_mem_filter hd) w hw).le
      (hx d (List.mem_of_mem_filter hd) (List.mem_filter.1 hd).2 w hw)
  linarith

theorem VCost.pos_all {c : VCost} (h : c.pos) : c.all (0 < ·) := by
  cases c <;> exact h

theorem Op.posCost.nonneg {o : Op} (h : o.posCost) : o.nonnegCost := by
  intro vc hv
  have := h vc hv
  cases vc with
  | num c => exact le_of_lt this
  | table t => exact fun e he => le_of_lt (this e he)

/-- **C128** If all constraints with violation costs can be met, they are met by every cheapest dispatch once the violation
costs are high enough. -/
theorem C128_met (hi : Market.init regions units di = .ok m0) (hb : Benign m0 ops) (hc : ∀ o ∈ ops, o.posCost)
    (E : (m0.run ops).assemble = .ok LP) (hx : ∃ x, Feasible LP x ∧ ((m0.run ops).report LP x).met) :
    ∃ K, ∀ k, K < k → ∃ LPk, (m0.run (dearer k ops)).assemble = .ok LPk ∧
      ∀ x, Optimal LPk x → ((m0.run (dearer k ops)).report LPk x).met := by
  obtain ⟨x0, hx0, hm0⟩ := hx
  obtain ⟨K, hK⟩ := C128_violations_first hi hb (fun o ho => (hc o ho).nonneg) E ⟨x0, hx0⟩
  refine ⟨max 0 K, fun k hk => ?_⟩
  obtain ⟨LPk, h1, h2⟩ := hK k (lt_of_le_of_lt (le_max_right _ _) hk)
  refine ⟨LPk, h1, fun x hx => ?_⟩
  obtain ⟨hxf, hxm, _⟩ := (h2 x).1 hx
  obtain ⟨f, g, hs⟩ := softened_of hi hb
  have h3 := hxm x0 hx0
  rw [fines_zero (hs.met E hx0 hm0)] at h3
  have hv := ((feasible_iff hs.wM E x).1 hxf).1
  have h4 : (m0.run ops).zeroAt x := zero_of_fines (defAll_run hi (fun o ho vc hv => VCost.pos_all (hc o ho vc hv)))
    (fun e he hsoft v hvm => (hv _ (vars_stiff.2 (Or.inr ⟨e, he, hsoft, v, hvm, rfl⟩))).1) h3
  intro s hs'
  have := zero_violation h4 hs'
  rw [← violationDegree_dr k, ← run_dearer hi (lt_of_le_of_lt (le_max_left _ _) hk).ne'] at this
  exact this

/-- **C128** If all constraints with violation costs can be met, then with violation costs that are high enough the cheapest
dispatches are those of the market without violation costs: the same costs, unit dispatch, flows and regional summary. -/
theorem C128_same_optima (hi : Market.init regions units di = .ok m0) (hb : Benign m0 ops) (hc : ∀ o ∈ ops, o.posCost)
    (E : (m0.run ops).assemble = .ok LP) (e : (m0.run (rigid ops)).assemble = .ok lp)
    (hx : ∃ x, Feasible LP x ∧ ((m0.run ops).report LP x).met) :
    ∃ K, ∀ k, K < k → ∃ LPk, (m0.run (dearer k ops)).assemble = .ok LPk ∧
      ∀ r, (∃ y, Optimal lp y ∧ (m0.run (rigid ops)).report lp y = r) ↔
        (∃ x, Optimal LPk x ∧ (m0.run (dearer k ops)).report LPk x = r) := by
  have hr : Reached (m0.run ops) := ⟨regions, units, di, m0, ops, hi, hb, rfl⟩
  obtain ⟨K1, h1⟩ := C128_met hi hb hc E hx
  refine ⟨max 0 K1, fun k hk => ?_⟩
  obtain ⟨LPk, hE, hm⟩ := h1 k (lt_of_le_of_lt (le_max_right _ _) hk)
  have hk0 : 0 < k := lt_of_le_of_lt (le_max_left _ _) hk
  refine ⟨LPk, hE, fun r => ?_⟩
  have hbk : Benign m0 (dearer k ops) := by
    have := benign_dearer hk0.ne' hb
    rwa [init_dr hi k] at this
  have hcost : ∀ o ∈ dearer k ops, o.nonnegCost := by
    intro o ho
    obtain ⟨a, ha, rfl⟩ := List.mem_map.1 ho
    have hv : ∀ v : VCost, v.pos → (v.inCurrency k).nonneg := by
      intro v hv
      cases v with
      | num c => exact (mul_pos hk0 hv).le
      | table t =>
        intro q hq
        obtain ⟨d, hd, rfl⟩ := List.mem_map.1 hq
        exact (mul_pos hk0 (hv d hd)).le
    have ha' := hc a ha
    have hopt : ∀ v : Option VCost, (∀ vc, v = some vc → vc.pos) → ∀ vc, v.map (VCost.inCurrency k) = some vc → vc.nonneg := by
      intro v h vc e
      cases v with
      | none => cases e
      | some w => injection e with e; subst e; exact hv w (h w rfl)
    cases a with
    | elastic s v =>
      by_cases hs : s.soft = true
      · rw [show Op.dearer k (.elastic s v) = .elastic s (v.inCurrency k) from if_pos hs]
        intro vc e
        injection e with e
        subst e
        exact hv v (ha' v rfl)
      · rw [show Op.dearer k (.elastic s v) = .elastic s v from if_neg hs]
        exact ha'.nonneg
    | capacity l v => exact hopt v ha'
    | uigf l v => exact hopt v ha'
    | rampRates r sc ps rt v => exact hopt v ha'
    | fastStart p v => exact hopt v ha'
    | demand d v => exact hopt v ha'
    | fcasReq r v => exact hopt v ha'
    | fcasMaxAvail l v => exact hopt v ha'
    | jointRamping r ps rt v => exact hopt v ha'
    | jointCapacity t v => exact hopt v ha'
    | energyReg t v => exact hopt v ha'
    | generic g v => exact hopt v ha'
    | _ => exact ha'.nonneg
  obtain ⟨x0, hx0, _⟩ := hx
  have hEk : LPk = LP.dr k (m0.run ops) := by
    have := hE
    rw [run_dearer hi hk0.ne', assemble_dr, E] at this
    injection this with this
    exact this.symm
  have hfk : Feasible LPk x0 := by rw [hEk, feasible_dr]; exact hx0
  obtain ⟨z, hz⟩ := C112_optimal_exists ⟨regions, units, di, m0, _, hi, hbk, hcost, rfl⟩ hE ⟨x0, hfk⟩
  have := C120_same_optima hi hbk hE (by rw [rigid_dearer]; exact e) ⟨z, hz, hm z hz⟩ r
  rw [rigid_dearer] at this
  rw [this]
  constructor
  · rintro ⟨x, h1, h2, _⟩; exact ⟨x, h1, h2⟩
  · rintro ⟨x, h1, h2⟩; exact ⟨x, h1, h2, h2 ▸ hm x h1⟩

end

/-! ### Instances -/

/-- 80 MW of demand that may be left unmet for 10 $/MW, and a unit that asks 50 $/MW -/
def fineHist : List Op := [.volumeBids [{ unit := "A", bands := [("1", 100)] }], .priceBids [{ unit := "A", bands := [("1", 50)] }],
  .demand [{ region := "NSW", demand := 80 }] (some (.num 10))]

/-- the same with a factor on the violation cost, and a solution -/
def fineCase (k : ℚ) (sol : List ℚ) : Case where
  regions := ["NSW"]
  units := [{ unit := "A", region := "NSW" }]
  hist := dearer k fineHist
  sol := sol

def fineStart : Market := { regions := ["NSW"], units := [{ unit := "A", region := "NSW" }], di := 5 }

theorem fineCase_final {k : ℚ} {sol : List ℚ} {m : Market} (h : (fineCase k sol).final = some m) :
    m = fineStart.run (dearer k fineHist) ∧ Benign fineStart (dearer k fineHist) := by
  unfold Case.final at h
  split at h
  · cases h
  · rename_i m0 hm0
    have : m0 = fineStart := (init_fresh hm0).1
    subst this
    split at h
    · rename_i hb
      cases h; exact ⟨rfl, benignB_iff.1 hb⟩
    · cases h

theorem fineCase_met {m : Market} {x : Nat → ℚ} (h : ∀ d ∈ m.deficits, m.violationDegree x d.1 = 0) (lp : Lp) :
    (m.report lp x).met := by
  intro k _
  show m.violationDegree x k = 0
  by_cases hk : k ∈ m.deficits.map Prod.fst
  · obtain ⟨d, hd, rfl⟩ := List.mem_map.1 hk
    exact h d hd
  · unfold Market.violationDegree
    rw [Dict.none_of_not_mem hk]

theorem fineHist_one : dearer 1 fineHist = fineHist := by
  simp [dearer, fineHist, Op.dearer, VCost.inCurrency]

theorem fineHist_pos : ∀ o ∈ fineHist, o.posCost := by
  intro o ho vc hv
  simp only [fineHist, List.mem_cons, List.not_mem_nil, or_false] at ho
  rcases ho with rfl | rfl | rfl
  · cases hv
  · cases hv
  · injection hv with hv
    subst hv
    show (0 : ℚ) < 10
    norm_num

/-- **C128** "High enough" cannot be left out: the demand can be met, yet in the cheapest dispatch it is not. -/
theorem C128_too_low : ∃ (m0 : Market) (ops : List Op) (LP : Lp) (x y : Nat → ℚ),
    Market.init ["NSW"] [{ unit := "A", region := "NSW" }] 5 = .ok m0 ∧ Benign m0 ops ∧ (∀ o ∈ ops, o.posCost) ∧
    (m0.run ops).assemble = .ok LP ∧ Feasible LP y ∧ ((m0.run ops).report LP y).met ∧ Optimal LP x ∧
    ((m0.run ops).report LP x).violation .demand = 80 := by
  have h : (fineCase 1 [0, 0, 80]).shadow [10] (fun m => decide (m.losses = none ∧ m.sos1Groups = [] ∧ m.sos2Groups = [] ∧
      m.violationDegree (fineCase 1 [0, 0, 80]).x .demand = 80)) = true := by decide +kernel
  have h' : (fineCase 1 [80, 0, 0]).ok (fun m => decide (
      ∀ d ∈ m.deficits, m.violationDegree (fineCase 1 [80, 0, 0]).x d.1 = 0)) = true := by decide +kernel
  obtain ⟨m, lp, o, h0, h1, h2, h3, h4, h5, h6⟩ := Case.shadow_spec h
  obtain ⟨m', lp', g0, g1, g2, g3⟩ := Case.witness h'
  obtain ⟨k1, k2, k3, k4⟩ := of_decide_eq_true h6
  obtain ⟨rfl, hb⟩ := fineCase_final h0
  obtain ⟨rfl, _⟩ := fineCase_final g0
  rw [fineHist_one] at *
  rw [h1] at g1
  injection g1 with g1
  subst g1
  rw [h3] at h5
  exact ⟨fineStart, fineHist, lp, (fineCase 1 [0, 0, 80]).x, (fineCase 1 [80, 0, 0]).x, rfl, hb, fineHist_pos, h1, g2,
    fineCase_met (of_decide_eq_true g3) lp, optimal_of_shadow h1 k1 k2 k3 h5, k4⟩

/-- instance of `C128_violations_first`, `C128_met` and `C128_same_optima`: their hypotheses, and the cheapest dispatch with a
violation cost six times as high -/
example : ∃ (m0 : Market) (LP lp LP6 : Lp) (x y : Nat → ℚ),
    Market.init ["NSW"] [{ unit := "A", region := "NSW" }] 5 = .ok m0 ∧ Benign m0 fineHist ∧ (∀ o ∈ fineHist, o.posCost) ∧
    (m0.run fineHist).assemble = .ok LP ∧ (m0.run (rigid fineHist)).assemble = .ok lp ∧ Feasible LP y ∧
    ((m0.run fineHist).report LP y).met ∧ (m0.run (dearer 6 fineHist)).assemble = .ok LP6 ∧ Optimal LP6 x ∧
    ((m0.run (dearer 6 fineHist)).report LP6 x).met ∧ LP6.cost x = 4000 := by
  have h : (fineCase 6 [80, 0, 0]).shadow [50] (fun m => decide (m.losses = none ∧ m.sos1Groups = [] ∧ m.sos2Groups = [] ∧
      (∀ d ∈ m.deficits, m.violationDegree (fineCase 6 [80, 0, 0]).x d.1 = 0) ∧
      linVal (fineCase 6 [80, 0, 0]).x m.objective = 4000)) = true := by decide +kernel
  have h' : (fineCase 1 [80, 0, 0]).ok (fun m => decide (
      ∀ d ∈ m.deficits, m.violationDegree (fineCase 1 [80, 0, 0]).x d.1 = 0)) = true := by decide +kernel
  have h7 : (match (fineStart.run (rigid fineHist)).assemble with | .ok _ => true | .error _ => false) = true := by decide +kernel
  obtain ⟨lpr, h7'⟩ : ∃ lp', (fineStart.run (rigid fineHist)).assemble = .ok lp' := by
    split at h7
    · exact ⟨_, by assumption⟩
    · cases h7
  obtain ⟨m, lp, o, h0, h1, h2, h3, h4, h5, h6⟩ := Case.shadow_spec h
  obtain ⟨m', lp', g0, g1, g2, g3⟩ := Case.witness h'
  obtain ⟨k1, k2, k3, k4, k5⟩ := of_decide_eq_true h6
  obtain ⟨rfl, _⟩ := fineCase_final h0
  obtain ⟨rfl, hb⟩ := fineCase_final g0
  rw [fineHist_one] at g1 g3 hb
  rw [h3] at h5
  refine ⟨fineStart, lp', lpr, lp, (fineCase 6 [80, 0, 0]).x, (fineCase 1 [80, 0, 0]).x, rfl, hb, fineHist_pos, g1, h7', g2,
    fineCase_met (of_decide_eq_true g3) lp', h1, optimal_of_shadow h1 k1 k2 k3 h5, fineCase_met k4 lp, ?_⟩
  unfold Lp.cost
  rw [(assemble_parts h1).2.1]
  exact k5

end Verif
