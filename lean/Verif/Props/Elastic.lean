import Verif.Proofs.ElasticOps
import Verif.Proofs.Duality
import Mathlib.Algebra.Order.BigOperators.Group.List

/-!
# C23, C24: elastic constraints

`InForce (.elastic k vc) m`: the constraints of set `k` were made elastic with violation cost `vc` by the last call about
that set.  `C23_setter_cost` says that passing a violation cost to a setter amounts to the same.
-/

namespace Verif

/-- **C23** Elastic constraints never make the program infeasible: a point that meets everything except the elastic
constraints becomes feasible by changing the violation variables of the set only, and it is enough to give them the
amounts by which the original constraints are violated. -/
theorem C23_never_infeasible {k : CKey} {vc : VCost} {m : Market} (h : InForce (.elastic k vc) m) (hp : vc.proper)
    (hne : m.elasticRows k vc ≠ []) {lp : Lp} (hl : m.assemble = .ok lp) {x : Nat → ℚ} (hx : FeasibleBut m k vc lp x) :
    ∃ y, Feasible lp y ∧ (∀ v, v ∉ m.deficitVids k → y v = x v) ∧ m.violationDegree y k = m.violation k vc x := by
  obtain ⟨n, S⟩ := elasticSet_of h hp hne
  refine ⟨S.fill x, S.fill_feasible hl hx, fun v hv => S.fill_off x hv, ?_⟩
  rw [S.degree_own]
  exact sum_map_congr _ _ _ (fun e he => S.fill_own x he)

/-- **C23** No feasible solution has a smaller total of the violation variables than the amount of the violation. -/
theorem C23_minimal {k : CKey} {vc : VCost} {m : Market} (h : InForce (.elastic k vc) m) (hp : vc.proper)
    (hne : m.elasticRows k vc ≠ []) {lp : Lp} (hl : m.assemble = .ok lp) {x : Nat → ℚ} (hx : Feasible lp x) :
    m.violation k vc x ≤ m.violationDegree x k := by
  obtain ⟨n, S⟩ := elasticSet_of h hp hne
  rw [S.degree_own]
  exact sum_map_le _ _ _ (fun e he => S.own_ge hl (S.nonneg hl hx.vars) he (fun r hr _ => hx.rows r hr))

/-- **C23** The violation is charged at the violation cost: the cheapest feasible completion of a point costs what the
point costs without violation plus, for each elastic constraint, cost times amount of violation; every other completion
costs at least as much (for costs that are not negative). -/
theorem C23_cheapest {k : CKey} {vc : VCost} {m : Market} (h : InForce (.elastic k vc) m) (hp : vc.proper)
    (hne : m.elasticRows k vc ≠ []) {lp : Lp} (hl : m.assemble = .ok lp) {x : Nat → ℚ} (hx : FeasibleBut m k vc lp x)
    (h0 : ∀ v ∈ m.deficitVids k, x v = 0) (hc : ∀ r ∈ m.elasticRows k vc, ∀ c, vc.of r = some c → 0 ≤ c) :
    ∃ y, Feasible lp y ∧ (∀ v, v ∉ m.deficitVids k → y v = x v) ∧ lp.cost y = lp.cost x + m.violationCost k vc x ∧
      ∀ z, Feasible lp z → (∀ v, v ∉ m.deficitVids k → z v = x v) → lp.cost y ≤ lp.cost z := by
  obtain ⟨n, S⟩ := elasticSet_of h hp hne
  obtain ⟨rest, hr, hcost⟩ := S.cost_split hl
  have hrest : ∀ z, (∀ v, v ∉ m.deficitVids k → z v = x v) → linVal z rest = linVal x rest := by
    intro z hz
    unfold linVal
    exact sum_map_congr _ _ _ (fun p hp => by rw [hz _ (hr p hp)])
  have hx0 : ((m.elasticRows k vc).map (fun r => (vc.of r).getD 0 * S.own x r)).sum = 0 := by
    apply sum_map_zero
    intro e he
    have : S.own x e = 0 := by
      unfold ElasticSet.own
      apply sum_map_zero
      intro s hs
      apply h0
      rw [S.vids]
      exact List.mem_map_of_mem (List.mem_of_mem_filter hs)
    rw [this, mul_zero]
  have hy : lp.cost (S.fill x) = lp.cost x + m.violationCost k vc x := by
    rw [hcost, hcost x, hx0, hrest _ (fun v hv => S.fill_off x hv), add_zero]
    congr 1
    exact sum_map_congr _ _ _ (fun e he => by rw [S.fill_own x he])
  refine ⟨S.fill x, S.fill_feasible hl hx, fun v hv => S.fill_off x hv, hy, ?_⟩
  intro z hz hag
  rw [hy, hcost x, hx0, hcost z, hrest z hag, add_zero]
  have : m.violationCost k vc x ≤ ((m.elasticRows k vc).map (fun r => (vc.of r).getD 0 * S.own z r)).sum := by
    unfold Market.violationCost
    apply sum_map_le
    intro e he
    have h1 := S.own_ge hl (S.nonneg hl hz.vars) he (fun r hr _ => hz.rows r hr)
    rw [rowViolation_agree S.wf S.refs hag] at h1
    refine mul_le_mul_of_nonneg_left h1 ?_
    cases ho : vc.of e with
    | none => simp
    | some c => exact hc e he c ho
  linarith

theorem violation_nonneg (t : CType) (l r : ℚ) : 0 ≤ t.violation l r := by
  cases t <;> simp [CType.violation]

/-- The specification of violation is right: it is zero exactly when the constraint holds. -/
theorem violation_eq_zero {t : CType} (ht : t ≠ .other) {l r : ℚ} : t.violation l r = 0 ↔ t.holds l r := by
  cases t with
  | le => simp [CType.violation, CType.holds]
  | ge => simp [CType.violation, CType.holds]
  | eq => simp [CType.violation, CType.holds, sub_eq_zero]
  | other => exact absurd rfl ht

/-- **C23** If the reported violation is zero the original constraints hold. -/
theorem C23_zero_violation {k : CKey} {vc : VCost} {m : Market} (h : InForce (.elastic k vc) m) (hp : vc.proper)
    {lp : Lp} (hl : m.assemble = .ok lp) {x : Nat → ℚ} (hx : Feasible lp x) (hz : m.violationDegree x k = 0) {r : Row}
    (hr : r ∈ m.elasticRows k vc) (ht : r.ctype ≠ .other) : r.ctype.holds (m.originalLhs k x r.cid) r.rhs := by
  have hne : m.elasticRows k vc ≠ [] := fun e => by rw [e] at hr; simp at hr
  have h1 := C23_minimal h hp hne hl hx
  rw [hz] at h1
  have h2 : m.rowViolation k x r ≤ m.violation k vc x := by
    unfold Market.violation
    exact List.single_le_sum (fun a ha => by
      obtain ⟨e, _, rfl⟩ := List.mem_map.1 ha
      exact violation_nonneg _ _ _) _ (List.mem_map_of_mem hr)
  rw [← violation_eq_zero ht]
  exact le_antisymm (le_trans h2 h1) (violation_nonneg _ _ _)

/-- **C23** Passing a violation cost to the setter of a single constraint set is the same as calling
`make_constraints_elastic` after it: the theorems above apply. -/
theorem C23_setter_cost {op op1 : Op} {k : CKey} {vc : VCost} (h : op.apart = some (op1, k, vc)) {m : Market}
    (hi : InForce op m) (hne : op ≠ .generic [] (some vc)) : InForce (.elastic k vc) m :=
  apart_inForce h hi hne

/-- **C24** In an optimal solution the reported violation degree is the total amount by which the constraints of the set
are violated. -/
theorem C24_violation_degree {k : CKey} {vc : VCost} {m : Market} (h : InForce (.elastic k vc) m) (hp : vc.proper)
    (hne : m.elasticRows k vc ≠ []) (hc : ∀ r ∈ m.elasticRows k vc, ∀ c, vc.of r = some c → 0 < c) {lp : Lp}
    (hl : m.assemble = .ok lp) {x : Nat → ℚ} (hx : Optimal lp x) :
    m.violationDegree x k = m.violation k vc x := by
  obtain ⟨n, S⟩ := elasticSet_of h hp hne
  obtain ⟨rest, hr, hcost⟩ := S.cost_split hl
  have hle := hx.2 _ (S.fill_feasible hl (ElasticSet.feasibleBut hx.1))
  have hag : ∀ v, v ∉ m.deficitVids k → S.fill x v = x v := fun v hv => S.fill_off x hv
  have hrest : linVal (S.fill x) rest = linVal x rest := by
    unfold linVal
    exact sum_map_congr _ _ _ (fun p hp => by rw [hag _ (hr p hp)])
  rw [hcost, hcost (S.fill x), hrest] at hle
  have hge : ∀ e ∈ m.elasticRows k vc, m.rowViolation k x e ≤ S.own x e := fun e he =>
    S.own_ge hl (S.nonneg hl hx.1.vars) he (fun r hr _ => hx.1.rows r hr)
  have hpos : ∀ e ∈ m.elasticRows k vc, 0 < (vc.of e).getD 0 := by
    intro e he
    have hs : (vc.of e).isSome := by
      unfold Market.elasticRows at he
      exact (List.mem_filter.1 he).2
    obtain ⟨c, hcc⟩ := Option.isSome_iff_exists.1 hs
    rw [hcc]
    exact hc e he c hcc
  have hsum : ((m.elasticRows k vc).map (fun r => (vc.of r).getD 0 * (S.own x r - m.rowViolation k x r))).sum ≤ 0 := by
    have e1 : ((m.elasticRows k vc).map (fun r => (vc.of r).getD 0 * S.own (S.fill x) r)).sum =
        ((m.elasticRows k vc).map (fun r => (vc.of r).getD 0 * m.rowViolation k x r)).sum :=
      sum_map_congr _ _ _ (fun e he => by rw [S.fill_own x he])
    rw [e1] at hle
    have e2 : ((m.elasticRows k vc).map (fun r => (vc.of r).getD 0 * (S.own x r - m.rowViolation k x r))).sum =
        ((m.elasticRows k vc).map (fun r => (vc.of r).getD 0 * S.own x r)).sum -
        ((m.elasticRows k vc).map (fun r => (vc.of r).getD 0 * m.rowViolation k x r)).sum := by
      rw [← sum_map_sub]
      exact sum_map_congr _ _ _ (fun e _ => by ring)
    rw [e2]
    linarith
  have hnn : ∀ e ∈ m.elasticRows k vc, 0 ≤ (vc.of e).getD 0 * (S.own x e - m.rowViolation k x e) := fun e he =>
    mul_nonneg (le_of_lt (hpos e he)) (by linarith [hge e he])
  rw [S.degree_own]
  unfold Market.violation
  apply sum_map_congr
  intro e he
  have h1 : (vc.of e).getD 0 * (S.own x e - m.rowViolation k x e) ≤ 0 := by
    refine le_trans (List.single_le_sum (fun a ha => ?_) _
      (List.mem_map_of_mem (f := fun r => (vc.of r).getD 0 * (S.own x r - m.rowViolation k x r)) he)) hsum
    obtain ⟨e', he', rfl⟩ := List.mem_map.1 ha
    exact hnn e' he'
  have h2 := le_antisymm h1 (hnn e he)
  rcases mul_eq_zero.1 h2 with h3 | h3
  · exact absurd h3 (ne_of_gt (hpos e he))
  · linarith

/-- **C24** The violation degree of a set that no call asked to make elastic is zero. -/
theorem C24_never_elastic {regions : List String} {units : List UnitInfo} {di : ℚ} {m0 : Market} {ops : List Op}
    (h0 : Market.init regions units di = .ok m0) {k : CKey} (h : ∀ o ∈ ops, ¬ o.asksElastic k) (x : Nat → ℚ) :
    (m0.run ops).violationDegree x k = 0 := by
  have : m0.deficits.get? k = none := by rw [(init_fresh h0).1]; rfl
  unfold Market.violationDegree
  rw [deficits_never this h]

/-! ### Instances -/

/-- one unit of 50 MW, demand 100 MW at a violation cost of 1000 $/MWh and a fixed output made elastic -/
def shortCase : Case where
  regions := ["NSW"]
  units := [{ unit := "A", region := "NSW" }]
  hist := [.volumeBids [{ unit := "A", bands := [("1", 50)] }], .priceBids [{ unit := "A", bands := [("1", 20)] }],
    .capacity [{ unit := "A", val := 40 }] (some (.num 600)),
    .demand [{ region := "NSW", demand := 100 }] (some (.num 1000))]
  sol := [50, 10, 0, 50]

/-- instance of C23 and C24 for the demand: 50 MW cannot be served -/
example : ∃ m lp, InForce (.elastic .demand (.num 1000)) m ∧ m.assemble = .ok lp ∧ Optimal lp shortCase.x ∧
    (m.elasticRows .demand (.num 1000) ≠ [] ∧ m.violationDegree shortCase.x .demand = 50 ∧
      m.violation .demand (.num 1000) shortCase.x = 50 ∧ m.violationDegree shortCase.x .unitBidCapacity = 10) := by
  have hb : shortCase.best [1000, -600] (fun m => decide (m.elasticRows .demand (.num 1000) ≠ [] ∧ m.violationDegree shortCase.x .demand = 50 ∧
      m.violation .demand (.num 1000) shortCase.x = 50 ∧ m.violationDegree shortCase.x .unitBidCapacity = 10)) = true := by
    decide +kernel
  obtain ⟨m, lp, h0, h1, h2, h3⟩ := Case.optimal hb
  refine ⟨m, lp, ?_, h1, h2, of_decide_eq_true h3⟩
  refine C23_setter_cost (op := .demand [{ region := "NSW", demand := 100 }] (some (.num 1000))) rfl ?_ (by simp)
  exact (Case.inForce (i := 3) (keep := []) h0 rfl (by decide +kernel)).inForce

/-- a cost table is proper if its sets are distinct; `num` always is -/
example : (VCost.table [("G", 10), ("H", 20)]).proper ∧ (VCost.num 5).proper := by
  refine ⟨?_, trivial⟩
  unfold VCost.proper
  decide

/-- a history in which only the demand is elastic -/
example : ∀ o ∈ shortCase.hist, ¬ o.asksElastic .fcas := by
  intro o ho
  simp only [shortCase, List.mem_cons, List.not_mem_nil, or_false] at ho
  rcases ho with rfl | rfl | rfl | rfl <;> simp [Op.asksElastic, Op.vcost, Op.parts]

end Verif
