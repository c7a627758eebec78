import Verif.Spec.Merit
import Verif.Model.Outputs

/-!
# Specification: shadow prices

What is assumed of the dual values the solver reports: they are Lagrange multipliers of the rows of a linear program at
an optimal solution.  For the program `min cost` with rows `lhs ≥ rhs`, `lhs ≤ rhs` and `lhs = rhs` this means that
the multipliers have the sign of the sense and that no point within the bounds of the variables has a lower cost than
the optimal one once every unit by which it misses a right hand side is paid at the multiplier.
-/

namespace Verif

/-- `p` are shadow prices of the rows of the linear program at its solution `x`. -/
structure ShadowPrices (lp : Lp) (x : Nat → ℚ) (p : Nat → ℚ) : Prop where
  feasible : Feasible lp x
  ge : ∀ r ∈ lp.rows, r.ctype = .ge → 0 ≤ p r.cid
  le : ∀ r ∈ lp.rows, r.ctype = .le → p r.cid ≤ 0
  bound : ∀ y, (∀ v ∈ lp.vars, v.holds y) →
    lp.cost x ≤ lp.cost y - (lp.rows.map (fun r => p r.cid * (linVal y r.coefs - r.rhs.eval y))).sum

/-- What `sort_values('distance')` does: the same rows, in ascending order of distance. -/
def Solver.sorts (S : Solver) : Prop := ∀ l, (S.sort l).Perm l ∧ (S.sort l).Pairwise (fun a b => a.1 ≤ b.1)

/-- `y` respects the bounds of the variables and all constraints of the program except those of the constraint set. -/
def Market.allBut (m : Market) (k : CKey) (lp : Lp) (y : Nat → ℚ) : Prop :=
  (∀ v ∈ lp.vars, v.holds y) ∧ ∀ r ∈ lp.rows, ¬ m.rowOf k r.cid → r.holds y

/-- Energy balance of a region: net supply of its units plus imports less the losses charged to it. -/
def Market.balance (m : Market) (x : Nat → ℚ) (fs : List LossFn) (r : String) : ℚ :=
  m.supply x r .energy + m.netImport x r - m.chargedLoss x fs r

/-- The last successful demand call was `set_demand_constraints(ds)`; the constraints may have been made elastic. -/
def DemandSet (ds : List Demand) (m : Market) : Prop :=
  ∃ (regions : List String) (units : List UnitInfo) (di : ℚ) (m0 : Market) (before after : List Op) (vc : Option VCost),
    Market.init regions units di = .ok m0 ∧ Benign m0 (before ++ .demand ds vc :: after) ∧
    ((m0.run before).step (.demand ds vc)).2 = none ∧ (∀ o ∈ after, ∀ ds' vc', o ≠ .demand ds' vc') ∧
    m = m0.run (before ++ .demand ds vc :: after)

/-- The last successful call about FCAS requirements was `set_fcas_requirements_constraints(rs)`; the constraints may have been
made elastic. -/
def FcasSet (rs : List FcasReq) (m : Market) : Prop :=
  ∃ (regions : List String) (units : List UnitInfo) (di : ℚ) (m0 : Market) (before after : List Op) (vc : Option VCost),
    Market.init regions units di = .ok m0 ∧ Benign m0 (before ++ .fcasReq rs vc :: after) ∧
    ((m0.run before).step (.fcasReq rs vc)).2 = none ∧ (∀ o ∈ after, ∀ rs' vc', o ≠ .fcasReq rs' vc') ∧
    m = m0.run (before ++ .fcasReq rs vc :: after)

/-- The violation price of a constraint set by its name. -/
def VCost.forSet (vc : VCost) (set : String) : Option ℚ :=
  match vc with
  | .num c => some c
  | .table t => (t.find? (fun c => decide (c.1 = set))).map (·.2)

/-- Calls that set no constraint on energy other than the balance of the regions and no constraint on single units:
bids, demand, FCAS requirements, interconnectors and losses. -/
def Op.balanceOnly : Op → Bool
  | .volumeBids _ => true
  | .priceBids _ => true
  | .demand _ _ => true
  | .fcasReq rs _ => rs.all (fun r => decide (r.service ≠ .energy))
  | .interconnectors _ => true
  | .losses _ _ => true
  | .elastic k _ => decide (k = .demand ∨ k = .fcas ∨ k = .interpWeights)
  | _ => false

end Verif
