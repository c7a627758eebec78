import Verif.Spec.Elastic
import Verif.Spec.Price

/-!
# Specification: existence of solutions
-/

namespace Verif

/-- No violation cost is negative. -/
def VCost.nonneg : VCost → Prop
  | .num c => 0 ≤ c
  | .table t => ∀ e ∈ t, 0 ≤ e.2

/-- The call gives no negative violation cost. -/
def Op.nonnegCost (o : Op) : Prop := ∀ vc, o.vcost = some vc → vc.nonneg

/-- `x` meets everything in the program except the elastic constraints of the listed sets and the bounds of their violation
variables. -/
structure FeasibleButAll (m : Market) (K : List (CKey × VCost)) (lp : Lp) (x : Nat → ℚ) : Prop where
  vars : ∀ v ∈ lp.vars, (∀ k ∈ K, v.vid ∉ m.deficitVids k.1) → v.holds x
  rows : ∀ r ∈ lp.rows, (∀ k ∈ K, ∀ e ∈ m.elasticRows k.1 k.2, e.cid ≠ r.cid) → r.holds x
  sos2 : ∀ g ∈ lp.sos2, Sos2 x g
  sos1 : ∀ g ∈ lp.sos1, Sos1 x g

/-- The dual values the solver reports for a linear program are shadow prices of it at one of its optimal solutions, if it has an
optimal solution. -/
def Solver.Duals (S : Solver) : Prop :=
  ∀ lp : Lp, lp.sos1 = [] → lp.sos2 = [] → (lp.rows.map LRow.cid).Nodup → (∃ x, Optimal lp x) →
    ∃ x, Optimal lp x ∧ ShadowPrices lp x (S.dual lp)

end Verif
