import Verif.Model.ConstraintData

/-!
# Specification: right hand sides of generic constraints
-/

namespace Verif.Cons

/-- The published set has this right hand side and this direction -/
def Published (r : Raw) (set : String) (rhs : ℚ) (symbol : String) : Prop :=
  ⟨set, rhs⟩ ∈ r.rhs ∧ ∃ t ∈ r.types, t.set = set ∧
    ((t.type = "LE" ∧ symbol = "<=") ∨ (t.type = "EQ" ∧ symbol = "=") ∨ (t.type = "GE" ∧ symbol = ">="))

/-- The published set has a coefficient for the service in the region -/
def Regional (r : Raw) (set service region : String) : Prop :=
  ∃ l ∈ r.regionLhs, l.set = set ∧ l.who = region ∧ serviceMap l.service = .ok service

/-- The codes in the tables are known. -/
def KnownCodes (r : Raw) : Prop :=
  (∀ q ∈ r.rhs, ∀ t ∈ r.types, t.set = q.set → t.type = "LE" ∨ t.type = "EQ" ∨ t.type = "GE") ∧
  (∀ l, l ∈ r.unitLhs ∨ l ∈ r.regionLhs →
    l.service ∈ ["ENOF", "LDOF", "DROF", "BDOF", "L5RE", "R5RE", "R5MI", "L5MI", "R60S", "L60S", "R6SE", "L6SE", "R1SE", "L1SE"])

end Verif.Cons
