import Verif.Model.Backend

/-!
# Specification: FCAS trapeziums

The trapezium of an FCAS offer has the corners (emin, 0), (lbp, maxAvail), (hbp, maxAvail) and (emax, 0) in
the plane of energy dispatch and FCAS enablement.
-/

namespace Verif

/-- energy level of the right edge at enablement `q`: from `emax` at 0 to `hbp` at `maxAvail` -/
def Trap.rightEdge (t : Trap) (q : ℚ) : ℚ := (1 - q / t.maxAvail) * t.emax + q / t.maxAvail * t.hbp

/-- energy level of the left edge at enablement `q`: from `emin` at 0 to `lbp` at `maxAvail` -/
def Trap.leftEdge (t : Trap) (q : ℚ) : ℚ := (1 - q / t.maxAvail) * t.emin + q / t.maxAvail * t.lbp

/-- enablement `q` is inside the trapezium for all energy levels from `lo` to `hi` -/
def Trap.inside (t : Trap) (lo hi q : ℚ) : Prop :=
  0 ≤ q ∧ q ≤ t.maxAvail ∧ t.leftEdge q ≤ lo ∧ hi ≤ t.rightEdge q

/-- the regulation service that moves energy dispatch up: raise for generators, lower for loads -/
def DType.upReg : DType → Service
  | .generator => .raiseReg
  | .load => .lowerReg

/-- the regulation service that moves energy dispatch down -/
def DType.downReg : DType → Service
  | .generator => .lowerReg
  | .load => .raiseReg

end Verif
