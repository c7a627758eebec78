import Verif.Spec.History

/-!
# Specification: the same call with a violation cost
-/

namespace Verif

/-- The call with a violation cost of `c` per MW; calls that do not take a violation cost are unchanged. -/
def Op.pricedAt (c : ℚ) : Op → Op
  | .capacity l _ => .capacity l (some (.num c))
  | .uigf l _ => .uigf l (some (.num c))
  | .rampRates r sc ps rt _ => .rampRates r sc ps rt (some (.num c))
  | .fastStart p _ => .fastStart p (some (.num c))
  | .demand d _ => .demand d (some (.num c))
  | .fcasReq r _ => .fcasReq r (some (.num c))
  | .fcasMaxAvail l _ => .fcasMaxAvail l (some (.num c))
  | .jointRamping r ps rt _ => .jointRamping r ps rt (some (.num c))
  | .jointCapacity t _ => .jointCapacity t (some (.num c))
  | .energyReg t _ => .energyReg t (some (.num c))
  | .generic g _ => .generic g (some (.num c))
  | op => op

end Verif
