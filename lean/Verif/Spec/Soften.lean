import Verif.Spec.Replace

/-!
# Specification: violation costs taken away

The history of a market without its violation costs.
-/

namespace Verif

/-- The constraint sets whose violation costs are taken away: all but the tie break constraints, which are always elastic, and
the interpolation weights of losses. -/
def CKey.soft : CKey → Bool
  | .tieBreak => false
  | .interpWeights => false
  | _ => true

/-- The call without its violation cost; a call that only makes a constraint set elastic is left out. -/
def Op.rigid : Op → Option Op
  | .capacity l _ => some (.capacity l none)
  | .uigf l _ => some (.uigf l none)
  | .rampRates r sc ps rt _ => some (.rampRates r sc ps rt none)
  | .fastStart p _ => some (.fastStart p none)
  | .demand d _ => some (.demand d none)
  | .fcasReq r _ => some (.fcasReq r none)
  | .fcasMaxAvail l _ => some (.fcasMaxAvail l none)
  | .jointRamping r ps rt _ => some (.jointRamping r ps rt none)
  | .jointCapacity t _ => some (.jointCapacity t none)
  | .energyReg t _ => some (.energyReg t none)
  | .generic g _ => some (.generic g none)
  | .elastic k c => if k.soft then none else some (.elastic k c)
  | o => some o

/-- A history without its violation costs. -/
def rigid (ops : List Op) : List Op := ops.filterMap Op.rigid

/-- No constraint is violated: the reported violation degrees of all constraint sets (but tie break constraints and
interpolation weights) are 0. -/
def Report.met (r : Report) : Prop := ∀ k, k.soft = true → r.violation k = 0

end Verif
