import Verif.Spec.Currency
import Verif.Spec.Soften
import Verif.Spec.Existence
import Verif.Model.Outputs

/-!
# Specification: higher violation costs

The history of a market with its violation costs multiplied by a factor, all other prices left as they are.
-/

namespace Verif

/-- All violation costs are positive. -/
def VCost.pos : VCost → Prop
  | .num c => 0 < c
  | .table t => ∀ e ∈ t, 0 < e.2

/-- The call gives no violation cost that is 0 or less. -/
def Op.posCost (o : Op) : Prop := ∀ vc, o.vcost = some vc → vc.pos

/-- The call with its violation cost multiplied by `k`.  Price bids and the cost of tie break constraints are left as they
are. -/
def Op.dearer (k : ℚ) : Op → Op
  | .elastic s v => if s.soft then .elastic s (v.inCurrency k) else .elastic s v
  | .capacity l v => .capacity l (v.map (VCost.inCurrency k))
  | .uigf l v => .uigf l (v.map (VCost.inCurrency k))
  | .rampRates r sc ps rt v => .rampRates r sc ps rt (v.map (VCost.inCurrency k))
  | .fastStart p v => .fastStart p (v.map (VCost.inCurrency k))
  | .demand d v => .demand d (v.map (VCost.inCurrency k))
  | .fcasReq r v => .fcasReq r (v.map (VCost.inCurrency k))
  | .fcasMaxAvail l v => .fcasMaxAvail l (v.map (VCost.inCurrency k))
  | .jointRamping r ps rt v => .jointRamping r ps rt (v.map (VCost.inCurrency k))
  | .jointCapacity t v => .jointCapacity t (v.map (VCost.inCurrency k))
  | .energyReg t v => .energyReg t (v.map (VCost.inCurrency k))
  | .generic g v => .generic g (v.map (VCost.inCurrency k))
  | o => o

/-- A history with its violation costs multiplied by `k`. -/
def dearer (k : ℚ) (ops : List Op) : List Op := ops.map (Op.dearer k)

/-- What the violations of a solution cost at the violation costs of the market (tie breaks aside): the sum over all violation
variables of cost times violation. -/
def Market.fines (m : Market) (x : Nat → ℚ) : ℚ :=
  ((m.deficits.filter (fun e => e.1.soft)).map (fun e => (e.2.1.map (fun v => v.cost * x v.vid)).sum)).sum

end Verif
