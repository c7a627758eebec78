import Verif.Spec.History

/-!
# Specification: what a constraint set refers to
-/

namespace Verif

/-- The other parts of the market definition the constraints of a set refer to: constraints on units refer to the bids,
regional balances also to the interconnectors and their losses, generic constraints and FCAS requirements to the links of
generic constraints; interconnector losses and tie breaks are complete when they are set. -/
def CKey.reads : CKey → List Part
  | .demand => [.bids, .inters, .set .interpWeights]
  | .fcas => [.bids, .inters, .set .interpWeights, .gUnit, .gRegion, .gInter]
  | .generic => [.bids, .inters, .gUnit, .gRegion, .gInter]
  | .interpWeights => []
  | .tieBreak => []
  | _ => [.bids]

/-- The call sets constraints of ordinary constraint sets and no violation cost: it adds or replaces constraints and nothing
else. -/
def Op.constrains : Op → Bool
  | .capacity _ none | .uigf _ none | .rampRates _ _ _ _ none | .fastStart _ none | .demand _ none | .fcasReq _ none
  | .fcasMaxAvail _ none | .jointRamping _ _ _ none | .jointCapacity _ none | .energyReg _ none | .generic _ none => true
  | _ => false

/-- The parts of the market definition, other than those it is about, a call reads: setters of unit constraints for energy and
joint ramping constraints look at the volume bids, price bids at the volume bids, tie breaks at both kinds of bids, and
interconnector losses at the interconnectors. -/
def Op.needs : Op → List Part
  | .priceBids _ | .capacity _ _ | .uigf _ _ | .jointRamping _ _ _ _ => [.bids]
  | .losses _ _ => [.inters]
  | .tieBreak _ => [.bids, .prices]
  | _ => []

end Verif
