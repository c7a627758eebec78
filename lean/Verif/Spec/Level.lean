import Verif.Spec.Cost
import Verif.Spec.System

/-!
# Specification: another level of prices (C140)
-/

namespace Verif

/-- Price bids for energy of the second table are, at the regional reference node, higher by `c` than those of the first: the bids of
generators and loads are raised by `c` times the loss factor of the unit.  Price bids for other services are the same. -/
def PricesShifted (c : ℚ) (m : Market) (ps ps' : List BidRow) : Prop :=
  ∀ b ∈ m.bids.getD [], ∃ p p', priceOf ps b.unit b.service b.dtype b.band = some p ∧ priceOf ps' b.unit b.service b.dtype b.band = some p' ∧
    if b.service = .energy then ∀ f, lossFactor m.units b.unit b.dtype = some f → p' = p + c * f else p' = p

end Verif
