import Verif.Spec.Comparative
import Verif.Spec.Cost

/-!
# Specification: price bids between two tables of price bids (C135)
-/

namespace Verif

/-- The three tables of price bids have prices for the same bands of the bids of the market, and the prices of the third lie at the share
`t` of the way from those of the first to those of the second. -/
def PricesBetween (t : ℚ) (m : Market) (ps ps' ps'' : List BidRow) : Prop :=
  ∀ b ∈ m.bids.getD [], ∃ p p', priceOf ps b.unit b.service b.dtype b.band = some p ∧ priceOf ps' b.unit b.service b.dtype b.band = some p' ∧
    priceOf ps'' b.unit b.service b.dtype b.band = some ((1 - t) * p + t * p')

end Verif
