import Verif.Spec.Cost
import Verif.Spec.Merit

/-!
# Specification: price changes that leave a dispatch as it is (C138)
-/

namespace Verif

/-- A change of the price of a band from `p` to `p'` does not make it cheaper for the market: loads pay for energy, all others are paid. -/
def BidVar.noCheaper (b : BidVar) (p p' : ℚ) : Prop := if b.service = .energy ∧ b.dtype = .load then p' ≤ p else p ≤ p'

/-- The bands a dispatch does not use do not become cheaper, the bands it uses completely do not become dearer, and the prices of all
others stay as they are. -/
def PricesKeep (m : Market) (ps ps' : List BidRow) (x : Nat → ℚ) : Prop :=
  ∀ b ∈ m.bids.getD [], ∃ p p', priceOf ps b.unit b.service b.dtype b.band = some p ∧ priceOf ps' b.unit b.service b.dtype b.band = some p' ∧
    (p' = p ∨ (x b.vid = 0 ∧ b.noCheaper p p') ∨ (x b.vid = b.ub ∧ b.noCheaper p' p))

/-- Only bands that a dispatch does not use change their price. -/
def OnlyUnused (m : Market) (ps ps' : List BidRow) (x : Nat → ℚ) : Prop :=
  ∀ b ∈ m.bids.getD [], x b.vid ≠ 0 → priceOf ps' b.unit b.service b.dtype b.band = priceOf ps b.unit b.service b.dtype b.band

end Verif
