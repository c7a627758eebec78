import Verif.Spec.History
import Verif.Spec.Cost

/-!
# Specification: tied bids
-/

namespace Verif

/-- Two energy bid bands of different units of one region, on the same side of the market, with the same price after scaling by
the loss factors. -/
structure Tied (m : Market) (ps : List BidRow) (a b : BidVar) : Prop where
  left : a ∈ m.bids.getD []
  right : b ∈ m.bids.getD []
  energy : a.service = .energy ∧ b.service = .energy
  side : a.dtype = b.dtype
  units : a.unit ≠ b.unit
  region : ∃ u ∈ m.units, ∃ w ∈ m.units, u.unit = a.unit ∧ w.unit = b.unit ∧ u.region = w.region
  price : ∃ pa pb fa fb, priceOf ps a.unit .energy a.dtype a.band = some pa ∧ priceOf ps b.unit .energy b.dtype b.band = some pb ∧
    lossFactor m.units a.unit a.dtype = some fa ∧ lossFactor m.units b.unit b.dtype = some fb ∧ pa / fa = pb / fb

/-- The code names a pair of bands by sorting and joining the names of units and bands. -/
def pairName (a b : BidVar) : String := String.join ([a.unit, a.band, b.unit, b.band].insertionSort (· ≤ ·))

/-- No other pair of energy bands has the same name. -/
def NameUnique (m : Market) (a b : BidVar) : Prop :=
  ∀ c ∈ m.bids.getD [], ∀ d ∈ m.bids.getD [], c.service = .energy → d.service = .energy → c.dtype = d.dtype → c.unit ≠ d.unit →
    pairName c d = pairName a b → (c.vid = a.vid ∧ d.vid = b.vid) ∨ (c.vid = b.vid ∧ d.vid = a.vid)

end Verif
