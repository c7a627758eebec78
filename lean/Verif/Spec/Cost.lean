import Verif.Model.Market

/-!
# Specification: bids and their cost
-/

namespace Verif

/-- the (unit, service, dispatch type, band, volume) entries of a bid table -/
def bandsOf (bs : List BidRow) : List (String × Service × DType × String × ℚ) :=
  bs.flatMap (fun r => r.bands.map (fun b => (r.unit, r.service, r.dtype, b.1, b.2)))

/-- total volume bid by a unit for a service and dispatch type -/
def offered (bs : List BidRow) (u : String) (s : Service) (d : DType) : ℚ :=
  ((bs.filter (fun r => decide (r.unit = u ∧ r.service = s ∧ r.dtype = d))).map (fun r => (r.bands.map (·.2)).sum)).sum

/-- the price in the price bid table -/
def priceOf (ps : List BidRow) (u : String) (s : Service) (d : DType) (band : String) : Option ℚ :=
  (ps.find? (fun p => decide (p.unit = u ∧ p.service = s ∧ p.dtype = d))).bind (fun p =>
    (p.bands.find? (fun b => decide (b.1 = band))).map (·.2))

/-- the loss factor of a unit and dispatch type -/
def lossFactor (units : List UnitInfo) (u : String) (d : DType) : Option ℚ :=
  (units.find? (fun i => decide (i.unit = u ∧ i.dtype = d))).map (·.lf)

/-- Cost of one MW of a bid band at the regional reference node: energy is divided by the loss factor,
energy of loads is revenue.  Bands without price or unit row cost nothing. -/
def costOf (ps : List BidRow) (units : List UnitInfo) (u : String) (s : Service) (d : DType) (band : String) : ℚ :=
  match priceOf ps u s d band, lossFactor units u d with
  | some p, some f => if s = .energy then (if d = .load then -(p / f) else p / f) else p
  | _, _ => 0

/-- a table has every band column once -/
def BandsUnique (ps : List BidRow) : Prop := ∀ p ∈ ps, (p.bands.map (·.1)).Nodup

end Verif
