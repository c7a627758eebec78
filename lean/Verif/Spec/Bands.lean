import Verif.Spec.Soft

/-!
# Specification: volume offered at a price
-/

namespace Verif

/-- Volume a unit offers for a service and dispatch type at the price `p` (`none`: without a price), over all bands of at least
0.0001 MW. -/
def volumeAt (vs ps : List BidRow) (u : String) (s : Service) (d : DType) (p : Option ℚ) : ℚ :=
  (((bandsOf vs).filter (fun e => decide (e.1 = u ∧ e.2.1 = s ∧ e.2.2.1 = d ∧ 1 / 10000 ≤ e.2.2.2.2 ∧
    priceOf ps u s d e.2.2.2.1 = p))).map (fun e => e.2.2.2.2)).sum

/-- The call is `set_unit_volume_bids` or `set_unit_price_bids`. -/
def Op.isBid : Op → Bool
  | .volumeBids _ => true
  | .priceBids _ => true
  | _ => false

/-- Two markets are made by the same calls apart from their bids, which offer the same volume at every price: `m` has the volumes `vs`
and prices `ps`, `m'` has `vs'` and `ps'`. -/
structure SameOffers (ops ops' : List Op) (m m' : Market) (vs ps vs' ps' : List BidRow) : Prop where
  made : MadeBy ops m
  made' : MadeBy ops' m'
  units : m'.units = m.units
  di : m'.di = m.di
  others : ops'.filter (fun op => !op.isBid) = ops.filter (fun op => !op.isBid)
  volumes : Op.volumeBids vs ∈ ops
  volumes' : Op.volumeBids vs' ∈ ops'
  prices : Op.priceBids ps ∈ ops
  prices' : Op.priceBids ps' ∈ ops'
  noTies : ∀ c, Op.tieBreak c ∉ ops
  same : ∀ u s d p, volumeAt vs' ps' u s d p = volumeAt vs ps u s d p

/-- Two markets are made by the same calls apart from their bids: whatever `m` is offered at a price, `m'` is offered at least as much at that
price, and no unit offers a service, or a side of it, in `m'` that it does not offer in `m`. -/
structure MoreOffers (ops ops' : List Op) (m m' : Market) (vs ps vs' ps' : List BidRow) : Prop where
  made : MadeBy ops m
  made' : MadeBy ops' m'
  units : m'.units = m.units
  di : m'.di = m.di
  others : ops'.filter (fun op => !op.isBid) = ops.filter (fun op => !op.isBid)
  volumes : Op.volumeBids vs ∈ ops
  volumes' : Op.volumeBids vs' ∈ ops'
  prices : Op.priceBids ps ∈ ops
  prices' : Op.priceBids ps' ∈ ops'
  noTies : ∀ c, Op.tieBreak c ∉ ops
  more : ∀ u s d p, volumeAt vs ps u s d p ≤ volumeAt vs' ps' u s d p
  sides : ∀ u s d, (∃ p, 0 < volumeAt vs' ps' u s d p) → ∃ p, 0 < volumeAt vs ps u s d p

/-- Two markets are made by the same calls apart from their bids, and the same units offer the same services, and sides of them, in both. -/
structure OtherOffers (ops ops' : List Op) (m m' : Market) (vs ps vs' ps' : List BidRow) : Prop where
  made : MadeBy ops m
  made' : MadeBy ops' m'
  units : m'.units = m.units
  di : m'.di = m.di
  others : ops'.filter (fun op => !op.isBid) = ops.filter (fun op => !op.isBid)
  volumes : Op.volumeBids vs ∈ ops
  volumes' : Op.volumeBids vs' ∈ ops'
  prices : Op.priceBids ps ∈ ops
  prices' : Op.priceBids ps' ∈ ops'
  noTies : ∀ c, Op.tieBreak c ∉ ops
  sides : ∀ u s d, (∃ p, 0 < volumeAt vs' ps' u s d p) ↔ ∃ p, 0 < volumeAt vs ps u s d p

/-- What a schedule takes of the volume a unit offers for a service and dispatch type at the price `p`. -/
def Market.takenAt (m : Market) (ps : List BidRow) (x : Nat → ℚ) (u : String) (s : Service) (d : DType) (p : Option ℚ) : ℚ :=
  (((m.bids.getD []).filter (fun b => decide (b.unit = u ∧ b.service = s ∧ b.dtype = d ∧ priceOf ps u s d b.band = p))).map (fun b => x b.vid)).sum

/-- The schedules `x` of `m` and `x'` of `m'` dispatch every unit the same for every service, and have the same flows and losses. -/
structure SameResults (m m' : Market) (x x' : Nat → ℚ) : Prop where
  dispatched : m'.dispatched x' = m.dispatched x
  flow : m'.flow x' = m.flow x
  linkLoss : m'.linkLoss x' = m.linkLoss x

end Verif
