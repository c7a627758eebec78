import Verif.Model.Units
import Verif.Model.Market

/-!
# Specification: unit information and prices of historical bids
-/

namespace Verif.Units

/-- The loss factor of a unit in a direction: the generation side of a bidirectional unit has the secondary transmission
loss factor if there is one. -/
def LossFactorOf (traderType : String) (dir : DType) (d : Details) : ℚ :=
  if traderType = "BIDIRECTIONAL" ∧ dir = .generator then d.secondary.getD d.tlf * d.dlf else d.tlf * d.dlf

/-- the columns `'1'` to `'10'` -/
def bandNames : List String := ["1", "2", "3", "4", "5", "6", "7", "8", "9", "10"]

/-- a row of bids as it is passed to the market -/
def BidRow.toMarket (b : BidRow) : Verif.BidRow :=
  { unit := b.unit, service := b.service, dtype := b.dtype, bands := bandNames.zip b.bands }

/-- a row of unit information as it is passed to the market -/
def Info.toMarket (u : Info) : UnitInfo := { unit := u.unit, region := u.region, lf := u.lossFactor, dtype := u.dtype }

/-- the state after calls in this order -/
def runCalls (i : Inputs) (cs : List Call) : State := cs.foldl (fun s c => (c.run i s).1) {}

/-- the trapezium of an FCAS bid in a direction -/
def VolBid.trapIn (b : VolBid) (d : DType) : TrapRow :=
  ⟨b.duid, b.service, d, b.maxAvail, b.emin, b.lbp, b.hbp, b.emax⟩

end Verif.Units
