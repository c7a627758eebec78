import Verif.Spec.Regional
import Verif.Spec.Cost

/-!
# Specification: merit order
-/

namespace Verif

/-- All calls of the history that led to `m` are of this kind. -/
def CallsOnly (p : Op → Prop) (m : Market) : Prop :=
  ∃ (regions : List String) (units : List UnitInfo) (di : ℚ) (m0 : Market) (ops : List Op),
    Market.init regions units di = .ok m0 ∧ Benign m0 ops ∧ (∀ o ∈ ops, p o) ∧ m = m0.run ops

/-- Calls that set no constraint on the dispatch of single units: bids, demand, FCAS requirements, interconnectors,
losses, generic constraints of regions and interconnectors, and making these elastic. -/
def Op.regional : Op → Bool
  | .volumeBids _ => true
  | .priceBids _ => true
  | .demand _ _ => true
  | .fcasReq _ _ => true
  | .interconnectors _ => true
  | .losses _ _ => true
  | .generic _ _ => true
  | .linkRegions _ => true
  | .linkInters _ => true
  | .elastic k _ => decide (k = .demand ∨ k = .fcas ∨ k = .generic ∨ k = .interpWeights)
  | _ => false

/-- Two bids are for the same service and, for energy, the same dispatch type, from units of the same region. -/
def SameMarket (m : Market) (a b : BidVar) : Prop :=
  a.service = b.service ∧ (a.service = .energy → a.dtype = b.dtype) ∧
  ∃ i ∈ m.units, ∃ j ∈ m.units, i.unit = a.unit ∧ i.dtype = a.dtype ∧ j.unit = b.unit ∧ j.dtype = b.dtype ∧
    i.region = j.region

/-- The cost in the objective of one MW of a bid. -/
def BidVar.price (ps : List BidRow) (m : Market) (a : BidVar) : ℚ := costOf ps m.units a.unit a.service a.dtype a.band

end Verif
