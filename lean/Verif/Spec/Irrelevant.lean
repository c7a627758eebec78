import Verif.Spec.Soft

/-!
# Specification: further calls

Calls that only restrict the dispatch of a market or put a price on parts of it.
-/

namespace Verif

/-- The call leaves bids, prices, links, losses and the terms of generic constraints alone. -/
def Op.restricts (op : Op) : Prop :=
  ∀ p ∈ op.parts, p ∉ [Part.bids, .prices, .inters, .gUnit, .gRegion, .gInter, .set .interpWeights]

instance (op : Op) : Decidable op.restricts := by unfold Op.restricts; infer_instance

/-- The schedule `x` of the market defined by `ops` does what the call asks: it meets a call without a violation cost, and misses
nothing of a call with one. -/
def Op.satisfied (m : Market) (ops : List Op) (x : Nat → ℚ) (op : Op) : Prop :=
  (op.firm → op.meets m (lossesOf ops) x) ∧ ∀ p ∈ op.misses m ops x, p.2 = 0

end Verif
