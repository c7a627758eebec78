import Verif.Spec.History

/-! # Specification: FCAS availability -/

namespace Verif

/-- The constraints `get_fcas_availability` is documented to consider (`markets.py:3671-3690`): maximum availability,
joint ramping, joint capacity, energy and regulation capacity, and the ramp rates of bidirectional units. -/
def consideredSets : List CKey := [.fcasMaxAvail, .jrRaise, .jrLower, .jointCapacity, .energyReg, .biRampUp, .biRampDown]

/-- `y` differs from `x` at most in the dispatch of the bids of one unit for one service and dispatch type. -/
def Market.onlyChanges (m : Market) (u : String) (s : Service) (d : DType) (x y : Nat → ℚ) : Prop :=
  ∀ v, (∀ b ∈ m.bids.getD [], b.unit = u → b.service = s → b.dtype = d → b.vid ≠ v) → y v = x v

/-- No considered constraint has a tiny coefficient for the unit and service: coefficients are zero or at least
0.00001 in absolute value. -/
def Market.noTinyCoefs (m : Market) (u : String) (s : Service) : Prop :=
  ∀ k ∈ consideredSets, ∀ c ∈ (m.unitCon.get? k).getD [], c.unit = u → c.service = s → c.coef = 0 ∨ 1 / 100000 ≤ c.coef ∨ c.coef ≤ -(1 / 100000)

end Verif
