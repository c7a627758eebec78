import Verif.Model.Units

/-!
# Ramp rates and initial outputs, `historical_inputs/units.py`

Missing values (NaN) are `none`.
-/

namespace Verif.Units

open Verif

/-- A row of `get_bid_ramp_rates` (`units.py:244-251`) -/
structure RampOut where
  unit : String
  dtype : DType
  down : ℚ
  up : ℚ
  init : Option ℚ
  deriving DecidableEq, Repr

/-- `units.py:249`: a missing direction raises `KeyError` -/
def rampOut (q : VolBid × InitCond) : Except UErr RampOut :=
  match q.1.dir with
  | none => .error .keyError
  | some d => .ok ⟨q.1.duid, d, q.1.rampDown, q.1.rampUp, q.2.initMw⟩

/-- `units.py:244-251` (`get_bid_ramp_rates`): volume bids inner merged with initial outputs on the unit, then the energy
bids.  The index of the table is not modelled. -/
def Inputs.bidRampRates (i : Inputs) : Except UErr (List RampOut) :=
  ((i.bids.flatMap (fun b => (i.init.filter (fun c => decide (c.duid = b.duid))).map (fun c => (b, c)))).filter
    (fun q => decide (q.1.service = .energy))).mapM rampOut

/-- A row of `get_scada_ramp_rates` (`units.py:298-313`), `init` is the column that is only there if asked for -/
structure ScadaOut where
  unit : String
  down : Option ℚ
  up : Option ℚ
  init : Option ℚ
  deriving DecidableEq, Repr

/-- `units.py:298-313` (`get_scada_ramp_rates`): rows without both rates are left out -/
def Inputs.scadaRampRates (i : Inputs) : List ScadaOut :=
  (i.init.map (fun c => (⟨c.duid, c.rampDown, c.rampUp, c.initMw⟩ : ScadaOut))).filter
    (fun r => !(decide (r.up = none) && decide (r.down = none)))

/-- `units.py:353-355` (`get_initial_unit_output`) -/
def Inputs.initialOutput (i : Inputs) : List (String × Option ℚ) := i.init.map (fun c => (c.duid, c.initMw))

/-- `units.py:198-199` (`get_unit_uigf_limits`) -/
def Inputs.uigfLimits (i : Inputs) : List (String × ℚ) := i.uigf

end Verif.Units
