import Verif.Model.UnitRamps
import Verif.Spec.UnitInfo
import Verif.Spec.BidScaling

/-!
# Specification: from historical unit data to the market

How rows of the tables returned by `UnitData` are passed to the market.
-/

namespace Verif.Units

open Verif

/-- a row of bid ramp rates passed to `set_unit_ramp_rate_constraints`, where the initial output has to be a number -/
def RampOut.toMarket (r : RampOut) : Option RampRow :=
  r.init.map (fun x => { unit := r.unit, dtype := r.dtype, init := x, up := r.up, down := r.down })

/-- a row of telemetered ramp rates passed to `set_unit_ramp_rate_constraints` -/
def ScadaOut.toMarket (s : ScadaOut) : Scada := { unit := s.unit, up := s.up, down := s.down }

/-- a trapezium passed to `set_joint_capacity_constraints` or `set_energy_and_regulation_capacity_constraints` -/
def TrapRow.toMarket (t : TrapRow) : Trap :=
  { unit := t.unit, service := t.service, dtype := t.dtype, maxAvail := t.maxAvail, emin := t.emin, lbp := t.lbp,
    hbp := t.hbp, emax := t.emax }

/-- a row passed to `set_fcas_max_availability` -/
def TrapRow.toLimit (t : TrapRow) : Lim :=
  { unit := t.unit, service := t.service, dtype := t.dtype, val := t.maxAvail }

/-- a row of bid availabilities passed to `set_unit_bid_capacity_constraints` -/
def capacityLimit (r : String × DType × ℚ) : Lim := { unit := r.1, dtype := r.2.1, val := r.2.2 }

/-- a row of forecasts passed to `set_unconstrained_intermittent_generation_forecast_constraint` -/
def forecastLimit (u : String × ℚ) : Lim := { unit := u.1, val := u.2 }

end Verif.Units
