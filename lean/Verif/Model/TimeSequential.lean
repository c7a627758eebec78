import Verif.Model.Outputs

/-!
# Helpers for chains of dispatch intervals, `time_sequential.py` and `helper_functions.py`
-/

namespace Verif

/-- A row of `ramp_rates` (`time_sequential.py:40-49`); NaN is `none`.  The column `dispatch_type` is not documented but
passed through and used by `set_unit_ramp_rate_constraints`. -/
structure RampRates where
  unit : String
  dtype : DType := .generator
  up : Option ℚ
  down : Option ℚ
  deriving DecidableEq, Repr

/-- `time_sequential.py:69-74` (`construct_ramp_rate_parameters`): the energy rows of the dispatch table are right merged
with the ramp rates on the unit, so every ramp rate row gives a row for each matching dispatch row and one row with
missing initial output if there is none; then all missing values become 0. -/
def constructRampRates (last : List DispatchRow) (rates : List RampRates) : List RampRow :=
  rates.flatMap (fun r =>
    match (last.filter (fun d => decide (d.service = .energy))).filter (fun d => decide (d.unit = r.unit)) with
    | [] => [{ unit := r.unit, dtype := r.dtype, init := 0, up := r.up.getD 0, down := r.down.getD 0 }]
    | ds => ds.map (fun d => { unit := r.unit, dtype := r.dtype, init := d.dispatch, up := r.up.getD 0, down := r.down.getD 0 }))

/-- `time_sequential.py:137` (`create_seed_ramp_rate_parameters`): inner merge on the unit. -/
def seedRampRates (hist : List (String × ℚ)) (rates : List RampRow) : List RampRow :=
  hist.flatMap (fun h => (rates.filter (fun r => decide (r.unit = h.1))).map (fun r => { r with init := h.2 }))

/-- A row of a constraint table with sets: the value columns `rhs` and `volume` may be missing values and `rest` stands
for all other columns. -/
structure RhsRow where
  set : String
  volume : Option ℚ := none
  rhs : Option ℚ := none
  rest : List (String × String) := []
  deriving DecidableEq, Repr

/-- `helper_functions.py:52-54`: the new value if there is one, in the column `volume` if the table has it -/
def RhsRow.update (hasVolume : Bool) (r : RhsRow) : Option ℚ → RhsRow
  | none => r
  | some v => if hasVolume then { r with volume := some v } else { r with rhs := some v }

/-- `helper_functions.py:45-56` (`update_rhs_values`): a left merge on the set. -/
def updateRhsValues (hasVolume : Bool) (rows : List RhsRow) (new : List (String × Option ℚ)) : List RhsRow :=
  rows.flatMap (fun r =>
    match new.filter (fun n => decide (n.1 = r.set)) with
    | [] => [r]
    | ns => ns.map (fun n => r.update hasVolume n.2))

end Verif
