import Verif.Model.Core

/-!
# Generic constraint data, `historical_inputs/constraints.py`

The tables are those of `XMLCacheManager`.  Codes of constraint types and services stay strings, because the maps at lines 71
and 74 raise `KeyError` for codes they do not have.
-/

namespace Verif.Cons

open Verif

/-- A row of `get_constraint_rhs` -/
structure RhsRow where
  set : String
  rhs : ℚ
  deriving DecidableEq, Repr

/-- A row of `get_constraint_type` -/
structure TypeRow where
  set : String
  type : String
  cost : ℚ
  deriving DecidableEq, Repr

/-- A row of `get_constraint_unit_lhs` (`who` is the unit) or of `get_constraint_region_lhs` (`who` is the region) -/
structure LhsRow where
  set : String
  who : String
  service : String
  coef : ℚ
  deriving DecidableEq, Repr

/-- The raw tables a `ConstraintData` is made from -/
structure Raw where
  rhs : List RhsRow
  types : List TypeRow
  unitLhs : List LhsRow
  regionLhs : List LhsRow
  deriving Repr

/-- A row of `get_rhs_and_type` -/
structure RhsType where
  set : String
  rhs : ℚ
  type : String
  deriving DecidableEq, Repr

/-- A row of `get_fcas_requirements` -/
structure Requirement where
  set : String
  service : String
  region : String
  type : String
  volume : ℚ
  deriving DecidableEq, Repr

/-- `constraints.py:71` -/
def typeMap : String → Except Err String
  | "LE" => .ok "<="
  | "EQ" => .ok "="
  | "GE" => .ok ">="
  | _ => .error .keyError

/-- `constraints.py:74-76` -/
def serviceMap : String → Except Err String
  | "ENOF" => .ok "energy"
  | "LDOF" => .ok "energy"
  | "DROF" => .ok "energy"
  | "L5RE" => .ok "lower_reg"
  | "R5RE" => .ok "raise_reg"
  | "R5MI" => .ok "raise_5min"
  | "L5MI" => .ok "lower_5min"
  | "R60S" => .ok "raise_60s"
  | "L60S" => .ok "lower_60s"
  | "R6SE" => .ok "raise_6s"
  | "L6SE" => .ok "lower_6s"
  | "R1SE" => .ok "raise_1s"
  | "L1SE" => .ok "lower_1s"
  | "BDOF" => .ok "energy"
  | _ => .error .keyError

/-- `constraints.py:70`: inner merge of the right hand sides with the types -/
def mergeTypes (rhs : List RhsRow) (types : List TypeRow) : List RhsType :=
  rhs.flatMap (fun r => (types.filter (fun t => decide (t.set = r.set))).map (fun t => ⟨r.set, r.rhs, t.type⟩))

/-- `constraints.py:72` for one row -/
def RhsType.symbol (r : RhsType) : Except Err RhsType :=
  match typeMap r.type with
  | .ok s => .ok { r with type := s }
  | .error e => .error e

/-- `constraints.py:79`, `81` for one row -/
def LhsRow.mapService (r : LhsRow) : Except Err LhsRow :=
  match serviceMap r.service with
  | .ok s => .ok { r with service := s }
  | .error e => .error e

/-- A `ConstraintData` object -/
structure Data where
  generic : List RhsType
  unitLhs : List LhsRow
  regionLhs : List LhsRow
  types : List TypeRow
  deriving Repr

/-- `constraints.py:65-83` -/
def load (r : Raw) : Except Err Data := do
  let generic ← (mergeTypes r.rhs r.types).mapM RhsType.symbol
  let unitLhs ← r.unitLhs.mapM LhsRow.mapService
  let regionLhs ← r.regionLhs.mapM LhsRow.mapService
  return ⟨generic, unitLhs, regionLhs, r.types⟩

/-- `constraints.py:85-87` and `get_fcas_requirements` (301-346): inner merge of the region coefficients with the right hand
sides -/
def Data.requirements (d : Data) : List Requirement :=
  d.regionLhs.flatMap (fun l =>
    (d.generic.filter (fun g => decide (g.set = l.set))).map (fun g => ⟨l.set, l.service, l.who, g.type, g.rhs⟩))

/-- `constraints.py:129` (`get_rhs_and_type_excluding_regional_fcas_constraints`) -/
def Data.excluding (d : Data) : List RhsType :=
  d.generic.filter (fun g => !decide (g.set ∈ d.requirements.map Requirement.set))

/-- `constraints.py:386` (`get_violation_costs`) -/
def Data.violationCosts (d : Data) : List (String × ℚ) := d.types.map (fun t => (t.set, t.cost))

end Verif.Cons
