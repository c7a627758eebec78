import Verif.Model.MmsDb
import Verif.Model.XmlCache

/-!
# More tables of the historical database, `historical_inputs/mms_db.py`
-/

namespace Verif.Mms

open Verif Verif.Xml

/-! ### Tables by market day -/

/-- `mms_db.py:1008-1016`: four hours and a second are taken off and the time is left out.  Seconds of the argument are zero. -/
def dayOf (t : Time) : Date := if t.minute * 60 < 4 * 3600 + 1 then t.date.prev else t.date

/-- `mms_db.py:939-1021` (`InputsByDay.get_data`): the rows with `00:00:00` of that day -/
def byDay {κ β : Type} (table : List (DispRow Time κ β)) (t : Time) : List (DispRow Time κ β) :=
  bySettlementDate table ⟨dayOf t, 0⟩

/-- `mms_db.py:876-930` (`InputsByIntervalDateTime.get_data`) -/
def byIntervalDateTime {τ κ β : Type} [DecidableEq τ] (table : List (DispRow τ κ β)) (t : τ) : List (DispRow τ κ β) :=
  table.filter (fun r => decide (r.time = t))

/-! ### Tables with versions of generic constraints -/

/-- A row of `GENCONDATA`, `SPDREGIONCONSTRAINT`, `SPDCONNECTIONPOINTCONSTRAINT` or `SPDINTERCONNECTORCONSTRAINT` -/
structure ConRow (τ κ β : Type) where
  constraint : κ
  date : τ
  version : ℚ
  data : β
  deriving DecidableEq, Repr

/-- `mms_db.py:1187-1197` (`InputsByMatchDispatchConstraints.get_data`): inner join with the rows of `DISPATCHCONSTRAINT` of the
time, whose data are `GENCONID_EFFECTIVEDATE` and `GENCONID_VERSIONNO`.  SQLite compares the text of the version with a number
as numbers; missing versions are not modelled. -/
def matchConstraints {τ κ β : Type} [DecidableEq τ] [DecidableEq κ] (rows : List (ConRow τ κ β))
    (dispatch : List (DispRow τ κ (τ × ℚ))) (t : τ) : List (ConRow τ κ β) :=
  rows.flatMap (fun r => ((bySettlementDate dispatch t).filter
    (fun d => decide (r.constraint = d.id ∧ r.date = d.data.1 ∧ r.version = d.data.2))).map (fun _ => r))

/-! ### Tables of one month -/

/-- A downloaded file: its columns, and rows that have a value in each of them -/
structure File (γ : Type) where
  columns : List String
  rows : List (String → γ)

/-- `mms_db.py:617-619`: missing columns are filled with NaN, other columns are left out -/
def fitColumns {γ : Type} (tableColumns : List String) (f : File γ) : List (List (String × Option γ)) :=
  f.rows.map (fun r => tableColumns.map (fun c => (c, if c ∈ f.columns then some (r c) else none)))

/-- `mms_db.py:551-622` (`_SingleDataSource.set_data`): a missing download leaves the table, otherwise it is replaced. -/
def setData {γ : Type} (tableColumns : List String) (old : List (List (String × Option γ))) :
    Option (File γ) → List (List (String × Option γ)) × Option DbErr
  | none => (old, some .missing)
  | some f => (fitColumns tableColumns f, none)

/-- several calls of `set_data`, the caller goes on after errors -/
def setDataAll {γ : Type} (tableColumns : List String) (old : List (List (String × Option γ))) (fs : List (Option (File γ))) :
    List (List (String × Option γ)) :=
  fs.foldl (fun table f => (setData tableColumns table f).1) old

/-! ### Which months are used by tables filled with all history -/

/-- `mms_db.py:787`: `set(self.table_columns) < set(data.columns)` -/
def hasColumns (tableColumns fileColumns : List String) : Bool :=
  tableColumns.all (fun c => decide (c ∈ fileColumns)) && fileColumns.any (fun c => !decide (c ∈ tableColumns))

/-- `mms_db.py:785-789`: the rows of a month that are used -/
def usedMonth {γ : Type} (tableColumns : List String) : Option (File γ) → Option (List (List (String × γ)))
  | none => none
  | some f =>
    if hasColumns tableColumns f.columns then some (f.rows.map (fun r => tableColumns.map (fun c => (c, r c)))) else none

end Verif.Mms
