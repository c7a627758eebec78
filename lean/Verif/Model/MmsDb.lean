import Verif.Model.Core
import Mathlib.Order.Defs.LinearOrder

/-!
# The historical database, `historical_inputs/mms_db.py`

Dates and times are strings of the fixed format `%Y/%m/%d %H:%M:%S`, which SQLite and pandas compare as text.  The model has
any linearly ordered type `τ` in their place.  Values of the other columns are one value of a type `β`.  Downloads are
arguments of the model: a file, or nothing when the file is missing.  Missing dates and version numbers are not modelled.
-/

namespace Verif.Mms

open Verif

/-- Exceptions of the modelled functions -/
inductive DbErr
  /-- `_MissingData`, `mms_db.py:370-374` -/
  | missing
  /-- `sqlite3.IntegrityError` of the primary key, `mms_db.py:526` -/
  | integrity
  deriving DecidableEq, Repr

/-! ### Months -/

/-- `mms_db.py:277-280`: months of a year, left at the month after the last one -/
def yearMonths (endYear endMonth year startMonth : ℕ) : List ℕ :=
  (List.range' startMonth (13 - startMonth)).takeWhile (fun m => !decide (year = endYear ∧ m = endMonth + 1))

/-- `mms_db.py:276-294`: `finished` stops the loop over the years, `start_month` is 1 from the second year. -/
def monthLoop (endYear endMonth : ℕ) : List ℕ → ℕ → List (ℕ × ℕ)
  | [], _ => []
  | y :: ys, startMonth =>
    (yearMonths endYear endMonth y startMonth).map (fun m => (y, m)) ++
      if y = endYear ∧ endMonth + 1 ∈ List.range' startMonth (13 - startMonth) then [] else monthLoop endYear endMonth ys 1

/-- `mms_db.py:268-272`: the month before the start -/
def monthBefore (year month : ℕ) : ℕ × ℕ := if month = 1 then (year - 1, 12) else (year, month - 1)

/-- `mms_db.py:264-294`: the months `populate` adds to the dispatch tables, in order.  Years are natural numbers. -/
def populateMonths (startYear startMonth endYear endMonth : ℕ) : List (ℕ × ℕ) :=
  monthLoop endYear endMonth
    (List.range' (monthBefore startYear startMonth).1 (endYear + 1 - (monthBefore startYear startMonth).1))
    (monthBefore startYear startMonth).2

/-- `mms_db.py:780-783`: months of `_AllHistDataSource.set_data`, from the newest to January 2010 -/
def historyMonths (year month : ℕ) : List (ℕ × ℕ) :=
  ((List.range' 2010 (year + 1 - 2010)).reverse).flatMap (fun y =>
    (((List.range' 1 12).reverse).filter (fun m => !decide (y = year ∧ m > month))).map (fun m => (y, m)))

/-! ### Tables filled month by month -/

/-- A row of a dispatch table: primary key (time and id) and the rest -/
structure DispRow (τ κ β : Type) where
  time : τ
  id : κ
  data : β
  deriving DecidableEq, Repr

/-- A row of a downloaded file: `INTERVENTION` is `none` when the file has no such column -/
structure FileRow (τ κ β : Type) where
  intervention : Option ℚ
  row : DispRow τ κ β
  deriving DecidableEq, Repr

/-- the primary key `SETTLEMENTDATE` and id -/
def DispRow.key {τ κ β : Type} (r : DispRow τ κ β) : τ × κ := (r.time, r.id)

/-- `mms_db.py:698-699`: rows of intervention runs are left out -/
def FileRow.kept {τ κ β : Type} (f : FileRow τ κ β) : Bool :=
  match f.intervention with
  | none => true
  | some v => decide (v = 0)

/-- `mms_db.py:698-702`: rows of the file that are inserted -/
def fileData {τ κ β : Type} [DecidableEq τ] [DecidableEq κ] (file : List (FileRow τ κ β)) : List (DispRow τ κ β) :=
  dropDup DispRow.key ((file.filter FileRow.kept).map FileRow.row)

/-- `mms_db.py:631-705` (`add_data`): the primary key of the table lets no key in twice, then the insertion is rolled back -/
def addData {τ κ β : Type} [DecidableEq τ] [DecidableEq κ] (table : List (DispRow τ κ β))
    (download : Option (List (FileRow τ κ β))) : Except DbErr (List (DispRow τ κ β)) :=
  match download with
  | none => .error .missing
  | some file =>
    if ∃ r ∈ fileData file, ∃ q ∈ table, q.key = r.key then .error .integrity else .ok (table ++ fileData file)

/-- `mms_db.py:276-289` for one table -/
def addMonths {τ κ β : Type} [DecidableEq τ] [DecidableEq κ] (download : ℕ × ℕ → Option (List (FileRow τ κ β))) :
    List (ℕ × ℕ) → List (DispRow τ κ β) → Except DbErr (List (DispRow τ κ β))
  | [], table => .ok table
  | m :: ms, table =>
    match addData table (download m) with
    | .error e => .error e
    | .ok t => addMonths download ms t

/-- `mms_db.py:264-294` (`populate`) for one dispatch table: `create_tables` (line 266) drops what the table had
(`mms_db.py:525`) -/
def populate {τ κ β : Type} [DecidableEq τ] [DecidableEq κ] (download : ℕ × ℕ → Option (List (FileRow τ κ β)))
    (startYear startMonth endYear endMonth : ℕ) (_old : List (DispRow τ κ β)) : Except DbErr (List (DispRow τ κ β)) :=
  addMonths download (populateMonths startYear startMonth endYear endMonth) []

/-- `mms_db.py:865-867` (`InputsBySettlementDate.get_data`) -/
def bySettlementDate {τ κ β : Type} [DecidableEq τ] (table : List (DispRow τ κ β)) (t : τ) : List (DispRow τ κ β) :=
  table.filter (fun r => decide (r.time = t))

/-! ### Tables with effective dates -/

/-- A row of a table with effective dates: `id` is the values of the primary key without date and version -/
structure EffRow (τ κ β : Type) where
  id : κ
  date : τ
  version : ℚ
  data : β
  deriving DecidableEq, Repr

section
variable {τ κ β : Type} [LinearOrder τ] [DecidableEq κ]

/-- SQL `MAX` over a group with a first element -/
def maxOf {α : Type} [LinearOrder α] (a : α) (l : List α) : α := l.foldl max a

/-- `mms_db.py:1405-1415`: rows in effect, the highest version for each id and date.  `VERSIONNO` is compared as a number:
`set_data` (lines 620-622) replaces the table, with the column types of the data frame. -/
def latestVersions (rows : List (EffRow τ κ β)) (t : τ) : List (κ × τ × ℚ) :=
  let temp := rows.filter (fun r => decide (r.date ≤ t))
  (dropDup (fun r => (r.id, r.date)) temp).map (fun g =>
    (g.id, g.date, maxOf g.version ((temp.filter (fun r => decide ((r.id, r.date) = (g.id, g.date)))).map EffRow.version)))

/-- the row with the highest date, as SQLite takes the bare column `VERSIONNO` from the row with `max(EFFECTIVEDATE)` -/
def lastDate (g : κ × τ × ℚ) (l : List (κ × τ × ℚ)) : κ × τ × ℚ :=
  l.foldl (fun a b => if a.2.1 < b.2.1 then b else a) g

/-- `mms_db.py:1416-1421`: for each id the highest date and its version -/
def latestDates (temp2 : List (κ × τ × ℚ)) : List (κ × τ × ℚ) :=
  (dropDup (fun g => g.1) temp2).map (fun g => lastDate g (temp2.filter (fun r => decide (r.1 = g.1))))

/-- `mms_db.py:1330-1433` (`InputsByEffectiveDateVersionNo.get_data`): the table inner joined with the ids, dates and versions -/
def byEffectiveDate (rows : List (EffRow τ κ β)) (t : τ) : List (EffRow τ κ β) :=
  rows.flatMap (fun r => ((latestDates (latestVersions rows t)).filter
    (fun g => decide (g.1 = r.id ∧ g.2.2 = r.version ∧ g.2.1 = r.date))).map (fun _ => r))

/-- `mms_db.py:1205-1321` (`InputsByEffectiveDateVersionNoAndDispatchInterconnector.get_data`): also joined with the
interconnectors dispatched at the time.  The id of these tables is the interconnector. -/
def byEffectiveDateAndDispatch {γ : Type} (rows : List (EffRow τ κ β)) (dispatch : List (DispRow τ κ γ)) (t : τ) :
    List (EffRow τ κ β) :=
  (byEffectiveDate rows t).flatMap (fun r =>
    ((bySettlementDate dispatch t).filter (fun d => decide (d.id = r.id))).map (fun _ => r))

/-! ### Tables with start and end dates -/

/-- A row of `DUDETAILSUMMARY` -/
structure SpanRow (τ κ β : Type) where
  id : κ
  start : τ
  finish : τ
  data : β
  deriving DecidableEq, Repr

/-- `drop_duplicates(keep='last')` -/
def dropDupLast {α ι : Type} [DecidableEq ι] (key : α → ι) (l : List α) : List α := (dropDup key l.reverse).reverse

/-- `mms_db.py:1098-1103` (`InputsStartAndEnd.get_data`).  `sort` is `sort_values('START_DATE')`, an argument because the
algorithm of pandas is not stable. -/
def byStart (sort : List (SpanRow τ κ β) → List (SpanRow τ κ β)) (rows : List (SpanRow τ κ β)) (t : τ) :
    List (SpanRow τ κ β) :=
  dropDupLast SpanRow.id (sort (rows.filter (fun r => decide (r.start ≤ t))))

end

/-! ### Tables filled with all history -/

section
variable {ρ κ : Type} [DecidableEq κ]

/-- `mms_db.py:790-801`: what one month does to the table and to the keys collected so far.  Simplified: the outer merge of pandas
sorts the new rows by the key columns, here they keep the order of the file. -/
def histStep (key : ρ → κ) (s : List ρ × List κ) (data : List ρ) : List ρ × List κ :=
  if s.2 = [] then (data, data.map key)
  else
    let new := data.filter (fun r => !decide (key r ∈ s.2))
    (s.1 ++ new, s.2 ++ new.map key)

/-- `mms_db.py:784-804`: a month that is missing, or that does not have the columns (line 787), changes nothing. -/
def histMonth (key : ρ → κ) (s : List ρ × List κ) : Option (List ρ) → List ρ × List κ
  | none => s
  | some data => histStep key s data

/-- `mms_db.py:715-804` (`_AllHistDataSource.set_data`): months that are missing, or that do not have the columns (line 787), are
`none` and skipped. -/
def histLoad (key : ρ → κ) (months : List (Option (List ρ))) (old : List ρ) : List ρ :=
  (months.foldl (histMonth key) (old, [])).1

/-- `mms_db.py:715-804` with the months of `historyMonths` -/
def setHistory (key : ρ → κ) (download : ℕ × ℕ → Option (List ρ)) (year month : ℕ) (old : List ρ) : List ρ :=
  histLoad key ((historyMonths year month).map download) old

end

end Verif.Mms
