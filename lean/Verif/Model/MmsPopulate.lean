import Verif.Model.MmsDays
import Mathlib.Logic.Function.Basic

/-!
# The whole database: `DBManager.create_tables`, `DBManager.populate` and the addresses of downloads, `historical_inputs/mms_db.py`
-/

namespace Verif.Mms

open Verif Verif.Xml

/-- `mms_db.py:121-195` (`DBManager.__init__`): tables with `add_data` (`InputsBySettlementDate`, line 807) -/
def dispatchTables : List String :=
  ["DISPATCHREGIONSUM", "DISPATCHLOAD", "DISPATCHPRICE", "DISPATCHCONSTRAINT", "DISPATCHINTERCONNECTORRES"]

/-- `mms_db.py:145-200`: tables of one month (`_SingleDataSource`, lines 1024, 1199, 1324, 1436) and their columns -/
def monthTables : List (String × List String) :=
  [("DUDETAILSUMMARY", ["DUID", "START_DATE", "END_DATE", "DISPATCHTYPE", "CONNECTIONPOINTID", "REGIONID",
      "TRANSMISSIONLOSSFACTOR", "DISTRIBUTIONLOSSFACTOR", "SCHEDULE_TYPE", "SECONDARY_TLF"]),
   ("DUDETAIL", ["DUID", "EFFECTIVEDATE", "VERSIONNO", "REGISTEREDCAPACITY"]),
   ("INTERCONNECTOR", ["INTERCONNECTORID", "REGIONFROM", "REGIONTO"]),
   ("INTERCONNECTORCONSTRAINT", ["INTERCONNECTORID", "EFFECTIVEDATE", "VERSIONNO", "FROMREGIONLOSSSHARE", "LOSSCONSTANT",
      "ICTYPE", "LOSSFLOWCOEFFICIENT", "IMPORTLIMIT", "EXPORTLIMIT"]),
   ("LOSSMODEL", ["INTERCONNECTORID", "EFFECTIVEDATE", "VERSIONNO", "LOSSSEGMENT", "MWBREAKPOINT"]),
   ("LOSSFACTORMODEL", ["INTERCONNECTORID", "EFFECTIVEDATE", "VERSIONNO", "REGIONID", "DEMANDCOEFFICIENT"]),
   ("MNSP_INTERCONNECTOR", ["INTERCONNECTORID", "LINKID", "EFFECTIVEDATE", "VERSIONNO", "FROMREGION", "TOREGION",
      "FROM_REGION_TLF", "TO_REGION_TLF", "LHSFACTOR", "MAXCAPACITY"])]

/-- `mms_db.py:158-174`: tables of all history (`_AllHistDataSource`, line 1107), their columns and primary keys -/
def historyTables : List (String × List String × List String) :=
  [("GENCONDATA", ["GENCONID", "EFFECTIVEDATE", "VERSIONNO", "CONSTRAINTTYPE", "GENERICCONSTRAINTWEIGHT"],
      ["GENCONID", "EFFECTIVEDATE", "VERSIONNO"]),
   ("SPDREGIONCONSTRAINT", ["REGIONID", "EFFECTIVEDATE", "VERSIONNO", "GENCONID", "BIDTYPE", "FACTOR"],
      ["REGIONID", "GENCONID", "EFFECTIVEDATE", "VERSIONNO", "BIDTYPE"]),
   ("SPDCONNECTIONPOINTCONSTRAINT", ["CONNECTIONPOINTID", "EFFECTIVEDATE", "VERSIONNO", "GENCONID", "BIDTYPE", "FACTOR"],
      ["CONNECTIONPOINTID", "GENCONID", "EFFECTIVEDATE", "VERSIONNO", "BIDTYPE"]),
   ("SPDINTERCONNECTORCONSTRAINT", ["INTERCONNECTORID", "EFFECTIVEDATE", "VERSIONNO", "GENCONID", "FACTOR"],
      ["INTERCONNECTORID", "GENCONID", "EFFECTIVEDATE", "VERSIONNO"])]

/-- The database.  Tables of the three kinds have rows as in the model of their class; names that are not those of
`DBManager.__init__` are tables of others in the same database. -/
structure Db (τ κ β γ : Type) where
  dispatch : String → List (DispRow τ κ β)
  month : String → List (List (String × Option γ))
  history : String → List (List (String × γ))

/-- What the archive has at the addresses of a table and a month, if anything -/
structure Archive (τ κ β γ : Type) where
  dispatch : String → ℕ × ℕ → Option (List (FileRow τ κ β))
  file : String → ℕ × ℕ → Option (File γ)

/-- The calls of `populate`: `add_data`, and `set_data` of the two kinds of tables -/
inductive Load
  | add (table : String) (month : ℕ × ℕ)
  | set (table : String × List String) (month : ℕ × ℕ)
  | history (table : String × List String × List String) (month : ℕ × ℕ)
  deriving DecidableEq, Repr

section
variable {τ κ β γ : Type} [DecidableEq τ] [DecidableEq κ] [DecidableEq γ]

/-- `mms_db.py:202-257` (`create_tables`), `mms_db.py:483-532`: every table of the manager is dropped and made again without
rows. -/
def createTables (db : Db τ κ β γ) : Db τ κ β γ where
  dispatch := fun t => if t ∈ dispatchTables then [] else db.dispatch t
  month := fun t => if t ∈ monthTables.map Prod.fst then [] else db.month t
  history := fun t => if t ∈ historyTables.map Prod.fst then [] else db.history t

/-- the values of the primary key, `mms_db.py:792-801` -/
def rowKey (keys : List String) (row : List (String × γ)) : List (String × γ) := row.filter (fun p => decide (p.1 ∈ keys))

/-- One call.  `mms_db.py:631-705` (`add_data`), `551-622` and `715-804` (`set_data`).  The insertion of rows is one transaction
(lines 703-705, 620-622): with an exception the table is as before.  `set_data` of history skips months that are missing. -/
def Load.run (a : Archive τ κ β γ) (db : Db τ κ β γ) : Load → Db τ κ β γ × Option DbErr
  | .add t m =>
    match addData (db.dispatch t) (a.dispatch t m) with
    | .error e => (db, some e)
    | .ok rows => ({ db with dispatch := Function.update db.dispatch t rows }, none)
  | .set t m =>
    ({ db with month := Function.update db.month t.1 (setData t.2 (db.month t.1) (a.file t.1 m)).1 },
      (setData t.2 (db.month t.1) (a.file t.1 m)).2)
  | .history t m =>
    let rows := setHistory (rowKey t.2.2) (fun m => usedMonth t.2.1 (a.file t.1 m)) m.1 m.2 (db.history t.1)
    ({ db with history := Function.update db.history t.1 rows }, none)

/-- Calls one after the other, until one raises -/
def runLoads (a : Archive τ κ β γ) : List Load → Db τ κ β γ → Db τ κ β γ × Option DbErr
  | [], db => (db, none)
  | l :: ls, db =>
    match l.run a db with
    | (db', some e) => (db', some e)
    | (db', none) => runLoads a ls db'

/-- `mms_db.py:285-289`: the order of the dispatch tables in the loop -/
def addOrder : List String :=
  ["DISPATCHINTERCONNECTORRES", "DISPATCHREGIONSUM", "DISPATCHLOAD", "DISPATCHCONSTRAINT", "DISPATCHPRICE"]

/-- columns of a table of one month -/
def monthTable (name : String) : String × List String := (name, ((monthTables.find? (fun t => t.1 = name)).map Prod.snd).getD [])

/-- columns and keys of a table of all history -/
def historyTable (name : String) : String × List String × List String :=
  (name, ((historyTables.find? (fun t => t.1 = name)).map Prod.snd).getD ([], []))

/-- `mms_db.py:297-308`: `set_data` for the last month, `INTERCONNECTOR` twice -/
def lastLoads (m : ℕ × ℕ) : List Load :=
  [.set (monthTable "INTERCONNECTOR") m, .set (monthTable "LOSSFACTORMODEL") m, .set (monthTable "LOSSMODEL") m,
   .set (monthTable "DUDETAILSUMMARY") m, .set (monthTable "INTERCONNECTORCONSTRAINT") m,
   .history (historyTable "GENCONDATA") m, .history (historyTable "SPDCONNECTIONPOINTCONSTRAINT") m,
   .history (historyTable "SPDREGIONCONSTRAINT") m, .history (historyTable "SPDINTERCONNECTORCONSTRAINT") m,
   .set (monthTable "INTERCONNECTOR") m, .set (monthTable "MNSP_INTERCONNECTOR") m, .set (monthTable "DUDETAIL") m]

/-- `mms_db.py:264-308`: all calls of `populate` -/
def populateLoads (startYear startMonth endYear endMonth : ℕ) : List Load :=
  (populateMonths startYear startMonth endYear endMonth).flatMap (fun m => addOrder.map (fun t => .add t m)) ++
    lastLoads (endYear, endMonth)

/-- `mms_db.py:264-308` (`DBManager.populate`), printing left out -/
def populateAll (a : Archive τ κ β γ) (startYear startMonth endYear endMonth : ℕ) (db : Db τ κ β γ) : Db τ κ β γ × Option DbErr :=
  runLoads a (populateLoads startYear startMonth endYear endMonth) (createTables db)

/-- A `populate` that is broken off (by the user or by a crash) after `n` of its calls returned -/
def brokenOff (a : Archive τ κ β γ) (startYear startMonth endYear endMonth n : ℕ) (db : Db τ κ β γ) : Db τ κ β γ :=
  (runLoads a ((populateLoads startYear startMonth endYear endMonth).take n) (createTables db)).1

end

/-! ### Addresses of downloads -/

/-- `mms_db.py:472-481`, `mms_db.py:366` (`get_url` and the formatting in `_download_to_df`): the address of the file of a table
and month.  Table names have no `{`, `}` or `#`. -/
def url (table : Name) (year month : ℕ) : Name :=
  "http://nemweb.com.au/Data_Archive/Wholesale_Electricity/MMSDM/".toList ++ (Nat.toDigits 10 year ++ ("/MMSDM_".toList ++
    (Nat.toDigits 10 year ++ ("_".toList ++ (zfill 2 month ++ ("/MMSDM_Historical_Data_SQLLoader/DATA/".toList ++
      if year > 2024 ∨ (year = 2024 ∧ month ≥ 8) then
        "PUBLIC_ARCHIVE%23".toList ++ (table ++ ("%23FILE01%23".toList ++ (Nat.toDigits 10 year ++ (zfill 2 month ++ "010000.zip".toList))))
      else
        "PUBLIC_DVD_".toList ++ (table ++ ("_".toList ++ (Nat.toDigits 10 year ++ (zfill 2 month ++ "010000.zip".toList))))))))))

end Verif.Mms
