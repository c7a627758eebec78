import Verif.Model.Core

/-!
# Input validation, `dataframe_validator.py`

A data frame is modelled with its column types and cells, including NaN, infinities and strings, because these are what
the validator looks at.  Column names are unique.
-/

namespace Verif.Validator

/-- The cell values the validator distinguishes. -/
inductive Cell
  | num (q : ℚ)
  | posInf
  | negInf
  | nan
  | none
  | str (s : String)
  | fn (name : String)
  | other (repr : String)
  deriving DecidableEq, Repr

/-- `series.dtype` -/
inductive DT
  | float64 | int64 | object | other (s : String)
  deriving DecidableEq, Repr

/-- A column of a data frame. -/
structure Series where
  dtype : DT
  cells : List Cell
  deriving DecidableEq, Repr

/-- A data frame: number of rows and named columns. -/
structure Frame where
  size : Nat
  cols : List (String × Series)
  deriving DecidableEq, Repr

/-- The `data_type` argument of `SeriesSchema`: `str`, `callable` or a numpy type. -/
inductive Kind
  | str | callable | dtype (d : DT)
  deriving DecidableEq, Repr

/-- `dataframe_validator.py:49-58`; `minimum` and `maximum` are stored and never read. -/
structure SeriesSchema where
  name : String
  kind : Kind
  allowed : Option (List Cell) := Option.none
  real : Bool := false
  notNeg : Bool := false
  deriving DecidableEq, Repr

/-- `dataframe_validator.py:5-16`; `columns` is a dictionary by name and `row_monatonic_increasing` is stored. -/
structure Schema where
  keys : Option (List String) := Option.none
  columns : Dict String SeriesSchema := []
  required : List String := []
  monotone : Option (List String) := Option.none
  deriving DecidableEq, Repr

/-- The exceptions of `dataframe_validator.py:96-117`. -/
inductive VErr
  | repeatedRow | columnDataType | missingColumn | unexpectedColumn | columnValues | notMonotonic
  deriving DecidableEq, Repr

/-- `dataframe_validator.py:13-16` (`add_column`) -/
def Schema.add (s : Schema) (c : SeriesSchema) (optional : Bool := false) : Schema :=
  { s with columns := s.columns.set c.name c, required := if optional then s.required else s.required ++ [c.name] }

/-- `type(x) == str` -/
def Cell.isStr : Cell → Bool
  | .str _ => true
  | _ => false

/-- `callable(x)` -/
def Cell.isFn : Cell → Bool
  | .fn _ => true
  | _ => false

/-- `series.isnull()` -/
def Cell.isNull : Cell → Bool
  | .nan => true
  | .none => true
  | _ => false

/-- `dataframe_validator.py:66-74` (`_check_data_type`) -/
def checkType (k : Kind) (s : Series) : Option VErr :=
  match k with
  | .str => if s.cells.all Cell.isStr then Option.none else some .columnDataType
  | .callable => if s.cells.all Cell.isFn then Option.none else some .columnDataType
  | .dtype d => if d ≠ s.dtype then some .columnDataType else Option.none

/-- `dataframe_validator.py:76-79` (`_check_allowed_values`) -/
def checkAllowed (allowed : Option (List Cell)) (s : Series) : Option VErr :=
  match allowed with
  | Option.none => Option.none
  | some vs => if s.cells.all (fun c => decide (c ∈ vs)) then Option.none else some .columnValues

/-- `dataframe_validator.py:81-88` (`_check_is_real_number`) -/
def checkReal (real : Bool) (s : Series) : Option VErr :=
  if real then
    if Cell.posInf ∈ s.cells then some .columnValues
    else if Cell.negInf ∈ s.cells then some .columnValues
    else if s.cells.any Cell.isNull then some .columnValues
    else Option.none
  else Option.none

/-- the smaller of two numeric cells; other cells are skipped -/
def minCell (a : Option Cell) (b : Cell) : Option Cell :=
  match a, b with
  | Option.none, .num q => some (.num q)
  | Option.none, .posInf => some .posInf
  | Option.none, .negInf => some .negInf
  | some (.num p), .num q => some (.num (min p q))
  | some .posInf, .num q => some (.num q)
  | some _, .negInf => some .negInf
  | a, _ => a

/-- `series.min()`, skipping NaN; `none` is the NaN returned for a series without numbers.  The check is only reached for
numeric columns. -/
def seriesMin (s : Series) : Option Cell := s.cells.foldl minCell Option.none

/-- `dataframe_validator.py:90-93` (`_check_is_not_negtaive`): a comparison with NaN is false -/
def checkNotNeg (notNeg : Bool) (s : Series) : Option VErr :=
  if notNeg then
    match seriesMin s with
    | some (.num q) => if q < 0 then some .columnValues else Option.none
    | some .negInf => some .columnValues
    | _ => Option.none
  else Option.none

/-- `dataframe_validator.py:60-64` (`SeriesSchema.validate`) -/
def SeriesSchema.validate (c : SeriesSchema) (s : Series) : Option VErr :=
  (checkType c.kind s).orElse fun _ => (checkAllowed c.allowed s).orElse fun _ =>
    (checkReal c.real s).orElse fun _ => checkNotNeg c.notNeg s

/-- `df[col]` -/
def Frame.col? (f : Frame) (name : String) : Option Series := Dict.get? f.cols name

/-- the rows of the frame restricted to some columns, as lists of cells -/
def Frame.keyRows (f : Frame) (keys : List String) : List (List Cell) :=
  (List.range f.size).map (fun i => keys.map (fun k => ((f.col? k).bind (fun s => s.cells[i]?)).getD Cell.nan))

/-- `dataframe_validator.py:34-37` (`_check_for_repeated_rows`).  NaN cells count as equal, as in `drop_duplicates`. -/
def Schema.checkRepeated (s : Schema) (f : Frame) : Option VErr :=
  match s.keys with
  | Option.none => Option.none
  | some ks =>
    let cols := ks.filter (fun k => decide (k ∈ f.cols.map (·.1)))
    if f.size ≠ (dropDup id (f.keyRows cols)).length then some .repeatedRow else Option.none

/-- first exception of a loop -/
def firstErr {α : Type} (l : List α) (f : α → Option VErr) : Option VErr := l.findSome? f

/-- `dataframe_validator.py:27-29`: columns of the schema that are present are validated -/
def Frame.checkCol (f : Frame) (c : String × SeriesSchema) : Option VErr :=
  match f.col? c.1 with
  | Option.none => Option.none
  | some col => c.2.validate col

/-- `dataframe_validator.py:18-32` (`DataFrameSchema.validate`).  `_check_row_monatonic_increasing` is never called. -/
def Schema.validate (s : Schema) (f : Frame) : Option VErr :=
  (firstErr (f.cols.map (·.1)) (fun n => if s.columns.has n then Option.none else some .unexpectedColumn)).orElse fun _ =>
  (firstErr s.required (fun n => if n ∈ f.cols.map (·.1) then Option.none else some .missingColumn)).orElse fun _ =>
  (firstErr s.columns f.checkCol).orElse fun _ => s.checkRepeated f

/-! ### The schemas of `markets.py` -/

/-- a text column -/
def strCol (name : String) (allowed : Option (List String) := Option.none) : SeriesSchema :=
  { name := name, kind := .str, allowed := allowed.map (·.map Cell.str) }

/-- a number column -/
def numCol (name : String) (real : Bool := true) (notNeg : Bool := false) : SeriesSchema :=
  { name := name, kind := .dtype .float64, real := real, notNeg := notNeg }

/-- `markets.py:112-113` -/
def allServices : List String := ["energy", "raise_reg", "lower_reg", "raise_5min", "lower_5min", "raise_60s", "lower_60s",
  "raise_6s", "lower_6s", "raise_1s", "lower_1s"]

/-- `markets.py:111` -/
def dispatchTypes : List String := ["generator", "load"]

/-- add the dispatch type column when the market was built with dispatch types, e.g. `markets.py:272-273` -/
def Schema.addDispatch (s : Schema) (required : Bool) : Schema :=
  if required then s.add (strCol "dispatch_type" (some dispatchTypes)) else s

/-- the bands after the first, `range(2, 11)` -/
def laterBands : List String := ["2", "3", "4", "5", "6", "7", "8", "9", "10"]

/-- `markets.py:141-148` -/
def unitInfoSchema (regions : List String) : Schema :=
  ((((({ keys := some ["unit", "dispatch_type"] } : Schema).add (strCol "unit")).add (strCol "region" (some regions))).add
    (numCol "loss_factor" true true)).add (strCol "dispatch_type" (some dispatchTypes)))

/-- `markets.py:269-281` -/
def volumeBidsSchema (units : List String) (dispatch : Bool) : Schema :=
  laterBands.foldl (fun s b => s.add (numCol b true true) true)
    ((((({ keys := some ["unit", "service", "dispatch_type"] } : Schema).add (strCol "unit" (some units))).addDispatch dispatch).add
      (strCol "service" (some allServices)) true).add (numCol "1" true true))

/-- `markets.py:406-418` -/
def priceBidsSchema (units : List String) (dispatch : Bool) : Schema :=
  laterBands.foldl (fun s b => s.add (numCol b) true)
    ((((({ keys := some ["unit", "service", "dispatch_type"], monotone := some ("1" :: laterBands) } : Schema).add
      (strCol "unit" (some units))).add (strCol "service" (some allServices)) true).addDispatch dispatch).add (numCol "1"))

/-- `markets.py:534-540` -/
def unitLimitsSchema (units : List String) (dispatch : Bool) : Schema :=
  (((({ keys := some ["unit", "dispatch_type"] } : Schema).add (strCol "unit" (some units))).addDispatch dispatch).add
    (numCol "capacity" false))

/-- `markets.py:645-649` -/
def uigfSchema (units : List String) : Schema :=
  (({ keys := some ["unit"] } : Schema).add (strCol "unit" (some units))).add (numCol "capacity" false)

/-- `markets.py:884-896` -/
def rampSchema (units : List String) (dispatch : Bool) : Schema :=
  ((((((({ keys := some ["unit", "dispatch_type"] } : Schema).add (strCol "unit" (some units))).add (numCol "initial_output")).add
    (numCol "ramp_up_rate")).add (numCol "ramp_down_rate")).add (numCol "scada_ramp_up_rate" false) true).add
    (numCol "scada_ramp_down_rate" false) true).addDispatch dispatch

/-- `markets.py:1147-1151` -/
def demandSchema (regions : List String) : Schema :=
  (({ keys := some ["region"] } : Schema).add (strCol "region" (some regions))).add (numCol "demand")

/-- `markets.py:1252-1260` -/
def fcasSchema (regions : List String) : Schema :=
  ((((({ keys := some ["set", "region", "service"] } : Schema).add (strCol "region" (some regions))).add (strCol "set")).add
    (strCol "service" (some allServices))).add (numCol "volume")).add (strCol "type" (some ["<=", "=", ">="])) true

/-- `markets.py:2366-2371` -/
def genericSchema : Schema :=
  ((({ keys := some ["set"] } : Schema).add (strCol "set")).add (strCol "type")).add (numCol "rhs")

/-- `markets.py:2003-2017` -/
def interSchema (regions : List String) : Schema :=
  ((((((((({ keys := some ["interconnector", "link"] } : Schema).add (strCol "interconnector")).add (strCol "link")).add
    (strCol "to_region" (some regions))).add (strCol "from_region" (some regions))).add (numCol "max")).add (numCol "min")).add
    { name := "generic_constraint_factor", kind := .dtype .int64, allowed := some [.num 1, .num (-1)] }).add
    (numCol "from_region_loss_factor" true true)).add (numCol "to_region_loss_factor" true true)

/-- `markets.py:2266-2274` -/
def lossSchema : Schema :=
  (((({ keys := some ["interconnector", "link"] } : Schema).add (strCol "interconnector")).add (strCol "link")).add
    { name := "loss_function", kind := .callable }).add (numCol "from_region_loss_share" true true)

/-- `markets.py:2745-2749` -/
def costSchema : Schema :=
  (({ keys := some ["set", "cost"] } : Schema).add (strCol "set")).add (numCol "cost")

/-- `markets.py:114-115` -/
def fcasServices : List String := allServices.erase "energy"

/-- `markets.py:116-118` -/
def contingencyServices : List String := (fcasServices.erase "raise_reg").erase "lower_reg"

/-- `markets.py:119` -/
def regulationServices : List String := ["raise_reg", "lower_reg"]

/-- a column of whole numbers -/
def intCol' (name : String) (real : Bool := true) (notNeg : Bool := true) : SeriesSchema :=
  { name := name, kind := .dtype .int64, real := real, notNeg := notNeg }

/-- `markets.py:898-905` -/
def scadaSchema (units : List String) : Schema :=
  ((({ keys := some ["unit"] } : Schema).add (strCol "unit" (some units))).add (numCol "scada_ramp_up_rate" false) true).add
    (numCol "scada_ramp_down_rate" false) true

/-- The values of the `run_type` argument, `markets.py:911-914`. -/
inductive Run
  | noFastStart | first | second | other
  deriving DecidableEq, Repr

/-- `markets.py:907-921` -/
def fsRampSchema (units : List String) (run : Run) : Schema :=
  let s := ({ keys := some ["unit"] } : Schema).add (strCol "unit" (some units))
  match run with
  | .first => s.add (intCol' "current_mode")
  | .second => ((s.add (intCol' "end_mode")).add (numCol "min_loading" true true)).add (numCol "time_since_end_of_mode_two" false true)
  | _ => s

/-- `markets.py:1049-1062` -/
def fsSchema (units : List String) : Schema :=
  (((((({ keys := some ["unit"] } : Schema).add (strCol "unit" (some units))).add (intCol' "end_mode")).add
    (numCol "time_in_end_mode" true true)).add (numCol "mode_two_length" true true)).add (numCol "mode_four_length" true true)).add
    (numCol "min_loading" true true)

/-- `markets.py:1351-1359` -/
def fcasMaxSchema (units : List String) : Schema :=
  (((({ keys := some ["unit", "service", "dispatch_type"] } : Schema).add (strCol "unit" (some units))).add
    (strCol "service" (some fcasServices))).add (numCol "max_availability" true true)).add (strCol "dispatch_type" (some dispatchTypes)) true

/-- `markets.py:1603-1609` -/
def scadaRegSchema (units : List String) : Schema :=
  (((({ keys := some ["unit"] } : Schema).add (strCol "unit" (some units))).add (numCol "initial_output" false)).add
    (numCol "scada_ramp_up_rate" false)).add (numCol "scada_ramp_down_rate" false)

/-- the columns of trapeziums, with the services of either kind -/
def trapSchema (units services : List String) : Schema :=
  (((((((({ keys := some ["unit", "service", "dispatch_type"] } : Schema).add (strCol "unit" (some units))).add
    (strCol "service" (some services))).add (numCol "max_availability" true true)).add (numCol "enablement_min")).add
    (numCol "low_break_point")).add (numCol "high_break_point")).add (numCol "enablement_max")).add
    (strCol "dispatch_type" (some dispatchTypes)) true

/-- `markets.py:1732-1745` -/
def contingencySchema (units : List String) : Schema := trapSchema units contingencyServices

/-- `markets.py:1871-1884` -/
def regulationSchema (units : List String) : Schema := trapSchema units regulationServices

/-- `markets.py:2277-2284` -/
def breakPointSchema : Schema :=
  (((({ keys := some ["interconnector", "link", "loss_segment"] } : Schema).add (strCol "interconnector")).add (strCol "link")).add
    (intCol' "loss_segment" false false)).add (numCol "break_point")

/-- `markets.py:2446-2452` -/
def unitCoefSchema (units : List String) : Schema :=
  (((({ keys := some ["set", "unit", "service"] } : Schema).add (strCol "set")).add (strCol "unit" (some units))).add
    (strCol "service" (some allServices))).add (numCol "coefficient")

/-- `markets.py:2532-2538` -/
def regionCoefSchema (regions : List String) : Schema :=
  (((({ keys := some ["set", "region", "service"] } : Schema).add (strCol "set")).add (strCol "region" (some regions))).add
    (strCol "service" (some allServices))).add (numCol "coefficient")

/-- `markets.py:2609-2614` -/
def interCoefSchema : Schema :=
  ((({ keys := some ["set", "interconnector"] } : Schema).add (strCol "set")).add (strCol "interconnector")).add (numCol "coefficient")

end Verif.Validator
