import Verif.Spec.Layouts
import Verif.Model.Market

/-!
# Specification: the tables of the model as data frames

The calls of the model take lists of rows with typed entries.  Here every such list is written out as the data frame a user passes to
the call, with the column names and column types of the documentation.
-/

namespace Verif

/-- The text of a service in a data frame. -/
def Service.text : Service → String
  | .energy => "energy" | .raiseReg => "raise_reg" | .lowerReg => "lower_reg" | .raise5min => "raise_5min" | .lower5min => "lower_5min"
  | .raise60s => "raise_60s" | .lower60s => "lower_60s" | .raise6s => "raise_6s" | .lower6s => "lower_6s"
  | .raise1s => "raise_1s" | .lower1s => "lower_1s"

/-- The text of a dispatch type in a data frame. -/
def DType.text : DType → String
  | .generator => "generator" | .load => "load"

/-- The text of a constraint type in a data frame; `other` stands for any other text. -/
def CType.text : CType → String
  | .le => "<=" | .eq => "=" | .ge => ">=" | .other => "?"

namespace Validator

/-- A column of a data frame of rows `α`: name, type and entry of a row. -/
structure Field (α : Type) where
  name : String
  dtype : DT
  cell : α → Cell

/-- The data frame with these rows and columns. -/
def frameOf {α : Type} (rows : List α) (fields : List (Field α)) : Frame :=
  { size := rows.length, cols := fields.map (fun f => (f.name, ⟨f.dtype, rows.map f.cell⟩)) }

/-- a text column -/
def textField {α : Type} (name : String) (f : α → String) : Field α := ⟨name, .object, fun r => .str (f r)⟩
/-- a column of floating point numbers -/
def numField {α : Type} (name : String) (f : α → ℚ) : Field α := ⟨name, .float64, fun r => .num (f r)⟩
/-- a column of floating point numbers, NaN where there is no number -/
def gapField {α : Type} (name : String) (f : α → Option ℚ) : Field α :=
  ⟨name, .float64, fun r => match f r with | some q => .num q | none => .nan⟩
/-- a column of integers -/
def intField {α : Type} (name : String) (f : α → ℚ) : Field α := ⟨name, .int64, fun r => .num (f r)⟩
/-- the dispatch type column, in markets whose units have dispatch types -/
def typeField {α : Type} (dispatch : Bool) (f : α → DType) : List (Field α) :=
  if dispatch then [textField "dispatch_type" (fun r => (f r).text)] else []

def unitInfoFrame (us : List UnitInfo) : Frame := frameOf us [textField "unit" (·.unit), textField "region" (·.region),
  numField "loss_factor" (·.lf), textField "dispatch_type" (fun u => u.dtype.text)]

/-- The number a bid row has for a band. -/
def bandOf (b : String) (r : BidRow) : ℚ := ((r.bands.find? (fun x => decide (x.1 = b))).map (·.2)).getD 0

/-- bids with the given bands -/
def bidsFrame (dispatch : Bool) (bands : List String) (bs : List BidRow) : Frame :=
  frameOf bs (textField "unit" (·.unit) :: textField "service" (fun b => b.service.text) ::
    (typeField dispatch (·.dtype) ++ bands.map (fun b => numField b (bandOf b))))

def capacitiesFrame (dispatch : Bool) (ls : List Lim) : Frame :=
  frameOf ls (textField "unit" (·.unit) :: (typeField dispatch (·.dtype) ++ [numField "capacity" (·.val)]))

def forecastsFrame (ls : List Lim) : Frame := frameOf ls [textField "unit" (·.unit), numField "capacity" (·.val)]

def rampRatesFrame (dispatch : Bool) (rs : List RampRow) : Frame :=
  frameOf rs ([textField "unit" (·.unit), numField "initial_output" (·.init), numField "ramp_up_rate" (·.up),
    numField "ramp_down_rate" (·.down)] ++ typeField dispatch (·.dtype))

def scadaFrame (rs : List Scada) : Frame :=
  frameOf rs [textField "unit" (·.unit), gapField "scada_ramp_up_rate" (·.up), gapField "scada_ramp_down_rate" (·.down)]

/-- the profiles of the first run -/
def currentModesFrame (ps : List FsRamp) : Frame := frameOf ps [textField "unit" (·.unit), intField "current_mode" (fun p => p.curMode)]

/-- the profiles of the second run -/
def endModesFrame (ps : List FsRamp) : Frame := frameOf ps [textField "unit" (·.unit), intField "end_mode" (fun p => p.endMode),
  numField "min_loading" (·.minLoading), gapField "time_since_end_of_mode_two" (·.since)]

def fastStartFrame (ps : List FsInput) : Frame := frameOf ps [textField "unit" (·.unit), intField "end_mode" (fun p => p.endMode),
  numField "time_in_end_mode" (·.time), numField "mode_two_length" (·.len2), numField "mode_four_length" (·.len4),
  numField "min_loading" (·.minLoading)]

def demandFrame (ds : List Demand) : Frame := frameOf ds [textField "region" (·.region), numField "demand" (·.demand)]

def fcasFrame (rs : List FcasReq) : Frame := frameOf rs [textField "set" (·.set), textField "service" (fun r => r.service.text),
  textField "region" (·.region), numField "volume" (·.volume), textField "type" (fun r => r.ctype.text)]

def availabilitiesFrame (ls : List Lim) : Frame := frameOf ls [textField "unit" (·.unit), textField "service" (fun l => l.service.text),
  textField "dispatch_type" (fun l => l.dtype.text), numField "max_availability" (·.val)]

def jointRampingFrame (rs : List RampRow) : Frame := frameOf rs [textField "unit" (·.unit), numField "initial_output" (·.init),
  numField "scada_ramp_up_rate" (·.up), numField "scada_ramp_down_rate" (·.down)]

def trapeziumsFrame (ts : List Trap) : Frame := frameOf ts [textField "unit" (·.unit), textField "service" (fun t => t.service.text),
  textField "dispatch_type" (fun t => t.dtype.text), numField "max_availability" (·.maxAvail), numField "enablement_min" (·.emin),
  numField "low_break_point" (·.lbp), numField "high_break_point" (·.hbp), numField "enablement_max" (·.emax)]

def interconnectorsFrame (ds : List InterDef) : Frame := frameOf ds [textField "interconnector" (·.inter), textField "link" (·.link),
  textField "to_region" (·.toR), textField "from_region" (·.fromR), numField "max" (·.max), numField "min" (·.min),
  intField "generic_constraint_factor" (·.gcf), numField "from_region_loss_factor" (·.fromLf), numField "to_region_loss_factor" (·.toLf)]

def lossFunctionsFrame (fs : List LossFn) : Frame := frameOf fs [textField "interconnector" (·.inter), textField "link" (·.link),
  ⟨"loss_function", .object, fun _ => .fn "f"⟩, numField "from_region_loss_share" (·.share)]

def breakPointsFrame (bs : List BreakPt) : Frame := frameOf bs [textField "interconnector" (·.inter), textField "link" (·.link),
  intField "loss_segment" (fun b => b.seg), numField "break_point" (·.bp)]

def genericFrame (gs : List GenericRow) : Frame := frameOf gs [textField "set" (·.set), textField "type" (fun g => g.ctype.text),
  numField "rhs" (·.rhs)]

def unitCoefficientsFrame (gs : List GUnit) : Frame := frameOf gs [textField "set" (·.set), textField "unit" (·.unit),
  textField "service" (fun g => g.service.text), numField "coefficient" (·.coef)]

def regionCoefficientsFrame (gs : List GRegion) : Frame := frameOf gs [textField "set" (·.set), textField "region" (·.region),
  textField "service" (fun g => g.service.text), numField "coefficient" (·.coef)]

def interconnectorCoefficientsFrame (gs : List GInter) : Frame := frameOf gs [textField "set" (·.set), textField "interconnector" (·.inter),
  numField "coefficient" (·.coef)]

def violationCostsFrame (t : List (String × ℚ)) : Frame := frameOf t [textField "set" (·.1), numField "cost" (·.2)]

end Validator

open Validator

/-- The rows of a bid table all have these bands, the first among them -/
structure SameBands (bands : List String) (bs : List BidRow) : Prop where
  apart : bands.Nodup
  named : ∀ b ∈ bands, b ∈ ["1", "2", "3", "4", "5", "6", "7", "8", "9", "10"]
  first : "1" ∈ bands
  rows : ∀ b ∈ bs, b.bands.map (·.1) = bands

/-- The checks of fast start profiles passed with ramp rates reject them. -/
def profilesRefused (units : List String) (rt : RunType) : Option (List FsRamp) → Prop
  | none => False
  | some ps => match rt with
    | .first => (fsRampSchema units .first).validate (currentModesFrame ps) ≠ none
    | .second => (fsRampSchema units .second).validate (endModesFrame ps) ≠ none
    | _ => False

/-- Profiles of the first run have no minimum loading and no times -/
def PlainProfiles (rt : RunType) (ps : Option (List FsRamp)) : Prop :=
  rt ≠ .other ∧ (rt = .first → ∀ l ∈ ps, ∀ p ∈ l, p.minLoading = 0 ∧ p.since = none)

end Verif
