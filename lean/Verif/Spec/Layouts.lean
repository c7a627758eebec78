import Verif.Spec.Validator

/-! # Specification: the tables the calls take, column by column -/

namespace Verif.Validator

/-- What the cells of a column may be. -/
inductive Rule
  /-- text -/
  | text
  /-- one of the given names -/
  | oneOf (names : List String)
  /-- a floating point column; missing and infinite values are let through -/
  | number
  /-- a floating point column of finite numbers -/
  | finite
  /-- a floating point column of finite numbers that are not negative -/
  | amount
  /-- a floating point column without negative numbers; missing values are let through -/
  | amountOrMissing
  /-- an integer column -/
  | whole
  /-- an integer column without negative numbers -/
  | count
  /-- a function -/
  | function
  /-- an integer column of 1 and -1 -/
  | sign

/-- The column follows the rule. -/
def Rule.ok (s : Series) : Rule → Prop
  | .text => ∀ x ∈ s.cells, ∃ t, x = .str t
  | .oneOf names => ∀ x ∈ s.cells, ∃ t ∈ names, x = .str t
  | .number => s.dtype = .float64
  | .finite => s.dtype = .float64 ∧ ∀ x ∈ s.cells, x.Real
  | .amount => s.dtype = .float64 ∧ ∀ x ∈ s.cells, x.Real ∧ ¬ x.Negative
  | .amountOrMissing => s.dtype = .float64 ∧ ∀ x ∈ s.cells, ¬ x.Negative
  | .whole => s.dtype = .int64
  | .count => s.dtype = .int64 ∧ ∀ x ∈ s.cells, x.Real ∧ ¬ x.Negative
  | .function => ∀ x ∈ s.cells, ∃ t, x = .fn t
  | .sign => s.dtype = .int64 ∧ ∀ x ∈ s.cells, x = .num 1 ∨ x = .num (-1)

/-- A column of a table: its name, whether it can be left out, and its rule. -/
structure Column where
  name : String
  canBeLeftOut : Bool
  rule : Rule

/-- A table: its columns and those that tell its rows apart. -/
structure Layout where
  keys : List String
  columns : List Column

/-- The frame has this layout. -/
structure Layout.Fits (l : Layout) (f : Frame) : Prop where
  /-- there are no other columns -/
  known : ∀ c ∈ f.cols, ∃ k ∈ l.columns, k.name = c.1
  /-- no column is missing -/
  present : ∀ k ∈ l.columns, k.canBeLeftOut = false → ∃ c ∈ f.cols, c.1 = k.name
  /-- every column follows its rule -/
  follow : ∀ k ∈ l.columns, ∀ c ∈ f.cols, c.1 = k.name → k.rule.ok c.2
  /-- no two rows agree in all key columns the frame has -/
  apart : ∀ i j, i < f.size → j < f.size → (∀ k ∈ l.keys, ∀ c ∈ f.cols, c.1 = k → c.2.cells[i]? = c.2.cells[j]?) → i = j

/-- a column that has to be there -/
def must (name : String) (r : Rule) : Column := ⟨name, false, r⟩

/-- a column that can be left out -/
def may (name : String) (r : Rule) : Column := ⟨name, true, r⟩

/-- the dispatch type column, in markets whose units have dispatch types -/
def dispatchColumn (dispatch : Bool) : List Column :=
  if dispatch then [must "dispatch_type" (.oneOf ["generator", "load"])] else []

/-- the names of the services -/
def serviceNames : List String := ["energy", "raise_reg", "lower_reg", "raise_5min", "lower_5min", "raise_60s", "lower_60s",
  "raise_6s", "lower_6s", "raise_1s", "lower_1s"]

/-- the columns of ten bands, of which the first has to be there -/
def bandColumns (r : Rule) : List Column :=
  must "1" r :: ["2", "3", "4", "5", "6", "7", "8", "9", "10"].map (fun b => may b r)

def unitInfoLayout (regions : List String) : Layout :=
  ⟨["unit", "dispatch_type"], [must "unit" .text, must "region" (.oneOf regions), must "loss_factor" .amount,
    must "dispatch_type" (.oneOf ["generator", "load"])]⟩

def volumeBidsLayout (units : List String) (dispatch : Bool) : Layout :=
  ⟨["unit", "service", "dispatch_type"],
    must "unit" (.oneOf units) :: (dispatchColumn dispatch ++ may "service" (.oneOf serviceNames) :: bandColumns .amount)⟩

def priceBidsLayout (units : List String) (dispatch : Bool) : Layout :=
  ⟨["unit", "service", "dispatch_type"],
    must "unit" (.oneOf units) :: may "service" (.oneOf serviceNames) :: (dispatchColumn dispatch ++ bandColumns .finite)⟩

/-- capacities may be missing -/
def capacitiesLayout (units : List String) (dispatch : Bool) : Layout :=
  ⟨["unit", "dispatch_type"], must "unit" (.oneOf units) :: (dispatchColumn dispatch ++ [must "capacity" .number])⟩

def forecastsLayout (units : List String) : Layout :=
  ⟨["unit"], [must "unit" (.oneOf units), must "capacity" .number]⟩

/-- rates and initial outputs have to be there, rates from SCADA may be missing -/
def rampRatesLayout (units : List String) (dispatch : Bool) : Layout :=
  ⟨["unit", "dispatch_type"], [must "unit" (.oneOf units), must "initial_output" .finite, must "ramp_up_rate" .finite,
    must "ramp_down_rate" .finite, may "scada_ramp_up_rate" .number, may "scada_ramp_down_rate" .number] ++ dispatchColumn dispatch⟩

def demandLayout (regions : List String) : Layout :=
  ⟨["region"], [must "region" (.oneOf regions), must "demand" .finite]⟩

def fcasLayout (regions : List String) : Layout :=
  ⟨["set", "region", "service"], [must "region" (.oneOf regions), must "set" .text, must "service" (.oneOf serviceNames),
    must "volume" .finite, may "type" (.oneOf ["<=", "=", ">="])]⟩

/-- the type of a generic constraint can be any text -/
def genericLayout : Layout :=
  ⟨["set"], [must "set" .text, must "type" .text, must "rhs" .finite]⟩

def interconnectorsLayout (regions : List String) : Layout :=
  ⟨["interconnector", "link"], [must "interconnector" .text, must "link" .text, must "to_region" (.oneOf regions),
    must "from_region" (.oneOf regions), must "max" .finite, must "min" .finite, must "generic_constraint_factor" .sign,
    must "from_region_loss_factor" .amount, must "to_region_loss_factor" .amount]⟩

def lossFunctionsLayout : Layout :=
  ⟨["interconnector", "link"], [must "interconnector" .text, must "link" .text, must "loss_function" .function,
    must "from_region_loss_share" .amount]⟩

/-- a cost may be negative, and a set may appear twice with different costs -/
def violationCostsLayout : Layout :=
  ⟨["set", "cost"], [must "set" .text, must "cost" .finite]⟩

/-- both columns of rates can be left out -/
def scadaRatesLayout (units : List String) : Layout :=
  ⟨["unit"], [must "unit" (.oneOf units), may "scada_ramp_up_rate" .number, may "scada_ramp_down_rate" .number]⟩

/-- fast start profiles for ramp rates: which columns there are depends on the run -/
def startedUnitsLayout (units : List String) : Run → Layout
  | .first => ⟨["unit"], [must "unit" (.oneOf units), must "current_mode" .count]⟩
  | .second => ⟨["unit"], [must "unit" (.oneOf units), must "end_mode" .count, must "min_loading" .amount,
      must "time_since_end_of_mode_two" .amountOrMissing]⟩
  | _ => ⟨["unit"], [must "unit" (.oneOf units)]⟩

def fastStartLayout (units : List String) : Layout :=
  ⟨["unit"], [must "unit" (.oneOf units), must "end_mode" .count, must "time_in_end_mode" .amount, must "mode_two_length" .amount,
    must "mode_four_length" .amount, must "min_loading" .amount]⟩

/-- the names of the contingency services -/
def contingencyNames : List String := ["raise_5min", "lower_5min", "raise_60s", "lower_60s", "raise_6s", "lower_6s", "raise_1s", "lower_1s"]

def availabilitiesLayout (units : List String) : Layout :=
  ⟨["unit", "service", "dispatch_type"], [must "unit" (.oneOf units), must "service" (.oneOf ("raise_reg" :: "lower_reg" :: contingencyNames)),
    must "max_availability" .amount, may "dispatch_type" (.oneOf ["generator", "load"])]⟩

/-- rates and initial outputs for joint ramping may be missing -/
def jointRampingLayout (units : List String) : Layout :=
  ⟨["unit"], [must "unit" (.oneOf units), must "initial_output" .number, must "scada_ramp_up_rate" .number,
    must "scada_ramp_down_rate" .number]⟩

def trapeziumsLayout (units services : List String) : Layout :=
  ⟨["unit", "service", "dispatch_type"], [must "unit" (.oneOf units), must "service" (.oneOf services), must "max_availability" .amount,
    must "enablement_min" .finite, must "low_break_point" .finite, must "high_break_point" .finite, must "enablement_max" .finite,
    may "dispatch_type" (.oneOf ["generator", "load"])]⟩

def breakPointsLayout : Layout :=
  ⟨["interconnector", "link", "loss_segment"], [must "interconnector" .text, must "link" .text, must "loss_segment" .whole,
    must "break_point" .finite]⟩

def unitCoefficientsLayout (units : List String) : Layout :=
  ⟨["set", "unit", "service"], [must "set" .text, must "unit" (.oneOf units), must "service" (.oneOf serviceNames),
    must "coefficient" .finite]⟩

def regionCoefficientsLayout (regions : List String) : Layout :=
  ⟨["set", "region", "service"], [must "set" .text, must "region" (.oneOf regions), must "service" (.oneOf serviceNames),
    must "coefficient" .finite]⟩

def interconnectorCoefficientsLayout : Layout :=
  ⟨["set", "interconnector"], [must "set" .text, must "interconnector" .text, must "coefficient" .finite]⟩

end Verif.Validator
