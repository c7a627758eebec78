import Verif.Model.XmlInputs
import Mathlib.Data.List.Forall2

/-!
# Specification: values of a NEMDE file
-/

namespace Verif.Xml

open Verif

/-- `c` is the number in the attribute, if the attribute is there -/
def Reads (float : String → Option ℚ) (element : Attrs) (name : String) (c : Cell) : Prop :=
  ∀ v, element.get? name = some v → ∃ q, float v = some q ∧ c = .num q

/-- the attribute is there and is the number `q` -/
def IsNumber {ν : Type} (read : String → Option ν) (element : Attrs) (name : String) (q : ν) : Prop :=
  ∃ v, element.get? name = some v ∧ read v = some q

/-- `v` is the value of the first condition with the name, NaN if there is none. -/
def FirstCondition (float : String → Option ℚ) (conditions : List Attrs) (name : String) (v : Option ℚ) : Prop :=
  match v with
  | none => ∀ c ∈ conditions, c.get? "@InitialConditionID" ≠ some name
  | some q => ∃ before c after, conditions = before ++ c :: after ∧
      (∀ b ∈ before, b.get? "@InitialConditionID" ≠ some name) ∧ c.get? "@InitialConditionID" = some name ∧
      IsNumber float c "@Value" q

/-- The value in the solution of the period, or else the one in the solution of the case -/
def ReportedValue (float : String → Option ℚ) (period case : Attrs) (name : String) (q : ℚ) : Prop :=
  IsNumber float period name q ∨ (period.get? name = none ∧ IsNumber float case name q)

/-- solutions of the run without intervention -/
def physical (l : List Attrs) : List Attrs := l.filter fun s => decide (s.get? "@Intervention" = some "0")

/-- the elements of a repeated or single element of the file -/
def Coll.listed {α : Type} : Coll α → List α
  | .one a => [a]
  | .many l => l

/-- the terms of a kind in a constraint of the file: there may be none, a single one or several -/
def listedTerms : Option (Coll Attrs) → List Attrs
  | none => []
  | some (.one a) => [a]
  | some (.many l) => l

/-- the ten bands of an attribute -/
def bands (name : String) : List String := (List.range 10).map fun i => name ++ toString (i + 1)

/-- the attributes of a volume bid: the FCAS trapezium, the volumes of the ten bands and the ramp rates -/
def volumeAttributes : List String :=
  ["@MaxAvail", "@EnablementMin", "@EnablementMax", "@LowBreakpoint", "@HighBreakpoint"] ++ bands "@BandAvail" ++
    ["@RampDnRate", "@RampUpRate"]

/-- the services of AEMO's trade types -/
def tradeServices : List (String × List String) :=
  [("ENERGY", ["ENOF", "LDOF", "DROF", "BDOF"]), ("RAISEREG", ["R5RE"]), ("LOWERREG", ["L5RE"]), ("RAISE5MIN", ["R5MI"]),
   ("LOWER5MIN", ["L5MI"]), ("RAISE60SEC", ["R60S"]), ("LOWER60SEC", ["L60S"]), ("RAISE6SEC", ["R6SE"]), ("LOWER6SEC", ["L6SE"]),
   ("RAISE1SEC", ["R1SE"]), ("LOWER1SEC", ["L1SE"])]

/-- `service` is the service of the trade type of an element -/
def HasService (element : Attrs) (service : String) : Prop :=
  ∃ tt, element.get? "@TradeType" = some tt ∧ ∃ e ∈ tradeServices, e.1 = service ∧ tt ∈ e.2

/-- the kinds of violations and the attributes they are reported in -/
def violationAttributes : List (String × String) :=
  [("regional_demand", "AreaGen"), ("interocnnector", "Interconnector"), ("generic_constraint", "Generic"), ("ramp_rate", "RampRate"),
   ("unit_capacity", "UnitMWCapacity"), ("energy_constraint", "EnergyConstr"), ("energy_offer", "EnergyOffer"),
   ("fcas_profile", "ASProfile"), ("fast_start", "FastStart"), ("mnsp_ramp_rate", "MNSPRampRate"), ("msnp_offer", "MNSPOffer"),
   ("mnsp_capacity", "MNSPCapacity"), ("ugif", "UIGF")].map fun n => (n.1, "@Total" ++ n.2 ++ "Violation")

end Verif.Xml
