import Verif.Model.XmlCache

/-!
# Model of the tables read from a NEMDE file (`historical_inputs/xml_cache.py`)

`xmltodict` gives a dictionary for an element, with attributes under names that begin with `@`, and a list where an element is
repeated.  The model has the attributes as text and the few child elements that are read as fields.  `float` and `int` are
parameters: they give a number or raise `ValueError`.  All exceptions of the getters (`KeyError`, `ValueError`, `UnboundLocalError`)
are `XErr.other`.
-/

namespace Verif.Xml

open Verif

/-- Attributes of an element -/
abbrev Attrs := Dict String String

/-- An element that is given once or repeated: `type(x) != list` -/
inductive Coll (α : Type)
  | one (a : α)
  | many (l : List α)

/-- the elements, e.g. `xml_cache.py:447-453` -/
def Coll.items {α : Type} : Coll α → List α
  | .one a => [a]
  | .many l => l

/-- `element[name]` -/
def attr (a : Attrs) (name : String) : Except XErr String :=
  match a.get? name with
  | some v => .ok v
  | none => .error .other

/-- `float(text)`, `int(text)` -/
def number {ν : Type} (read : String → Option ν) (text : String) : Except XErr ν :=
  match read text with
  | some q => .ok q
  | none => .error .other

/-- Element `Trader` of the inputs, or `TraderPeriod` -/
structure Trader where
  attrs : Attrs
  /-- `TraderInitialConditionCollection` -/
  conditions : List Attrs
  /-- `TradeCollection` -/
  trades : Coll Attrs
  /-- `TradePriceStructureCollection` … `TradeTypePriceStructure` -/
  priceTrades : Coll Attrs

/-- A value in a table -/
inductive Cell
  | num (q : ℚ)
  | text (s : String)
  | none
  deriving DecidableEq, Repr

/-! ### Volume bids -/

/-- `xml_cache.py:425-431`: columns after `BIDTYPE` and `DIRECTION` -/
def volumeColumns : List String :=
  ["@MaxAvail", "@EnablementMin", "@EnablementMax", "@LowBreakpoint", "@HighBreakpoint", "@BandAvail1", "@BandAvail2", "@BandAvail3",
   "@BandAvail4", "@BandAvail5", "@BandAvail6", "@BandAvail7", "@BandAvail8", "@BandAvail9", "@BandAvail10", "@RampDnRate",
   "@RampUpRate"]

/-- `xml_cache.py:435-443`: the variable `value` keeps what it had if the attribute is missing -/
def appendValues (float : String → Option ℚ) (trade : Attrs) : List String → Cell → Except XErr (List Cell)
  | [], _ => .ok []
  | name :: names, value =>
    match trade.get? name with
    | some v =>
      match float v with
      | none => .error .other
      | some q =>
        match appendValues float trade names (.num q) with
        | .error e => .error e
        | .ok cells => .ok (.num q :: cells)
    | none =>
      match appendValues float trade names value with
      | .error e => .error e
      | .ok cells => .ok (value :: cells)

/-- `xml_cache.py:456-458` -/
def bidTypeMap : Dict String String :=
  [("ENOF", "ENERGY"), ("LDOF", "ENERGY"), ("DROF", "ENERGY"), ("BDOF", "ENERGY"), ("L5RE", "LOWERREG"), ("R5RE", "RAISEREG"),
   ("R5MI", "RAISE5MIN"), ("L5MI", "LOWER5MIN"), ("R60S", "RAISE60SEC"), ("L60S", "LOWER60SEC"), ("R6SE", "RAISE6SEC"),
   ("L6SE", "LOWER6SEC"), ("R1SE", "RAISE1SEC"), ("L1SE", "LOWER1SEC")]

/-- A row of the tables of bids: `cells` are the columns after `DIRECTION`. -/
structure BidRow where
  duid : String
  service : String
  direction : Option String
  cells : List Cell
  deriving DecidableEq, Repr

/-- `xml_cache.py:460` -/
def volumeDirection : String → Except XErr (Option String)
  | "GEN" => .ok (some "GENERATOR")
  | "LOAD" => .ok (some "LOAD")
  | "missing" => .ok none
  | _ => .error .other

/-- `xml_cache.py:433-444`, `446-462` for one trade: without a trade type `value` is not bound. -/
def volumeRow (float : String → Option ℚ) (p : Trader × Attrs) : Except XErr BidRow := do
  let duid ← attr p.1.attrs "@TraderID"
  let tradeType ← attr p.2 "@TradeType"
  let dir := (p.2.get? "@Direction").getD "missing"
  let cells ← appendValues float p.2 volumeColumns (.text dir)
  let service ← attr bidTypeMap tradeType
  let direction ← volumeDirection dir
  return ⟨duid, service, direction, cells⟩

/-- `xml_cache.py:419-463` (`get_unit_volume_bids`) -/
def volumeBids (float : String → Option ℚ) (traders : List Trader) : Except XErr (List BidRow) :=
  (traders.flatMap fun t => t.trades.items.map fun trade => (t, trade)).mapM (volumeRow float)

/-! ### Price bids -/

/-- `xml_cache.py:515-518` -/
def priceColumns : List String :=
  ["@PriceBand1", "@PriceBand2", "@PriceBand3", "@PriceBand4", "@PriceBand5", "@PriceBand6", "@PriceBand7", "@PriceBand8",
   "@PriceBand9", "@PriceBand10"]

/-- `xml_cache.py:530-533` -/
def typeDirection (traderType : String) : Cell :=
  if traderType ∈ ["GENERATOR", "NORMALLY_ON_LOAD", "WDR", "BIDIRECTIONAL"] then .text "GEN"
  else if traderType = "LOAD" then .text "LOAD"
  else .none

/-- `xml_cache.py:523-534`: one value.  The branch for a missing direction is also taken for missing prices. -/
def priceCell (float : String → Option ℚ) (trader : Trader) (trade : Attrs) (name : String) : Except XErr Cell :=
  match trade.get? name with
  | some v =>
    match float v with
    | none => .error .other
    | some q => .ok (.num q)
  | none =>
    if trade.has "@Direction" then .ok .none
    else
      match trader.attrs.get? "@TraderType" with
      | none => .error .other
      | some tt => .ok (typeDirection tt)

/-- the value for `DIRECTION`, the same lines -/
def priceDirectionCell (trader : Trader) (trade : Attrs) : Except XErr Cell :=
  match trade.get? "@Direction" with
  | some v => .ok (.text v)
  | none =>
    match trader.attrs.get? "@TraderType" with
    | none => .error .other
    | some tt => .ok (typeDirection tt)

/-- `xml_cache.py:557` -/
def priceDirection : Cell → Except XErr (Option String)
  | .text "GEN" => .ok (some "GENERATOR")
  | .text "LOAD" => .ok (some "LOAD")
  | _ => .error .other

/-- `xml_cache.py:520-560` for one trade: without a trade type the service is unknown (`KeyError`) -/
def priceRow (float : String → Option ℚ) (p : Trader × Attrs) : Except XErr BidRow := do
  let duid ← attr p.1.attrs "@TraderID"
  let tradeType ← attr p.2 "@TradeType"
  let dir ← priceDirectionCell p.1 p.2
  let cells ← priceColumns.mapM (priceCell float p.1 p.2)
  let service ← attr bidTypeMap tradeType
  let direction ← priceDirection dir
  return ⟨duid, service, direction, cells⟩

/-- `xml_cache.py:511-560` (`get_unit_price_bids`) -/
def priceBids (float : String → Option ℚ) (traders : List Trader) : Except XErr (List BidRow) :=
  (traders.flatMap fun t => t.priceTrades.items.map fun trade => (t, trade)).mapM (priceRow float)

/-! ### Initial conditions and fast start parameters -/

/-- `xml_cache.py:272-277`: the value of the first condition of the name; `none` is NaN. The conditions are a list with at least one
member, so that `value` is always bound to something of this unit. -/
def conditionValue (float : String → Option ℚ) (name : String) : List Attrs → Except XErr (Option ℚ)
  | [] => .ok none
  | c :: cs => do
    let id ← attr c "@InitialConditionID"
    if id = name then
      let v ← attr c "@Value"
      let q ← number float v
      return some q
    else conditionValue float name cs

/-- A row of the initial conditions -/
structure CondRow where
  duid : String
  traderType : String
  initialMW : Option ℚ
  rampUp : Option ℚ
  rampDown : Option ℚ
  agc : Option ℚ
  deriving DecidableEq, Repr

/-- `xml_cache.py:268-278` for one unit -/
def condRow (float : String → Option ℚ) (intervention : Bool) (t : Trader) : Except XErr CondRow := do
  let duid ← attr t.attrs "@TraderID"
  let ty ← attr t.attrs "@TraderType"
  let mw ← conditionValue float (if intervention then "WhatIfInitialMW" else "InitialMW") t.conditions
  let up ← conditionValue float "SCADARampUpRate" t.conditions
  let down ← conditionValue float "SCADARampDnRate" t.conditions
  let agc ← conditionValue float "AGCStatus" t.conditions
  return ⟨duid, ty, mw, up, down, agc⟩

/-- `xml_cache.py:259-280` (`get_unit_initial_conditions`) -/
def initialConditions (float : String → Option ℚ) (intervention : Bool) (traders : List Trader) : Except XErr (List CondRow) :=
  traders.mapM (condRow float intervention)

/-- A row of the fast start parameters -/
structure FastRow where
  duid : String
  minLoading : ℤ
  mode : ℤ
  modeTime : ℤ
  t1 : ℤ
  t2 : ℤ
  t3 : ℤ
  t4 : ℤ
  deriving DecidableEq, Repr

/-- `int(trader[name])` -/
def intAttr (int : String → Option ℤ) (a : Attrs) (name : String) : Except XErr ℤ := do
  let v ← attr a name
  number int v

/-- `xml_cache.py:344-349`: the value of the hypothetical run without intervention replaces the other; both are converted. -/
def whatIf (int : String → Option ℤ) (a : Attrs) (name other : String) : Except XErr ℤ := do
  let v ← intAttr int a name
  if a.has other then intAttr int a other else return v

/-- `xml_cache.py:338-352` for one unit -/
def fastRow (int : String → Option ℤ) (a : Attrs) : Except XErr FastRow := do
  let min ← intAttr int a "@MinLoadingMW"
  let mode ← whatIf int a "@CurrentMode" "@WhatIfCurrentMode"
  let time ← whatIf int a "@CurrentModeTime" "@WhatIfCurrentModeTime"
  let t1 ← intAttr int a "@T1"
  let t2 ← intAttr int a "@T2"
  let t3 ← intAttr int a "@T3"
  let t4 ← intAttr int a "@T4"
  let duid ← attr a "@TraderID"
  return ⟨duid, min, mode, time, t1, t2, t3, t4⟩

/-- `xml_cache.py:332-355` (`get_unit_fast_start_parameters`) -/
def fastStart (int : String → Option ℤ) (traders : List Trader) : Except XErr (List FastRow) :=
  (traders.filter fun t => t.attrs.has "@CurrentMode").mapM fun t => fastRow int t.attrs

/-- `xml_cache.py:601-609` (`get_UIGF_values`) -/
def uigfRow (float : String → Option ℚ) (a : Attrs) : Except XErr (String × ℚ) := do
  let duid ← attr a "@TraderID"
  let v ← attr a "@UIGF"
  let q ← number float v
  return (duid, q)

def uigf (float : String → Option ℚ) (traders : List Trader) : Except XErr (List (String × ℚ)) :=
  (traders.filter fun t => t.attrs.has "@UIGF").mapM fun t => uigfRow float t.attrs

/-! ### Outputs -/

/-- `NemSpdOutputs`: solutions for the period and for the case -/
structure SpdOutputs where
  period : Coll Attrs
  case : Coll Attrs
  constraints : List Attrs

/-- `xml_cache.py:722` (`is_intervention_period`) -/
def SpdOutputs.intervention (o : SpdOutputs) : Bool :=
  match o.period with
  | .one _ => false
  | .many _ => true

/-- `xml_cache.py:631-643` -/
def violationNames : List (String × String) :=
  [("regional_demand", "@TotalAreaGenViolation"), ("interocnnector", "@TotalInterconnectorViolation"),
   ("generic_constraint", "@TotalGenericViolation"), ("ramp_rate", "@TotalRampRateViolation"),
   ("unit_capacity", "@TotalUnitMWCapacityViolation"), ("energy_constraint", "@TotalEnergyConstrViolation"),
   ("energy_offer", "@TotalEnergyOfferViolation"), ("fcas_profile", "@TotalASProfileViolation"),
   ("fast_start", "@TotalFastStartViolation"), ("mnsp_ramp_rate", "@TotalMNSPRampRateViolation"),
   ("msnp_offer", "@TotalMNSPOfferViolation"), ("mnsp_capacity", "@TotalMNSPCapacityViolation"), ("ugif", "@TotalUIGFViolation")]

/-- `xml_cache.py:647-650`: for one name, over the solutions for the period; the last one counts -/
def periodViolation (float : String → Option ℚ) (name : String) : List Attrs → Option ℚ → Except XErr (Option ℚ)
  | [], acc => .ok acc
  | s :: ss, acc => do
    let i ← attr s "@Intervention"
    if i = "0" then
      match s.get? name with
      | some v => do
        let q ← number float v
        periodViolation float name ss (some q)
      | none => periodViolation float name ss acc
    else periodViolation float name ss acc

/-- `xml_cache.py:653-654`: the value of a solution for the case counts only if there is no value yet -/
def caseValue (float : String → Option ℚ) (name : String) (s : Attrs) : Option ℚ → Except XErr (Option ℚ)
  | some q => .ok (some q)
  | none => do
    let v ← attr s name
    let q ← number float v
    return some q

/-- `xml_cache.py:651-654`: over the solutions for the case -/
def caseViolation (float : String → Option ℚ) (name : String) : List Attrs → Option ℚ → Except XErr (Option ℚ)
  | [], acc => .ok acc
  | s :: ss, acc => do
    let i ← attr s "@Intervention"
    if i = "0" then
      let acc' ← caseValue float name s acc
      caseViolation float name ss acc'
    else caseViolation float name ss acc

/-- `xml_cache.py:645-661` for one name: the entry, if there is one.  A single solution of the case in a file with several
solutions for the period makes the loop over its keys fail. -/
def violationOf (float : String → Option ℚ) (o : SpdOutputs) (name : String) : Except XErr (Option ℚ) :=
  match o.period with
  | .many ss =>
    match o.case with
    | .one _ => .error .other
    | .many cs => do
      let p ← periodViolation float name ss none
      caseViolation float name cs p
  | .one s =>
    match s.get? name with
    | some v => do
      let q ← number float v
      return some q
    | none =>
      match o.case with
      | .many _ => .error .other
      | .one c => do
        let v ← attr c name
        let q ← number float v
        return some q

/-- one entry of the dictionary -/
def violationEntry (float : String → Option ℚ) (o : SpdOutputs) (n : String × String) : Except XErr (List (String × ℚ)) := do
  let v ← violationOf float o n.2
  match v with
  | none => return []
  | some q => return [(n.1, q)]

/-- `xml_cache.py:611-662` (`get_violations`) -/
def getViolations (float : String → Option ℚ) (o : SpdOutputs) : Except XErr (List (String × ℚ)) := do
  let vs ← violationNames.mapM (violationEntry float o)
  return vs.flatten

/-- `xml_cache.py:762-768`: one right hand side -/
def rhsRow (float : String → Option ℚ) (c : Attrs) : Except XErr (List (String × ℚ)) := do
  let i ← attr c "@Intervention"
  if i = "0" then
    let set ← attr c "@ConstraintID"
    let v ← attr c "@RHS"
    let q ← number float v
    return [(set, q)]
  else return []

/-- `xml_cache.py:760-768` (`get_constraint_rhs`) -/
def constraintRhs (float : String → Option ℚ) (o : SpdOutputs) : Except XErr (List (String × ℚ)) := do
  let rows ← o.constraints.mapM (rhsRow float)
  return rows.flatten

/-! ### Generic constraints -/

/-- `GenericConstraint` (`xml_cache.py:866-867`): the terms are missing if `LHSFactorCollection` is empty (`None`) or has no such factor -/
structure GenericConstraint where
  attrs : Attrs
  region : Option (Coll Attrs)
  trader : Option (Coll Attrs)
  interconnector : Option (Coll Attrs)

/-- terms of a constraint: nothing, one or a list -/
def termsOf : Option (Coll Attrs) → List Attrs
  | none => []
  | some c => c.items

/-- A term of a left hand side; `service` is empty for interconnectors -/
structure LhsRow where
  set : String
  subject : String
  service : String
  coefficient : ℚ
  deriving DecidableEq, Repr

/-- `xml_cache.py:868-879`, `932-943` -/
def tradeTerm (float : String → Option ℚ) (key : String) (p : GenericConstraint × Attrs) : Except XErr LhsRow := do
  let set ← attr p.1.attrs "@ConstraintID"
  let subject ← attr p.2 key
  let service ← attr p.2 "@TradeType"
  let v ← attr p.2 "@Factor"
  let q ← number float v
  return ⟨set, subject, service, q⟩

/-- `xml_cache.py:990-999` -/
def interTerm (float : String → Option ℚ) (p : GenericConstraint × Attrs) : Except XErr LhsRow := do
  let set ← attr p.1.attrs "@ConstraintID"
  let subject ← attr p.2 "@InterconnectorID"
  let v ← attr p.2 "@Factor"
  let q ← number float v
  return ⟨set, subject, "", q⟩

/-- the terms of all constraints -/
def allTerms (part : GenericConstraint → Option (Coll Attrs)) (cs : List GenericConstraint) : List (GenericConstraint × Attrs) :=
  cs.flatMap fun c => (termsOf (part c)).map fun term => (c, term)

/-- `xml_cache.py:863-880` (`get_constraint_region_lhs`) -/
def regionLhs (float : String → Option ℚ) (cs : List GenericConstraint) : Except XErr (List LhsRow) :=
  (allTerms GenericConstraint.region cs).mapM (tradeTerm float "@RegionID")

/-- `xml_cache.py:927-944` (`get_constraint_unit_lhs`) -/
def unitLhs (float : String → Option ℚ) (cs : List GenericConstraint) : Except XErr (List LhsRow) :=
  (allTerms GenericConstraint.trader cs).mapM (tradeTerm float "@TraderID")

/-- `xml_cache.py:985-1000` (`get_constraint_interconnector_lhs`) -/
def interLhs (float : String → Option ℚ) (cs : List GenericConstraint) : Except XErr (List LhsRow) :=
  (allTerms GenericConstraint.interconnector cs).mapM (interTerm float)

/-- `InterconnectorPeriod` with its offers -/
structure InterPeriod where
  attrs : Attrs
  offers : List Attrs

/-- `xml_cache.py:1035-1039`: one offer -/
def linkOffer (float : String → Option ℚ) (inter : Attrs) (offer : Attrs) : Except XErr (String × String × ℚ) := do
  let id ← attr inter "@InterconnectorID"
  let region ← attr offer "@RegionID"
  let v ← attr offer "@MaxAvail"
  let q ← number float v
  return (id, region, q)

/-- `xml_cache.py:1034-1039`: one interconnector -/
def linkOffers (float : String → Option ℚ) (i : InterPeriod) : Except XErr (List (String × String × ℚ)) := do
  let mnsp ← attr i.attrs "@MNSP"
  if mnsp = "1" then i.offers.mapM (linkOffer float i.attrs) else return []

/-- `xml_cache.py:1030-1041` (`get_market_interconnector_link_bid_availability`) -/
def linkAvailability (float : String → Option ℚ) (inters : List InterPeriod) : Except XErr (List (String × String × ℚ)) := do
  let rows ← inters.mapM (linkOffers float)
  return rows.flatten

end Verif.Xml
