import Verif.Model.XmlInputs

/-!
# Prices in the NEMDE files and the rerun flag, `historical_inputs/xml_cache.py` and `loaders.py`
-/

namespace Verif.Xml

open Verif

/-- `xml_cache.py:682-699`: the names of `get_constraint_violation_prices` -/
def priceNames : List (String × String) :=
  [("regional_demand", "@EnergyDeficitPrice"), ("interocnnector", "@InterconnectorPrice"),
   ("generic_constraint", "@GenericConstraintPrice"), ("ramp_rate", "@RampRatePrice"), ("unit_capacity", "@CapacityPrice"),
   ("energy_offer", "@OfferPrice"), ("fcas_profile", "@ASProfilePrice"), ("fcas_max_avail", "@ASMaxAvailPrice"),
   ("fcas_enablement_min", "@ASEnablementMinPrice"), ("fcas_enablement_max", "@ASEnablementMaxPrice"),
   ("fast_start", "@FastStartPrice"), ("mnsp_ramp_rate", "@MNSPRampRatePrice"), ("msnp_offer", "@MNSPOfferPrice"),
   ("mnsp_capacity", "@MNSPCapacityPrice"), ("uigf", "@UIGFSurplusPrice"), ("voll", "@VoLL"), ("tiebreak", "@TieBreakPrice")]

/-- `xml_cache.py:702`: one entry of the dictionary -/
def violationPrice (float : String → Option ℚ) (case : Attrs) (n : String × String) : Except XErr (String × ℚ) := do
  let v ← attr case n.2
  let q ← number float v
  return (n.1, q)

/-- `xml_cache.py:664-703` (`get_constraint_violation_prices`): the names are distinct, so the dictionary is the list of its
entries. -/
def violationPrices (float : String → Option ℚ) (case : Attrs) : Except XErr (List (String × ℚ)) :=
  priceNames.mapM (violationPrice float case)

/-- A row of `get_constraint_type` -/
structure TypeRow where
  set : String
  type : String
  cost : ℚ
  deriving DecidableEq, Repr

/-- `xml_cache.py:813-815` -/
def typeRow (float : String → Option ℚ) (c : GenericConstraint) : Except XErr TypeRow := do
  let set ← attr c.attrs "@ConstraintID"
  let type ← attr c.attrs "@Type"
  let v ← attr c.attrs "@ViolationPrice"
  let q ← number float v
  return ⟨set, type, q⟩

/-- `xml_cache.py:770-816` (`get_constraint_type`) -/
def constraintTypes (float : String → Option ℚ) (cs : List GenericConstraint) : Except XErr (List TypeRow) :=
  cs.mapM (typeRow float)

/-- `xml_cache.py:1162-1165`: attributes with a price and their services -/
def serviceTypeMap : List (String × String) :=
  [("@EnergyPrice", "ENERGY"), ("@LRegPrice", "LOWERREG"), ("@RRegPrice", "RAISEREG"), ("@R5Price", "RAISE5MIN"),
   ("@RL5Price", "LOWER5MIN"), ("@R60Price", "RAISE60SEC"), ("@L60Price", "LOWER60SEC"), ("@R6Price", "RAISE6SEC"),
   ("@L6Price", "LOWER6SEC"), ("@R1Price", "RAISE1SEC"), ("@L1Price", "LOWER1SEC")]

/-- A row of `get_service_prices`: prices stay texts (`xml_cache.py:1173`). -/
structure PriceRow where
  region : String
  service : String
  price : String
  deriving DecidableEq, Repr

/-- `xml_cache.py:1170-1173` for one attribute -/
def servicePrice (region : Attrs) (n : String × String) : Except XErr (List PriceRow) :=
  match region.get? n.1 with
  | none => .ok []
  | some p => do
    let r ← attr region "@RegionID"
    return [⟨r, n.2, p⟩]

/-- `xml_cache.py:1168-1173` for one region -/
def regionPrices (region : Attrs) : Except XErr (List PriceRow) := do
  let rows ← serviceTypeMap.mapM (servicePrice region)
  return rows.flatten

/-- `xml_cache.py:1097-1174` (`get_service_prices`): `regions` are the elements `RegionSolution` -/
def servicePrices (regions : List Attrs) : Except XErr (List PriceRow) := do
  let rows ← regions.mapM regionPrices
  return rows.flatten

/-- `loaders.py:178-216` (`is_over_constrained_dispatch_rerun`): `'OCD' in self.xml.get_file_name()`, the file name is looked up
in the folder again (`xml_cache.py:135-159`). -/
def isRerun {ρ : Type} (cache : Dict Name ρ) (t : Time) : Bool := decide ("OCD".toList <:+: fileName cache t)

end Verif.Xml
