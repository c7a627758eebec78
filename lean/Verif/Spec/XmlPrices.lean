import Verif.Model.XmlPrices
import Verif.Spec.XmlInputs

/-!
# Specification: prices in the NEMDE files
-/

namespace Verif.Xml

open Verif

/-- The kinds of constraints and the attributes of the case that have their violation prices -/
def violationPriceAttributes : List (String × String) :=
  [("regional_demand", "EnergyDeficit"), ("interocnnector", "Interconnector"), ("generic_constraint", "GenericConstraint"),
   ("ramp_rate", "RampRate"), ("unit_capacity", "Capacity"), ("energy_offer", "Offer"), ("fcas_profile", "ASProfile"),
   ("fcas_max_avail", "ASMaxAvail"), ("fcas_enablement_min", "ASEnablementMin"), ("fcas_enablement_max", "ASEnablementMax"),
   ("fast_start", "FastStart"), ("mnsp_ramp_rate", "MNSPRampRate"), ("msnp_offer", "MNSPOffer"),
   ("mnsp_capacity", "MNSPCapacity"), ("uigf", "UIGFSurplus")].map (fun n => (n.1, "@" ++ n.2 ++ "Price")) ++
  [("voll", "@VoLL"), ("tiebreak", "@TieBreakPrice")]

/-- The number in an attribute of an element -/
def HasNumber (float : String → Option ℚ) (element : Attrs) (name : String) (q : ℚ) : Prop :=
  ∃ text, element.get? name = some text ∧ float text = some q

/-- The attributes that are read for the prices of the services.  The one for LOWER5MIN is not named like the others. -/
def readPriceAttributes : List (String × String) :=
  [("ENERGY", "@EnergyPrice"), ("RAISEREG", "@RRegPrice"), ("LOWERREG", "@LRegPrice"), ("RAISE5MIN", "@R5Price"),
   ("LOWER5MIN", "@RL5Price"), ("RAISE60SEC", "@R60Price"), ("LOWER60SEC", "@L60Price"), ("RAISE6SEC", "@R6Price"),
   ("LOWER6SEC", "@L6Price"), ("RAISE1SEC", "@R1Price"), ("LOWER1SEC", "@L1Price")]

end Verif.Xml
