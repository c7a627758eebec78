import Verif.Model.ConstraintFile
import Verif.Spec.XmlInputs
import Verif.Spec.Regional

/-!
# Specification: generic constraints of a NEMDE file

The value of the terms of a constraint in the file in a dispatch, and how the rows of the tables of `ConstraintData` are passed to
the market.
-/

namespace Verif.Cons

open Verif Verif.Xml

/-! ### Reading the file -/

/-- the text of an attribute -/
def text (a : Attrs) (name : String) : String := (a.get? name).getD ""

/-- the factor of a term -/
def factor (float : String → Option ℚ) (a : Attrs) : ℚ := ((a.get? "@Factor").bind float).getD 0

/-- AEMO's trade types and the services of the market -/
def tradeTypes : List (String × Service) :=
  [("ENOF", .energy), ("LDOF", .energy), ("DROF", .energy), ("BDOF", .energy), ("R5RE", .raiseReg), ("L5RE", .lowerReg),
   ("R5MI", .raise5min), ("L5MI", .lower5min), ("R60S", .raise60s), ("L60S", .lower60s), ("R6SE", .raise6s), ("L6SE", .lower6s),
   ("R1SE", .raise1s), ("L1SE", .lower1s)]

/-- the service of a term -/
def termService (a : Attrs) : Service := (Dict.get? tradeTypes (text a "@TradeType")).getD .energy

/-- AEMO's constraint types -/
def sense (c : GenericConstraint) : CType :=
  if text c.attrs "@Type" = "LE" then .le else if text c.attrs "@Type" = "GE" then .ge
  else if text c.attrs "@Type" = "EQ" then .eq else .other

/-- the constraint has this id -/
def Named (c : GenericConstraint) (id : String) : Prop := c.attrs.get? "@ConstraintID" = some id

/-- The file has this right hand side for the constraint, in the run without intervention. -/
def HasRhs (float : String → Option ℚ) (o : SpdOutputs) (id : String) (q : ℚ) : Prop :=
  ∃ e ∈ physical o.constraints, e.get? "@ConstraintID" = some id ∧ IsNumber float e "@RHS" q

/-- No constraint is repeated in the file. -/
def OneEach (cs : List GenericConstraint) : Prop := (cs.map fun c => c.attrs.get? "@ConstraintID").Nodup

/-- No constraint has two right hand sides in the run without intervention. -/
def OneRhsEach (o : SpdOutputs) : Prop := ((physical o.constraints).map fun e => e.get? "@ConstraintID").Nodup

/-! ### Value of the terms in a dispatch -/

/-- units: factor times dispatch for the service -/
def unitTerms (float : String → Option ℚ) (m : Market) (x : Nat → ℚ) (c : GenericConstraint) : ℚ :=
  ((listedTerms c.trader).map fun a => factor float a * m.unitTotal x (text a "@TraderID") (termService a)).sum

/-- interconnectors: factor times flow -/
def interTerms (float : String → Option ℚ) (m : Market) (x : Nat → ℚ) (c : GenericConstraint) : ℚ :=
  ((listedTerms c.interconnector).map fun a => factor float a * m.interTotal x (text a "@InterconnectorID")).sum

/-- regions: enabled volume of the service in the region; the factors are not in it -/
def regionTerms (m : Market) (x : Nat → ℚ) (c : GenericConstraint) : ℚ :=
  ((listedTerms c.region).map fun a => m.supply x (text a "@RegionID") (termService a)).sum

/-- regions, with the factors -/
def regionTermsFactored (float : String → Option ℚ) (m : Market) (x : Nat → ℚ) (c : GenericConstraint) : ℚ :=
  ((listedTerms c.region).map fun a => factor float a * m.supply x (text a "@RegionID") (termService a)).sum

/-- A unit or interconnector of the constraint is in the market: the unit is listed and bids for the service, the interconnector is
defined. -/
def InMarket (m : Market) (c : GenericConstraint) : Prop :=
  (∃ a ∈ listedTerms c.trader, ∃ d, m.lists (text a "@TraderID") d ∧ m.bidsFor (text a "@TraderID") (termService a) d) ∨
  (∃ a ∈ listedTerms c.interconnector, ∃ d ∈ m.dirs.getD [], d.inter = text a "@InterconnectorID")

/-! ### Passing tables to the market -/

/-- the names of services -/
def namedService : String → Option Service
  | "energy" => some .energy
  | "raise_reg" => some .raiseReg
  | "lower_reg" => some .lowerReg
  | "raise_5min" => some .raise5min
  | "lower_5min" => some .lower5min
  | "raise_60s" => some .raise60s
  | "lower_60s" => some .lower60s
  | "raise_6s" => some .raise6s
  | "lower_6s" => some .lower6s
  | "raise_1s" => some .raise1s
  | "lower_1s" => some .lower1s
  | _ => none

/-- the names of constraint types -/
def namedType (s : String) : CType := if s = "<=" then .le else if s = ">=" then .ge else if s = "=" then .eq else .other

/-- a row of `get_unit_lhs` passed to `link_units_to_generic_constraints` -/
def LhsRow.toMarket (r : LhsRow) : Option GUnit := (namedService r.service).map (fun s => ⟨r.set, r.who, s, r.coef⟩)

/-- a row of `get_interconnector_lhs` passed to `link_interconnectors_to_generic_constraints` -/
def InterLhs.toMarket (r : InterLhs) : GInter := ⟨r.set, r.inter, r.coef⟩

/-- a row of `get_rhs_and_type_excluding_regional_fcas_constraints` passed to `set_generic_constraints` -/
def RhsType.toMarket (r : RhsType) : GenericRow := ⟨r.set, namedType r.type, r.rhs⟩

/-- a row of `get_fcas_requirements` passed to `set_fcas_requirements_constraints` -/
def Requirement.toMarket (r : Requirement) : Option FcasReq :=
  (namedService r.service).map (fun s => { set := r.set, service := s, region := r.region, volume := r.volume, ctype := namedType r.type })

end Verif.Cons
