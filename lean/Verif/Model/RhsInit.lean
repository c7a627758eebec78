import Verif.Model.RhsCalc
import Verif.Model.XmlInputs

/-!
# `RHSCalc.__init__`, `rhs_calculator.py:36-318`: from the NEMDE file to the data of the calculator

Simplifications: values are numbers (the code keeps the texts and converts them when they are used).  Collections that the code
iterates without a check of their type (`ConstraintScadaData`, `GenericEquation`, `GenericConstraint`, `EnteredValuePeriod`,
`InterconnectorPeriod`) have two or more elements, so that they are lists.  The rows of the two tables of the cache manager
(`xml_cache.py:259-280`, `xml_cache.py:760-768`) are given; a missing initial output (NaN) is not modelled.  `@GoodValues` and the
other attributes of a measurement are never read (`rhs_calculator.py:474-485`).
-/

namespace Verif.Rpn

open Verif.Xml (Coll)

/-- `GenericEquation` or `GenericConstraint`: the terms are missing without `RHSTermCollection` -/
structure EqElement where
  id : String
  terms : Option (Coll Term)

/-- `ConstraintScadaData`: the measurements, with their ids, of one type -/
structure ScadaSet where
  typ : SpdType
  good : Coll (String × ℚ)
  bad : Option (Coll (String × ℚ))

/-- `InterconnectorPeriod` with its `MNSPOffer` elements, region and `@MaxAvail` -/
structure InterPeriod where
  id : String
  /-- `@MNSP == '1'` -/
  mnsp : Bool
  fromRegion : String
  toRegion : String
  offers : List (String × ℚ)

/-- The parts of the file that the calculator reads. -/
structure RhsFile where
  scada : List ScadaSet
  generic : List EqElement
  constraints : List EqElement
  /-- `DUID` and `INITIALMW` of the unit initial conditions -/
  initial : List (String × ℚ)
  entered : List (String × ℚ)
  inters : List InterPeriod
  /-- `set` and `rhs` of the constraint right hand sides found by NEMDE -/
  nemde : List (String × ℚ)

/-- `rhs_calculator.py:92-97` (`add_entry`) on the dictionary of one type -/
def addEntry (d : Dict String (ℚ × List ℚ)) (e : String × ℚ) : Dict String (ℚ × List ℚ) :=
  match d.get? e.1 with
  | none => d.set e.1 (e.2, [])
  | some (v, vs) => d.set e.1 (v, vs ++ [e.2])

/-- `rhs_calculator.py:99-114`: the measurements of one type, first the good ones then the bad ones -/
def scadaOf (s : ScadaSet) : Dict String (ℚ × List ℚ) :=
  match s.bad with
  | none => s.good.items.foldl addEntry []
  | some bad => bad.items.foldl addEntry (s.good.items.foldl addEntry [])

/-- `rhs_calculator.py:52-116` (`_reformat_scada_data`): a repeated type starts again from nothing -/
def reformatScada (l : List ScadaSet) : Dict SpdType (Dict String (ℚ × List ℚ)) :=
  l.foldl (fun d s => d.set s.typ (scadaOf s)) []

/-- The nested dictionary with pairs as keys, as `Data` has it. -/
def flatScada (d : Dict SpdType (Dict String (ℚ × List ℚ))) : Dict (SpdType × String) (ℚ × List ℚ) :=
  d.flatMap (fun p => p.2.map (fun q => ((p.1, q.1), q.2)))

/-- `rhs_calculator.py:149-154`: one step of the loop -/
def addEquation (d : Dict String (List Term)) (e : EqElement) : Dict String (List Term) :=
  match e.terms with
  | none => d
  | some c => d.set e.id c.items

/-- `rhs_calculator.py:119-155` (`_format_generic_equations`) and `rhs_calculator.py:158-198`
(`_format_rhs_constraint_equations`): the same loop with another name of the id -/
def formatEquations (l : List EqElement) : Dict String (List Term) := l.foldl addEquation []

/-- `rhs_calculator.py:200-214` (`_format_initial_conditions`), `rhs_calculator.py:216-230` (`_format_nemde_rhs_values`) and
`rhs_calculator.py:232-249` (`_format_entered_values`): the last value of a repeated id stays -/
def lastValues (l : List (String × ℚ)) : Dict String ℚ := l.foldl (fun d e => d.set e.1 e.2) []

/-- `rhs_calculator.py:271-276`: one offer of a market interconnector -/
def addOffer (i : InterPeriod) (p : Dict String ℚ × Dict String ℚ) (o : String × ℚ) : Except RErr (Dict String ℚ × Dict String ℚ) :=
  if o.1 = i.fromRegion then .ok (p.1.set i.id o.2, p.2)
  else if o.1 = i.toRegion then .ok (p.1, p.2.set i.id o.2)
  else .error .valueError

/-- `rhs_calculator.py:269-276`: one interconnector -/
def addInter (p : Dict String ℚ × Dict String ℚ) (i : InterPeriod) : Except RErr (Dict String ℚ × Dict String ℚ) :=
  if i.mnsp then i.offers.foldlM (addOffer i) p else .ok p

/-- `rhs_calculator.py:251-277` (`_format_mnsp_availability`) -/
def mnspAvailability (l : List InterPeriod) : Except RErr (Dict String ℚ × Dict String ℚ) := l.foldlM addInter ([], [])

/-- The calculator with the right hand sides found by NEMDE. -/
structure Calc where
  data : Data
  nemde : Dict String ℚ

/-- `rhs_calculator.py:36-49` (`RHSCalc.__init__`) -/
def initCalc (f : RhsFile) : Except RErr Calc :=
  match mnspAvailability f.inters with
  | .error e => .error e
  | .ok (a, b) => .ok
    { data :=
        { scada := flatScada (reformatScada f.scada)
          unitMw := lastValues f.initial
          entered := lastValues f.entered
          mnspFrom := a
          mnspTo := b
          generic := formatEquations f.generic
          rhs := formatEquations f.constraints }
      nemde := lastValues f.nemde }

/-- `rhs_calculator.py:297-318` (`get_nemde_rhs`) -/
def Calc.nemdeRhs (c : Calc) (id : String) : Except RErr ℚ :=
  match c.nemde.get? id with
  | none => .error .keyError
  | some v => .ok v

/-- `rhs_calculator.py:289-292`: whether a term names a generic equation, of any type -/
def refersGeneric (d : Data) (eq : List Term) : Bool := eq.foldl (fun b t => if d.generic.has t.id then true else b) false

/-- `rhs_calculator.py:279-295` (`_get_rhs_equations_that_dont_reference_generic_equations`) -/
def withoutGeneric (d : Data) : List String :=
  d.rhs.foldl (fun l p => if refersGeneric d p.2 = false then l ++ [p.1] else l) []

end Verif.Rpn
