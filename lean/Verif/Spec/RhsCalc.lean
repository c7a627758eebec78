import Verif.Model.RhsCalc

/-! # Specification: the value of a right hand side -/

namespace Verif.Rpn

/-- The input value with a type and an id: the sum of the SCADA measurements, the initial output of a unit, an entered value or
the availability of a market interconnector. -/
def Data.source (d : Data) (typ : SpdType) (id : String) : Option ℚ :=
  match typ with
  | .A | .S | .R | .I | .W => (d.scada.get? (typ, id)).map (fun v => v.1 + v.2.sum)
  | .T => d.unitMw.get? id
  | .E => d.entered.get? id
  | .M => d.mnspFrom.get? id
  | .N => d.mnspTo.get? id
  | _ => none

/-- Types that must have an input value. -/
def SpdType.measured : SpdType → Bool
  | .A | .S | .R | .I | .W => true
  | _ => false

/-- The term with this value. -/
def Term.put (t : Term) (v : ℚ) : Term := { t with value := some v }

/-- A term with the value it has in an evaluation: its input value, the value of the generic equation it names, or what is in the
file. -/
def Data.fill (d : Data) (generic : String → Except RErr ℚ) (t : Term) : Except RErr Term :=
  match d.source t.typ t.id with
  | some v => .ok (t.put v)
  | none =>
    if t.typ.measured then .error .keyError
    else if t.typ = .X ∧ d.generic.has t.id then (generic t.id).map (fun v => t.put v)
    else .ok t

/-- The terms of an equation with their values. -/
def Data.fillAll (d : Data) (generic : String → Except RErr ℚ) : List Term → Except RErr (List Term)
  | [] => .ok []
  | t :: ts => (d.fill generic t).bind (fun t => (d.fillAll generic ts).map (fun ts => t :: ts))

/-- The value of a generic equation, with at most `n` equations within each other. -/
def Data.genericValue (sqrt : ℚ → ℚ) (d : Data) : Nat → String → Except RErr ℚ
  | 0, _ => .error .recursion
  | n + 1, id =>
    match d.generic.get? id with
    | none => .error .keyError
    | some eq => (d.fillAll (d.genericValue sqrt n) eq).bind (rpnCalc sqrt)

/-- The right hand side of a constraint. -/
def Data.rhsValue (sqrt : ℚ → ℚ) (d : Data) (n : Nat) (id : String) : Except RErr ℚ :=
  match d.rhs.get? id with
  | none => .error .keyError
  | some eq => (d.fillAll (d.genericValue sqrt n) eq).bind (rpnCalc sqrt)

/-- A call of the calculator. -/
inductive RCall
  | compute (depth : Nat) (id : String)
  | computeList (depth : Nat) (ids : List String)
  | update (id : String) (typ : SpdType) (v : ℚ)

/-- The calculator after a call; the user catches exceptions. -/
def RCall.run (sqrt : ℚ → ℚ) (d : Data) : RCall → Data
  | .compute n id => (computeRhs sqrt n id d).2
  | .computeList n ids => (computeRhsList sqrt n ids d).2
  | .update id typ v =>
    match updateValue d id typ v with
    | .ok d => d
    | .error _ => d

/-- Updates, not computations. -/
def RCall.isUpdate : RCall → Bool
  | .update _ _ _ => true
  | _ => false

end Verif.Rpn
