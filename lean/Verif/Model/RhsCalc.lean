import Verif.Model.Rpn

/-!
# `RHSCalc`, `rhs_calculator.py:7-523`

The calculator holds the data read from the NEMDE file and its methods write the values found for the terms of an equation
into that equation.  A method is a function from the data to a result and the data afterwards, also when it raises.

Simplifications: values are numbers (the file has texts, converted with `float`).  The terms evaluated are those resolved in
the same call; in the code they are the stored ones, which differ only if an equation is evaluated within its own
evaluation, and such a cycle ends with RecursionError.  If the stack machine raises, the values of group headers written
before are not tracked; they are removed at the start of the next evaluation (`_clear_group_values`).
-/

namespace Verif.Rpn

/-- The attributes of `RHSCalc` (`rhs_calculator.py:36-49`).  `scada` is keyed by type and id; there is at least one value
for each id (`rhs_calculator.py:92-97`). -/
structure Data where
  scada : Dict (SpdType × String) (ℚ × List ℚ) := []
  unitMw : Dict String ℚ := []
  entered : Dict String ℚ := []
  mnspFrom : Dict String ℚ := []
  mnspTo : Dict String ℚ := []
  generic : Dict String (List Term) := []
  rhs : Dict String (List Term) := []
  deriving DecidableEq, Repr

/-- A stored equation. -/
inductive Ref
  | generic (id : String)
  | rhs (id : String)
  deriving DecidableEq, Repr

/-- `self.generic_equations[id]`, `self.rhs_constraint_equations[id]` -/
def Data.eqOf (d : Data) : Ref → Option (List Term)
  | .generic id => d.generic.get? id
  | .rhs id => d.rhs.get? id

/-- change the terms of the equation with an id -/
def onKey (f : List Term → List Term) (d : Dict String (List Term)) (id : String) : Dict String (List Term) :=
  match d.get? id with
  | none => d
  | some eq => d.set id (f eq)

/-- a write to the terms of a stored equation -/
def Data.modify (d : Data) (r : Ref) (f : List Term → List Term) : Data :=
  match r with
  | .generic id => { d with generic := onKey f d.generic id }
  | .rhs id => { d with rhs := onKey f d.rhs id }

/-- Type of the result of a method. -/
abbrev Res (α : Type) := Except RErr α × Data

/-- `rhs_calculator.py:457-498` (`_resolve_term_value`); `sub` is `_compute_generic_equation` -/
def resolveTerm (sub : String → Data → Res ℚ) (t : Term) (d : Data) : Res (Option ℚ) :=
  match t.typ with
  | .C => (.ok none, d)
  | .A | .S | .R | .I | .W =>
    match d.scada.get? (t.typ, t.id) with
    | none => (.error .keyError, d)
    | some (v, vs) => (.ok (some (v + vs.sum)), d)
  | .T => (.ok (d.unitMw.get? t.id), d)
  | .E => (.ok (d.entered.get? t.id), d)
  | .X =>
    match d.generic.get? t.id with
    | none => (.ok none, d)
    | some _ =>
      match sub t.id d with
      | (.ok v, d) => (.ok (some v), d)
      | (.error e, d) => (.error e, d)
  | .M => (.ok (d.mnspFrom.get? t.id), d)
  | .N => (.ok (d.mnspTo.get? t.id), d)
  | _ => (.ok none, d)

/-- `rhs_calculator.py:438-455` (`_resolve_term_values`) for the terms from position `i` on of a stored equation -/
def resolveAll (sub : String → Data → Res ℚ) (r : Ref) : Nat → List Term → Data → Res (List Term)
  | _, [], d => (.ok [], d)
  | i, t :: ts, d =>
    match resolveTerm sub t d with
    | (.error e, d) => (.error e, d)
    | (.ok none, d) =>
      match resolveAll sub r (i + 1) ts d with
      | (.ok ts, d) => (.ok (t :: ts), d)
      | (.error e, d) => (.error e, d)
    | (.ok (some v), d) =>
      match resolveAll sub r (i + 1) ts (d.modify r (fun eq => setValue eq i v)) with
      | (.ok ts, d) => (.ok ({ t with value := some v } :: ts), d)
      | (.error e, d) => (.error e, d)

/-- `rhs_calculator.py:346-349` and `rhs_calculator.py:520-523`: resolve the terms of a stored equation and evaluate it -/
def computeEq (sqrt : ℚ → ℚ) (sub : String → Data → Res ℚ) (r : Ref) (d : Data) : Res ℚ :=
  match d.eqOf r with
  | none => (.error .keyError, d)
  | some eq =>
    match resolveAll sub r 0 eq d with
    | (.error e, d) => (.error e, d)
    | (.ok eq, d) =>
      match rpnWith sqrt (rpnCalc sqrt) eq with
      | .error e => (.error e, d.modify r (fun _ => clearGroupValues eq))
      | .ok st => (top st.stack, d.modify r (fun _ => st.eq))

/-- `rhs_calculator.py:500-523` (`_compute_generic_equation`).  The recursion raises RecursionError at some depth; here the
depth is a parameter. -/
def computeGeneric (sqrt : ℚ → ℚ) : Nat → String → Data → Res ℚ
  | 0, _, d => (.error .recursion, d)
  | n + 1, id, d => computeEq sqrt (computeGeneric sqrt n) (.generic id) d

/-- `rhs_calculator.py:320-349` (`compute_constraint_rhs` with one id) -/
def computeRhs (sqrt : ℚ → ℚ) (depth : Nat) (id : String) (d : Data) : Res ℚ :=
  computeEq sqrt (computeGeneric sqrt depth) (.rhs id) d

/-- `rhs_calculator.py:350-360` (`compute_constraint_rhs` with a list): the columns `set` and `rhs` of the table -/
def computeRhsList (sqrt : ℚ → ℚ) (depth : Nat) : List String → Data → Res (List (String × ℚ))
  | [], d => (.ok [], d)
  | id :: ids, d =>
    match computeRhs sqrt depth id d with
    | (.error e, d) => (.error e, d)
    | (.ok v, d) =>
      match computeRhsList sqrt depth ids d with
      | (.error e, d) => (.error e, d)
      | (.ok vs, d) => (.ok ((id, v) :: vs), d)

/-- `rhs_calculator.py:401-436` (`update_spd_id_value`); on an exception nothing has been changed -/
def updateValue (d : Data) (id : String) (typ : SpdType) (v : ℚ) : Except RErr Data :=
  match typ with
  | .C | .R | .X => .error .valueError
  | .A | .S | .I | .W =>
    match d.scada.get? (typ, id) with
    | none => .error .keyError
    | some (_, vs) => if vs.length + 1 > 1 then .error .valueError else .ok { d with scada := d.scada.set (typ, id) (v, vs) }
  | .T => if d.unitMw.get? id = none then .error .valueError else .ok { d with unitMw := d.unitMw.set id v }
  | .E => if d.entered.get? id = none then .error .valueError else .ok { d with entered := d.entered.set id v }
  | .M => if d.mnspFrom.get? id = none then .error .valueError else .ok { d with mnspFrom := d.mnspFrom.set id v }
  | .N => if d.mnspTo.get? id = none then .error .valueError else .ok { d with mnspTo := d.mnspTo.set id v }
  | _ => .error .valueError

/-- `rhs_calculator.py:384-389`: the generic equations with a term of this id and type, each once -/
def dependentGenerics (d : Data) (id : String) (typ : SpdType) : List String :=
  d.generic.foldl (fun l p => p.2.foldl (fun l t => if t.id = id ∧ t.typ = typ ∧ p.1 ∉ l then l ++ [p.1] else l) l) []

/-- `rhs_calculator.py:391-399` (`get_rhs_constraint_equations_that_depend_value`) -/
def dependents (d : Data) (id : String) (typ : SpdType) : List String :=
  d.rhs.foldl (fun l p => p.2.foldl (fun l t =>
    if t.id = id ∧ t.typ = typ ∧ p.1 ∉ l ∨ t.id ∈ dependentGenerics d id typ ∧ t.typ = .X then l ++ [p.1] else l) l) []

end Verif.Rpn
