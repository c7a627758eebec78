import Verif.Model.RhsInit
import Verif.Spec.RhsCalc

/-! # Specification: what the NEMDE file says about right hand sides -/

namespace Verif.Rpn

open Verif.Xml (Coll)

/-- The value at the last entry with this key. -/
def lastOf {α : Type} (l : List (String × α)) (id : String) : Option α :=
  ((l.filter (fun e => e.1 = id)).getLast?).map (·.2)

/-- The elements that have terms, with their terms. -/
def equationsIn (l : List EqElement) : List (String × List Term) :=
  l.filterMap (fun e => e.terms.map (fun c => (e.id, c.items)))

/-- All measurements of an element, those marked as bad too. -/
def ScadaSet.all (s : ScadaSet) : List (String × ℚ) :=
  s.good.items ++ (match s.bad with | none => [] | some b => b.items)

/-- The measurements in the file with a type and an id. -/
def RhsFile.measurements (f : RhsFile) (typ : SpdType) (id : String) : List ℚ :=
  (f.scada.flatMap (fun s => if s.typ = typ then s.all else [])).filterMap (fun e => if e.1 = id then some e.2 else none)

/-- The availabilities offered by market interconnectors for flow out of one of their regions. -/
def RhsFile.offersFrom (f : RhsFile) : List (String × ℚ) :=
  f.inters.flatMap (fun i => if i.mnsp then i.offers.filterMap (fun o => if o.1 = i.fromRegion then some (i.id, o.2) else none) else [])

/-- The same at the other end. -/
def RhsFile.offersTo (f : RhsFile) : List (String × ℚ) :=
  f.inters.flatMap (fun i => if i.mnsp then
    i.offers.filterMap (fun o => if o.1 ≠ i.fromRegion ∧ o.1 = i.toRegion then some (i.id, o.2) else none) else [])

/-- A market interconnector has an offer for a region that it does not connect. -/
def BadOffer (l : List InterPeriod) : Prop :=
  ∃ i ∈ l, i.mnsp = true ∧ ∃ o ∈ i.offers, o.1 ≠ i.fromRegion ∧ o.1 ≠ i.toRegion

/-- The input value with a type and an id, as the file gives it. -/
def RhsFile.source (f : RhsFile) (typ : SpdType) (id : String) : Option ℚ :=
  match typ with
  | .A | .S | .R | .I | .W => if f.measurements typ id = [] then none else some (f.measurements typ id).sum
  | .T => lastOf f.initial id
  | .E => lastOf f.entered id
  | .M => lastOf f.offersFrom id
  | .N => lastOf f.offersTo id
  | _ => none

/-- A term with its value in the file. -/
def RhsFile.fill (f : RhsFile) (generic : String → Except RErr ℚ) (t : Term) : Except RErr Term :=
  match f.source t.typ t.id with
  | some v => .ok (t.put v)
  | none =>
    if t.typ.measured then .error .keyError
    else if t.typ = .X ∧ (lastOf (equationsIn f.generic) t.id).isSome then (generic t.id).map (fun v => t.put v)
    else .ok t

/-- The terms of an equation with their values. -/
def RhsFile.fillAll (f : RhsFile) (generic : String → Except RErr ℚ) : List Term → Except RErr (List Term)
  | [] => .ok []
  | t :: ts => (f.fill generic t).bind (fun t => (f.fillAll generic ts).map (fun ts => t :: ts))

/-- The value of a generic equation of the file, with at most `n` equations within each other. -/
def RhsFile.genericValue (sqrt : ℚ → ℚ) (f : RhsFile) : Nat → String → Except RErr ℚ
  | 0, _ => .error .recursion
  | n + 1, id =>
    match lastOf (equationsIn f.generic) id with
    | none => .error .keyError
    | some eq => (f.fillAll (f.genericValue sqrt n) eq).bind (rpnCalc sqrt)

/-- The right hand side of a constraint of the file. -/
def RhsFile.rhsValue (sqrt : ℚ → ℚ) (f : RhsFile) (n : Nat) (id : String) : Except RErr ℚ :=
  match lastOf (equationsIn f.constraints) id with
  | none => .error .keyError
  | some eq => (f.fillAll (f.genericValue sqrt n) eq).bind (rpnCalc sqrt)

end Verif.Rpn
