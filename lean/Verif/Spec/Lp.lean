import Verif.Model.Core

/-!
# Specification: linear programs and their feasible points

What it means for an assignment of numbers to decision variables to satisfy a program with
bounds, linear rows and special ordered sets.  This is the meaning given to the object handed to
the solver; it does not mention how the object is built.
-/

namespace Verif

/-- A decision variable with its bounds (`none` = +infinity). -/
structure LVar where
  vid : Nat
  lb : ℚ
  ub : Option ℚ
  deriving DecidableEq, Repr

/-- A coefficient of a variable in a constraint. -/
structure Term where
  cid : Nat
  vid : Nat
  coef : ℚ
  deriving DecidableEq, Repr

/-- Right hand side: a number or (for "dynamic" right hand sides) a decision variable. -/
inductive Rhs
  | const (q : ℚ)
  | var (vid : Nat)
  deriving DecidableEq, Repr

/-- A constraint handed to the solver: the coefficients per variable, a sense, a right hand side. -/
structure LRow where
  cid : Nat
  coefs : List (Nat × ℚ)
  ctype : CType
  rhs : Rhs
  deriving DecidableEq, Repr

/-- The program handed to the solver. `sos2` lists sets of (variable, position), `sos1` sets of
variables, `obj` the cost terms to be minimised. -/
structure Lp where
  vars : List LVar
  rows : List LRow
  sos2 : List (List (Nat × Int))
  sos1 : List (List Nat)
  obj : List (Nat × ℚ)
  deriving DecidableEq, Repr

/-- value of a right hand side -/
def Rhs.eval (x : Nat → ℚ) : Rhs → ℚ
  | .const q => q
  | .var v => x v

/-- value of a linear form -/
def linVal (x : Nat → ℚ) (cs : List (Nat × ℚ)) : ℚ := (cs.map (fun c => c.2 * x c.1)).sum

/-- `l` and `r` are related by the sense of the constraint -/
def CType.holds : CType → ℚ → ℚ → Prop
  | .le, l, r => l ≤ r
  | .eq, l, r => l = r
  | .ge, l, r => l ≥ r
  | .other, _, _ => False

def LRow.holds (x : Nat → ℚ) (r : LRow) : Prop := r.ctype.holds (linVal x r.coefs) (r.rhs.eval x)

def LVar.holds (x : Nat → ℚ) (v : LVar) : Prop :=
  v.lb ≤ x v.vid ∧ ∀ u, v.ub = some u → x v.vid ≤ u

/-- Special ordered set of type 2: two members that are both non zero have no member of the set
strictly between them. -/
def Sos2 (x : Nat → ℚ) (g : List (Nat × Int)) : Prop :=
  ∀ a ∈ g, ∀ b ∈ g, x a.1 ≠ 0 → x b.1 ≠ 0 → ∀ c ∈ g, ¬ (a.2 < c.2 ∧ c.2 < b.2)

/-- Special ordered set of type 1: at most one member is non zero. -/
def Sos1 (x : Nat → ℚ) (g : List Nat) : Prop :=
  ∀ a ∈ g, ∀ b ∈ g, x a ≠ 0 → x b ≠ 0 → a = b

/-- `x` is a feasible point of the program. -/
structure Feasible (lp : Lp) (x : Nat → ℚ) : Prop where
  vars : ∀ v ∈ lp.vars, v.holds x
  rows : ∀ r ∈ lp.rows, r.holds x
  sos2 : ∀ g ∈ lp.sos2, Sos2 x g
  sos1 : ∀ g ∈ lp.sos1, Sos1 x g

/-- objective value -/
def Lp.cost (lp : Lp) (x : Nat → ℚ) : ℚ := linVal x lp.obj

/-- `x` is an optimal solution. -/
def Optimal (lp : Lp) (x : Nat → ℚ) : Prop :=
  Feasible lp x ∧ ∀ y, Feasible lp y → lp.cost x ≤ lp.cost y

end Verif
