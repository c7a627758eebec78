import Verif.Model.Rpn

/-!
# Specification: the stack machine of the constraint implementation guidelines

The guidelines (AEMO, Constraint Implementation Guidelines, appendix A) are quoted in the comments of
`rhs_calculator.py:663-1024`; this is what they say, one rule per operator.  The top of the stack is on the left, `k` is the
multiplier of the term.
-/

namespace Verif.Rpn

/-- Operators taking two numbers: the result of `op b a` where `a` is the upper one. -/
inductive Binary : Op → (ℚ → ℚ → ℚ) → Prop
  | add : Binary .add (fun b a => b + a)
  | sub : Binary .sub (fun b a => b - a)
  | mul : Binary .mul (fun b a => b * a)
  | max : Binary .max (fun b a => Max.max b a)
  | min : Binary .min (fun b a => Min.min b a)

/-- Operators taking one number. -/
inductive Unary (sqrt : ℚ → ℚ) : Op → (ℚ → ℚ) → Prop
  | pow2 : Unary sqrt .pow2 (fun a => a ^ 2)
  | pow3 : Unary sqrt .pow3 (fun a => a ^ 3)
  | sqrt : Unary sqrt .sqrt sqrt
  | abs : Unary sqrt .abs (fun a => |a|)
  | neg : Unary sqrt .neg (fun a => -a)

/-- The value of the term, or its default if the value is not known. -/
def Term.Known (t : Term) (v : ℚ) : Prop := t.value = some v ∨ t.value = none ∧ t.dflt = some v

/-- One step of the stack machine: `(pop flag, stack)` before and after. -/
inductive Does (sqrt : ℚ → ℚ) (t : Term) : Bool × Stack → Bool × Stack → Prop
  /-- A.2: without operator, multiplier times value is added to the top of the stack -/
  | sum {f a s v} : t.op = none → t.value = some v → Does sqrt t (f, a :: s) (f, (a + t.mult * v) :: s)
  /-- A.2: a term without value is the constant `k` -/
  | const {f a s} : t.op = none → t.typ ≠ .U → t.value = none → Does sqrt t (f, a :: s) (f, (a + t.mult) :: s)
  /-- A.5: type U without operator multiplies the top of the stack -/
  | scale {f a s} : t.op = none → t.typ = .U → t.value = none → Does sqrt t (f, a :: s) (f, (a * t.mult) :: s)
  /-- A.6.1: step function -/
  | stepU {f a s} : t.op = some .step → t.typ = .U → Does sqrt t (f, a :: s) (f, (if 0 < a then t.mult else 0) :: s)
  | stepV {f a s v} : t.op = some .step → t.typ ≠ .U → t.Known v → Does sqrt t (f, a :: s) (f, (a + if 0 < v then t.mult else 0) :: s)
  /-- A.6.2-A.6.6: functions of the top of the stack, of a constant or of the value of the term -/
  | unU {o g f a s} : t.op = some o → Unary sqrt o g → t.typ = .U → Does sqrt t (f, a :: s) (f, g a * t.mult :: s)
  | unC {o g f a s} : t.op = some o → Unary sqrt o g → t.typ = .C → Does sqrt t (f, a :: s) (f, (a + g t.mult) :: s)
  | unV {o g f a s v} : t.op = some o → Unary sqrt o g → t.typ ≠ .U → t.typ ≠ .C → t.value = some v →
      Does sqrt t (f, a :: s) (f, (a + g v * t.mult) :: s)
  /-- A.7: the two top elements, or the top element and the constant or value of the term -/
  | binU {o g f a b s} : t.op = some o → Binary o g → t.typ = .U → Does sqrt t (f, a :: b :: s) (f, g b a * t.mult :: s)
  | binC {o g f a s} : t.op = some o → Binary o g → t.typ = .C → Does sqrt t (f, a :: s) (f, g a t.mult :: s)
  | binV {o g f a s v} : t.op = some o → Binary o g → t.typ ≠ .U → t.typ ≠ .C → t.Known v →
      Does sqrt t (f, a :: s) (f, g a v * t.mult :: s)
  | divU {f a b s} : t.op = some .div → t.typ = .U → a ≠ 0 → Does sqrt t (f, a :: b :: s) (f, b / a * t.mult :: s)
  | divC {f a s} : t.op = some .div → t.typ = .C → t.mult ≠ 0 → Does sqrt t (f, a :: s) (f, a / t.mult :: s)
  | divV {f a s v} : t.op = some .div → t.typ ≠ .U → t.typ ≠ .C → t.Known v → v ≠ 0 → Does sqrt t (f, a :: s) (f, a / v * t.mult :: s)
  /-- A.8.1 push -/
  | pushC {f s} : t.op = some .push → t.typ = .C → Does sqrt t (f, s) (f, t.mult :: s)
  | pushV {f s v} : t.op = some .push → t.typ ≠ .C → t.Known v → Does sqrt t (f, s) (f, t.mult * v :: s)
  /-- A.8.2 duplicate -/
  | dup {f a s} : t.op = some .dup → t.typ = .U → Does sqrt t (f, a :: s) (f, a * t.mult :: a :: s)
  /-- A.8.3 exchange -/
  | exch {f a b s} : t.op = some .exch → t.typ = .U → Does sqrt t (f, a :: b :: s) (f, b * t.mult :: a :: s)
  /-- A.8.4 roll stack down: the bottom element becomes the top -/
  | rsd {f a s b} : t.op = some .rsd → t.typ = .U → Does sqrt t (f, a :: s ++ [b]) (f, b * t.mult :: a :: s)
  /-- A.8.5 roll stack up: the top element becomes the bottom -/
  | rsu {f a b s} : t.op = some .rsu → t.typ = .U → Does sqrt t (f, a :: b :: s) (f, b * t.mult :: s ++ [a])
  /-- A.9.1 pop: the flag tells whether the number was at most zero -/
  | popU {f a s} : t.op = some .pop → t.typ = .U → Does sqrt t (f, a :: s) (decide (a ≤ 0), s)
  | popV {f s v} : t.op = some .pop → t.typ ≠ .U → t.value = some v → Does sqrt t (f, s) (decide (v ≤ 0), s)
  /-- A.9.2 exchange if the popped number was at most zero -/
  | exlez {a b s} : t.op = some .exlez → t.typ = .U → Does sqrt t (true, a :: b :: s) (false, b * t.mult :: a :: s)
  | noExlez {s} : t.op = some .exlez → t.typ = .U → Does sqrt t (false, s) (false, s)

/-- The machine runs through the terms of an equation. -/
inductive Runs (sqrt : ℚ → ℚ) : List Term → Bool × Stack → Bool × Stack → Prop
  | done {p} : Runs sqrt [] p p
  | next {t ts p q r} : Does sqrt t p q → Runs sqrt ts q r → Runs sqrt (t :: ts) p r

/-- An equation without groups and without branches. -/
def Plain (eq : List Term) : Prop := ∀ t ∈ eq, t.group = none ∧ t.typ ≠ .G ∧ t.typ ≠ .B

/-- Combinations of operator and type the guidelines define. -/
def Term.Defined (t : Term) : Prop :=
  (∀ s, t.op ≠ some (.other s)) ∧ (t.op = some .dup ∨ t.op = some .exch ∨ t.op = some .rsd ∨ t.op = some .rsu ∨ t.op = some .exlez → t.typ = .U)

/-- Terms needing two stack elements. -/
def Term.NeedsTwo (t : Term) : Prop :=
  t.typ = .U ∧ (t.op = some .add ∨ t.op = some .sub ∨ t.op = some .mul ∨ t.op = some .div ∨ t.op = some .max ∨ t.op = some .min ∨
    t.op = some .exch ∨ t.op = some .rsd ∨ t.op = some .rsu)

/-- Constants in two number operations carry a value or default, which the code looks up although it does not use it. -/
def Term.Backed (t : Term) : Prop :=
  t.typ = .C → (t.op = some .add ∨ t.op = some .sub ∨ t.op = some .mul ∨ t.op = some .div ∨ t.op = some .max ∨ t.op = some .min) → ∃ v, t.Known v

/-- Cases the guidelines exclude and the code accepts: a type U addition or a conditional exchange with fewer than two
elements on the stack. -/
def Lenient (t : Term) (p : Bool × Stack) : Prop :=
  t.typ = .U ∧ p.2.length < 2 ∧ (t.op = some .add ∨ t.op = some .exlez ∧ p.1 = true)

/-- As `Lenient`, or a sum or step on the empty stack, which is taken to contain a zero. -/
def Tolerated (t : Term) (p : Bool × Stack) : Prop :=
  Lenient t p ∨ p.2 = [] ∧ (t.op = none ∨ t.op = some .step)

end Verif.Rpn
