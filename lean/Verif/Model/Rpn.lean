import Verif.Model.Core

/-!
# Right hand side calculator, `rhs_calculator.py`

Python dictionaries of terms are mutated by the calculator; here functions return the mutated equation.  Numbers are
rational; the square root `x ** 0.5` is an arbitrary function `sqrt` passed to the calculator.  Texts that are not numbers
are not modelled.
-/

namespace Verif.Rpn

/-- `@SpdType` -/
inductive SpdType
  | A | S | I | W | R | C | T | E | X | M | N | G | U | B | other (s : String)
  deriving DecidableEq, Repr

/-- `@Operation` -/
inductive Op
  | add | sub | mul | div | max | min | step | pow2 | pow3 | sqrt | abs | neg | push | dup | exch | rsd | rsu | pop | exlez
  | other (s : String)
  deriving DecidableEq, Repr

/-- A term of an equation, `rhs_calculator.py:121-147`; absent attributes are `none`. -/
structure Term where
  id : String := ""
  typ : SpdType
  mult : ℚ := 1
  op : Option Op := none
  value : Option ℚ := none
  dflt : Option ℚ := none
  group : Option String := none
  deriving DecidableEq, Repr

/-- Exceptions of the calculator. -/
inductive RErr
  | keyError | indexError | valueError | zeroDivision | recursion
  deriving DecidableEq, Repr

/-- the stack, top first -/
abbrev Stack := List ℚ

/-- `rhs_calculator.py:656-660` (`_get_default_if_needed`) -/
def defaultIfNeeded (t : Term) : Except RErr ℚ :=
  match t.value with
  | some v => .ok v
  | none =>
    match t.dflt with
    | some v => .ok v
    | none => .error .keyError

/-- `term['@Value']` -/
def valueOf (t : Term) : Except RErr ℚ :=
  match t.value with
  | some v => .ok v
  | none => .error .keyError

/-- `stack[0]` -/
def top (s : Stack) : Except RErr ℚ :=
  match s with
  | [] => .error .indexError
  | a :: _ => .ok a

/-- `stack[0] = v` after the element was read -/
def setTop (s : Stack) (v : ℚ) : Stack := v :: s.tail

/-- `rhs_calculator.py:663-673` -/
def noOperator (s : Stack) (t : Term) : Except RErr Stack :=
  let s := if s.length = 0 then [0] else s
  do
    let a ← top s
    match t.value with
    | some v => .ok (setTop s (a + t.mult * v))
    | none => .ok (setTop s (a + t.mult))

/-- `rhs_calculator.py:676-682` -/
def typeUNoOperator (s : Stack) (t : Term) : Except RErr Stack :=
  let s := if s.length = 0 then [0] else s
  do
    let a ← top s
    .ok (setTop s (a * t.mult))

/-- `rhs_calculator.py:685-706` -/
def stepOp (s : Stack) (t : Term) : Except RErr Stack :=
  if t.typ = .U then do
    let a ← top s
    if a > 0 then .ok (setTop s t.mult) else .ok (setTop s 0)
  else do
    let v ← defaultIfNeeded t
    let w := if v > 0 then t.mult else 0
    match s with
    | a :: s => .ok ((a + w) :: s)
    | [] => .ok [w]

/-- the shape shared by `rhs_calculator.py:709-781`: apply `f` to the top of the stack, to the multiplier of a constant or
to the value of the term -/
def unary (f : ℚ → ℚ) (s : Stack) (t : Term) : Except RErr Stack := do
  let a ← top s
  if t.typ = .U then .ok (setTop s (f a * t.mult))
  else if t.typ = .C then .ok (setTop s (a + f t.mult))
  else do
    let v ← valueOf t
    .ok (setTop s (a + f v * t.mult))

/-- `rhs_calculator.py:784-796` (`_add_on_stack`) -/
def addOnStack (s : Stack) (t : Term) : Except RErr Stack :=
  if s.length < 2 then do
    let a ← top s
    .ok (setTop s (a * t.mult))
  else
    match s with
    | a :: b :: s => .ok ((a + b) * t.mult :: s)
    | _ => .error .indexError

/-- the shape shared by `_subtract_on_stack` (813-821), `_multipy_on_stack` (838-847), `_max_on_stack` (890-898) and
`_min_on_stack` (915-924): `f second top` times the multiplier replaces the two top elements -/
def onStack (f : ℚ → ℚ → ℚ) (s : Stack) (t : Term) : Except RErr Stack :=
  if s.length < 2 then .error .valueError
  else
    match s with
    | a :: b :: s => .ok (f b a * t.mult :: s)
    | _ => .error .indexError

/-- `rhs_calculator.py:864-873` (`_divide_on_stack`) -/
def divideOnStack (s : Stack) (t : Term) : Except RErr Stack :=
  if s.length < 2 then .error .valueError
  else
    match s with
    | a :: b :: s => if a = 0 then .error .zeroDivision else .ok (b / a * t.mult :: s)
    | _ => .error .indexError

/-- the shape shared by `_add` (799-810), `_subtract` (824-835), `_multiply` (850-861), `_maximum` (901-912) and `_minimum`
(927-938): `f top value` times the multiplier, or `f top multiplier` for constants, replaces the top element -/
def withTop (f : ℚ → ℚ → ℚ) (s : Stack) (t : Term) : Except RErr Stack := do
  let v ← defaultIfNeeded t
  let a ← top s
  if t.typ = .C then .ok (f a t.mult :: s.tail)
  else .ok (f a v * t.mult :: s.tail)

/-- `rhs_calculator.py:876-887` (`_divide`) -/
def divide (s : Stack) (t : Term) : Except RErr Stack := do
  let v ← defaultIfNeeded t
  let a ← top s
  if t.typ = .C then
    if t.mult = 0 then .error .zeroDivision else .ok (a / t.mult :: s.tail)
  else
    if v = 0 then .error .zeroDivision else .ok (a / v * t.mult :: s.tail)

/-- `rhs_calculator.py:941-950` (`_push`) -/
def push (s : Stack) (t : Term) : Except RErr Stack :=
  if t.typ ≠ .C then do
    let v ← defaultIfNeeded t
    .ok (t.mult * v :: s)
  else .ok (t.mult :: s)

/-- `rhs_calculator.py:953-958` (`_duplicate`) -/
def duplicate (s : Stack) (t : Term) : Except RErr Stack := do
  let a ← top s
  .ok (a * t.mult :: s)

/-- the two insertions of `rhs_calculator.py:966-968` -/
def swapTop (s : Stack) (t : Term) : Stack :=
  match s with
  | a :: b :: s => b * t.mult :: a :: s
  | s => s

/-- `rhs_calculator.py:961-969` (`_exchange`) -/
def exchange (s : Stack) (t : Term) : Except RErr Stack :=
  if s.length < 2 then .error .valueError else .ok (swapTop s t)

/-- `rhs_calculator.py:972-979` (`_roll_stack_down`) -/
def rollDown (s : Stack) (t : Term) : Except RErr Stack :=
  if s.length < 2 then .error .valueError
  else
    match s.getLast? with
    | some b => .ok (b * t.mult :: s.dropLast)
    | none => .error .indexError

/-- `rhs_calculator.py:982-992` (`_roll_stack_up`) -/
def rollUp (s : Stack) (t : Term) : Except RErr Stack :=
  if s.length < 2 then .error .valueError
  else
    match s with
    | a :: s =>
      match s ++ [a] with
      | b :: s => .ok (b * t.mult :: s)
      | [] => .error .indexError
    | [] => .error .indexError

/-- `rhs_calculator.py:995-1012` (`_stack_pop`) -/
def stackPop (s : Stack) (t : Term) : Except RErr (Bool × Stack) :=
  if t.typ = .U then
    match s with
    | [] => .error .indexError
    | a :: s => .ok (decide (a ≤ 0), s)
  else do
    let v ← valueOf t
    .ok (decide (v ≤ 0), s)

/-- `rhs_calculator.py:1015-1024` (`_exchange_if_less_than_zero`) -/
def exchangeIfLessThanZero (s : Stack) (t : Term) : Stack :=
  if s.length < 2 then s else swapTop s t

/-- keep the flag -/
def keep (flag : Bool) (r : Except RErr Stack) : Except RErr (Bool × Stack) := r.map (fun s => (flag, s))

/-- `rhs_calculator.py:591-648`: evaluate a term that is not in a group.  Operations that match no branch are ignored. -/
def evalTerm (sqrt : ℚ → ℚ) (flag : Bool) (s : Stack) (t : Term) : Except RErr (Bool × Stack) :=
  if t.typ = .U ∧ t.value = none ∧ t.op = none then keep flag (typeUNoOperator s t)
  else if t.typ = .B then .error .valueError
  else
    match t.op with
    | none => keep flag (noOperator s t)
    | some .add => keep flag (if t.typ = .U then addOnStack s t else withTop (fun a v => v + a) s t)
    | some .sub => keep flag (if t.typ = .U then onStack (fun b a => b - a) s t else withTop (fun a v => a - v) s t)
    | some .mul => keep flag (if t.typ = .U then onStack (fun b a => b * a) s t else withTop (fun a v => v * a) s t)
    | some .div => keep flag (if t.typ = .U then divideOnStack s t else divide s t)
    | some .max => keep flag (if t.typ = .U then onStack (fun b a => Max.max b a) s t else withTop (fun a v => Max.max v a) s t)
    | some .min => keep flag (if t.typ = .U then onStack (fun b a => Min.min b a) s t else withTop (fun a v => Min.min v a) s t)
    | some .step => keep flag (stepOp s t)
    | some .pow2 => keep flag (unary (fun a => a ^ 2) s t)
    | some .pow3 => keep flag (unary (fun a => a ^ 3) s t)
    | some .sqrt => keep flag (unary sqrt s t)
    | some .abs => keep flag (unary (fun a => |a|) s t)
    | some .neg => keep flag (unary (fun a => -1 * a) s t)
    | some .push => keep flag (push s t)
    | some .dup => keep flag (if t.typ = .U then duplicate s t else .ok s)
    | some .exch => keep flag (if t.typ = .U then exchange s t else .ok s)
    | some .rsd => keep flag (if t.typ = .U then rollDown s t else .ok s)
    | some .rsu => keep flag (if t.typ = .U then rollUp s t else .ok s)
    | some .pop => stackPop s t
    | some .exlez => if t.typ = .U ∧ flag = true then .ok (false, exchangeIfLessThanZero s t) else .ok (flag, s)
    | some (.other _) => .ok (flag, s)

/-- `rhs_calculator.py:1035-1039` (`_clear_group_values`) -/
def clearGroupValues (eq : List Term) : List Term :=
  eq.map (fun t => if t.typ = .G ∧ t.value ≠ none then { t with value := none } else t)

/-- the positions found by the loop `rhs_calculator.py:1047-1059` -/
structure Span where
  first : Option Nat := none
  last : Option Nat := none
  gFirst : Bool := false
  deriving DecidableEq, Repr

/-- one iteration of the loop `rhs_calculator.py:1047-1059`.  The condition in lines 1056-1058 compares with `i - 1`; at `i = 0`
no last position is `-1`.  `equation[i - 1]['@GroupTerm']` raises KeyError if the previous term has no group, which is
impossible because the previous term is the last group member. -/
def spanStep (eq : List Term) (g : String) (p : Span) (i : Nat) : Span :=
  match eq[i]? with
  | none => p
  | some t =>
    let p := if t.group = some g ∧ p.first = none then
      { p with first := some i, gFirst := if t.typ = .G then true else p.gFirst } else p
    let p := if t.group = some g ∧ p.first ≠ none then { p with last := some i } else p
    match p.last, i with
    | some l, j + 1 =>
      if l = j ∧ t.group ≠ none ∧ t.group ≠ some g ∧ p.gFirst = true ∧
          ((eq[j]?.map Term.typ) = some .G ∨ (eq[j]?.bind Term.group) = t.group) then { p with last := some (j + 1) } else p
    | _, _ => p

/-- `rhs_calculator.py:1047-1059` -/
def groupSpan (eq : List Term) (g : String) : Span := (List.range eq.length).foldl (spanStep eq g) {}

/-- `rhs_calculator.py:1061-1066`: copy the members, removing the group from those of the collected group; a term in the
span without a group raises KeyError -/
def copyMembers (g : String) : List Term → Except RErr (List Term)
  | [] => .ok []
  | t :: ts =>
    match t.group with
    | none => .error .keyError
    | some h => do
      let r ← copyMembers g ts
      .ok ((if h = g then { t with group := none } else t) :: r)

/-- `rhs_calculator.py:1042-1068` (`_collect_group`); it is only called for groups that occur -/
def collectGroup (eq : List Term) (g : String) : Except RErr (List Term) :=
  match (groupSpan eq g).first, (groupSpan eq g).last with
  | some a, some b => copyMembers g ((eq.take (b + 1)).drop a)
  | _, _ => .ok []

/-- `rhs_calculator.py:1027-1032` (`_get_sub_groups`) -/
def subGroups (group : List Term) : List String :=
  group.foldl (fun l t => match t.group with
    | some g => if g ∈ l then l else l ++ [g]
    | none => l) []

/-- the variables of `_rpn_stack` -/
structure St where
  eq : List Term
  stack : Stack := [0]
  ignore : List String := []
  flag : Bool := false
  deriving DecidableEq, Repr

/-- `term['@Value'] = v` for the term at position `i` -/
def setValue (eq : List Term) (i : Nat) (v : ℚ) : List Term :=
  eq.modify i (fun t => { t with value := some v })

/-- the outcome of the group handling for a term: go on to its evaluation, or `continue` -/
inductive Next
  | eval (st : St)
  | skip (st : St)
  deriving Repr

/-- evaluate a group and mark it and its sub groups as done; `put` uses the result -/
def runGroup (ev : List Term → Except RErr ℚ) (st : St) (g : String) (put : List Term → ℚ → Except RErr St) : Except RErr St := do
  let group ← collectGroup st.eq g
  let r ← ev group
  let st ← put group r
  .ok { st with ignore := st.ignore ++ [g] ++ subGroups group }

/-- `rhs_calculator.py:544-585`: the group handling for the term `t` at position `i`.  `group.pop` in line 566 is not a call. -/
def groupPart (ev : List Term → Except RErr ℚ) (st : St) (i : Nat) (t : Term) : Except RErr Next :=
  if t.typ = .G ∧ t.value = none ∧ (t.group = none ∨ ∃ g, t.group = some g ∧ g ∉ st.ignore) then
    match t.group with
    | some g => do
      let st ← runGroup ev st g (fun _ r => .ok { st with eq := setValue st.eq i r })
      .ok (.eval st)
    | none =>
      match st.eq[i + 1]? with
      | none => .error .indexError
      | some n =>
        match n.group with
        | none => .ok (.skip st)
        | some g => do
          let st ← runGroup ev st g (fun _ r => .ok { st with eq := setValue st.eq i r })
          .ok (.eval st)
  else
    match t.group with
    | some g =>
      if g ∉ st.ignore then do
        let st ← runGroup ev st g (fun group r =>
          match st.eq[i + group.length]? with
          | none => .error .indexError
          | some n =>
            if n.typ = .G then .ok { st with eq := setValue st.eq (i + group.length) r }
            else do
              let a ← top st.stack
              .ok { st with stack := setTop st.stack (a + r) })
        .ok (.eval st)
      else .ok (.eval st)
    | none => .ok (.eval st)

/-- one iteration of the loop `rhs_calculator.py:544-648` -/
def stepAt (sqrt : ℚ → ℚ) (ev : List Term → Except RErr ℚ) (st : St) (i : Nat) : Except RErr St :=
  match st.eq[i]? with
  | none => .ok st
  | some t => do
    match (← groupPart ev st i t) with
    | .skip st => .ok st
    | .eval st =>
      match st.eq[i]? with
      | none => .ok st
      | some t =>
        match t.group with
        | some _ => .ok st
        | none => do
          let r ← evalTerm sqrt st.flag st.stack t
          .ok { st with flag := r.1, stack := r.2 }

/-- the loop over the remaining positions -/
def loop (sqrt : ℚ → ℚ) (ev : List Term → Except RErr ℚ) : List Nat → St → Except RErr St
  | [], st => .ok st
  | i :: is, st => do
    let st ← stepAt sqrt ev st i
    loop sqrt ev is st

/-- `rhs_calculator.py:526-649` (`_rpn_stack`) given the evaluation of groups.  Also returns the mutated equation. -/
def rpnWith (sqrt : ℚ → ℚ) (ev : List Term → Except RErr ℚ) (eq : List Term) : Except RErr St :=
  loop sqrt ev (List.range eq.length) { eq := clearGroupValues eq }

/-- `rhs_calculator.py:652-653` (`_rpn_calc`).  The evaluation of a group is a recursive call on a list with fewer terms
in groups, so a depth of the number of terms is always enough, see `Verif.Rpn.rpnCalc_depth`. -/
def rpnDepth (sqrt : ℚ → ℚ) : Nat → List Term → Except RErr ℚ
  | 0, eq => (rpnWith sqrt (fun _ => .error .recursion) eq).bind (fun st => top st.stack)
  | n + 1, eq => (rpnWith sqrt (rpnDepth sqrt n) eq).bind (fun st => top st.stack)

/-- `rhs_calculator.py:652-653` (`_rpn_calc`) -/
def rpnCalc (sqrt : ℚ → ℚ) (eq : List Term) : Except RErr ℚ := rpnDepth sqrt eq.length eq

end Verif.Rpn
