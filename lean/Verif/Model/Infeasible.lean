import Verif.Model.Outputs

/-!
# Infeasible programs and names of constraint sets

Whether the solver finds an optimal solution is a function of the program.
-/

namespace Verif

/-- `solver_interface.py:476`: remove the constraints with this name -/
def Lp.remove (lp : Lp) (c : Nat) : Lp := { lp with rows := lp.rows.filter (fun r => decide (r.cid ≠ c)) }

/-- `solver_interface.py:475-481`: the loop over the names; `cons` are the names so far, `lp` is `test_prob` -/
def findProblemLoop (opt : Lp → Bool) : List Nat → Lp → List Nat → List Nat
  | [], _, _ => []
  | c :: cs, lp, cons => if opt (lp.remove c) then cons ++ [c] else findProblemLoop opt cs (lp.remove c) (cons ++ [c])

/-- `solver_interface.py:472-481` (`find_problem_constraint`) -/
def findProblem (opt : Lp → Bool) (lp : Lp) : List Nat := findProblemLoop opt (lp.rows.map LRow.cid) lp []

/-- `solver_interface.py:290-296` (`optimize`): the exception, with the constraints that are printed before it -/
def Solver.optimize (S : Solver) (lp : Lp) : Except (Err × List Nat) (Nat → ℚ) :=
  match S.mip lp with
  | some x => .ok x
  | none => .error (.valueError, findProblem (fun lp => (S.mip lp).isSome) lp)

/-- `markets.py:3173-3174` (`get_constraint_set_names`) -/
def Market.setNames (m : Market) : List CKey := m.mktRhs.map (·.1) ++ m.conRhs.map (·.1)

end Verif
