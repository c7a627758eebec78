import Verif.Spec.History
import Verif.Model.Outputs

/-!
# Specification: violation of elastic constraints

By how much the constraints of a set are violated by a dispatch, measured on the constraints as they
were before they were made elastic.
-/

namespace Verif

/-- By how much `l` misses the sense of the constraint against `r`. -/
def CType.violation : CType → ℚ → ℚ → ℚ
  | .le, l, r => max 0 (l - r)
  | .ge, l, r => max 0 (r - l)
  | .eq, l, r => |l - r|
  | .other, _, _ => 0

/-- The violation cost that applies to a constraint: a number, or an entry of a table by set. -/
def VCost.of (vc : VCost) (r : Row) : Option ℚ :=
  match vc with
  | .num c => some c
  | .table t => (t.find? (fun c => decide (r.set = some c.1))).map (·.2)

/-- A cost table lists each set once. -/
def VCost.proper : VCost → Prop
  | .num _ => True
  | .table t => (t.map Prod.fst).Nodup

/-- The market with the constraint set `k` not elastic: without its violation variables. -/
def Market.inelastic (m : Market) (k : CKey) : Market := { m with deficits := m.deficits.erase k }

/-- The left hand side of a constraint as it was before constraint set `k` was made elastic. -/
def Market.originalLhs (m : Market) (k : CKey) (x : Nat → ℚ) (cid : Nat) : ℚ :=
  linVal x (groupCoefs (m.inelastic k).terms cid)

/-- The constraints of set `k` that have a violation cost. -/
def Market.elasticRows (m : Market) (k : CKey) (vc : VCost) : List Row :=
  ((m.rowsOf k).getD []).filter (fun r => (vc.of r).isSome)

/-- The amount by which `x` violates constraint `r` of set `k`. -/
def Market.rowViolation (m : Market) (k : CKey) (x : Nat → ℚ) (r : Row) : ℚ :=
  r.ctype.violation (m.originalLhs k x r.cid) r.rhs

/-- The total amount by which `x` violates the constraints of set `k`. -/
def Market.violation (m : Market) (k : CKey) (vc : VCost) (x : Nat → ℚ) : ℚ :=
  ((m.elasticRows k vc).map (m.rowViolation k x)).sum

/-- The total cost of the violation of the constraints of set `k` by `x`. -/
def Market.violationCost (m : Market) (k : CKey) (vc : VCost) (x : Nat → ℚ) : ℚ :=
  ((m.elasticRows k vc).map (fun r => (vc.of r).getD 0 * m.rowViolation k x r)).sum

/-- `x` meets everything in the program except the elastic constraints of set `k` and the bounds of
their violation variables. -/
structure FeasibleBut (m : Market) (k : CKey) (vc : VCost) (lp : Lp) (x : Nat → ℚ) : Prop where
  vars : ∀ v ∈ lp.vars, v.vid ∉ m.deficitVids k → v.holds x
  rows : ∀ r ∈ lp.rows, (∀ e ∈ m.elasticRows k vc, e.cid ≠ r.cid) → r.holds x
  sos2 : ∀ g ∈ lp.sos2, Sos2 x g
  sos1 : ∀ g ∈ lp.sos1, Sos1 x g

/-- The violation cost argument of a call. -/
def Op.vcost : Op → Option VCost
  | .capacity _ vc => vc
  | .uigf _ vc => vc
  | .rampRates _ _ _ _ vc => vc
  | .fastStart _ vc => vc
  | .demand _ vc => vc
  | .fcasReq _ vc => vc
  | .fcasMaxAvail _ vc => vc
  | .jointRamping _ _ _ vc => vc
  | .jointCapacity _ vc => vc
  | .energyReg _ vc => vc
  | .generic _ vc => vc
  | .elastic _ vc => some vc
  | .tieBreak c => some (.num c)
  | _ => none

/-- The call asks for the constraints of set `k` to be elastic. -/
def Op.asksElastic (op : Op) (k : CKey) : Prop := op.vcost.isSome = true ∧ Part.set k ∈ op.parts

/-- The setters of a single constraint set called with a violation cost, as two calls: without the cost, and
`make_constraints_elastic`.  (`set_fast_start_constraints` is left out: if its table gives no constraints it also does not
call `make_constraints_elastic`.) -/
def Op.apart : Op → Option (Op × CKey × VCost)
  | .capacity l (some c) => some (.capacity l none, .unitBidCapacity, c)
  | .uigf l (some c) => some (.uigf l none, .uigf, c)
  | .demand d (some c) => some (.demand d none, .demand, c)
  | .fcasReq r (some c) => some (.fcasReq r none, .fcas, c)
  | .fcasMaxAvail l (some c) => some (.fcasMaxAvail l none, .fcasMaxAvail, c)
  | .jointCapacity t (some c) => some (.jointCapacity t none, .jointCapacity, c)
  | .energyReg t (some c) => some (.energyReg t none, .energyReg, c)
  | .generic g (some c) => some (.generic g none, .generic, c)
  | _ => none

end Verif
