import Verif.Spec.Comparative

/-!
# Specification: tables between two tables (C134)
-/

namespace Verif

/-- Two calls with the same rows and two values in each row: demands, limits of units, FCAS requirements, right hand sides of generic
constraints.  In the tables of rows the second value stands beside the row, the first value in it. -/
inductive TwoTables
  | demand (rows : List (Demand × ℚ)) (vc : Option VCost)
  | capacity (rows : List (Lim × ℚ)) (vc : Option VCost)
  | uigf (rows : List (Lim × ℚ)) (vc : Option VCost)
  | fcasReq (rows : List (FcasReq × ℚ)) (vc : Option VCost)
  | fcasMaxAvail (rows : List (Lim × ℚ)) (vc : Option VCost)
  | generic (rows : List (GenericRow × ℚ)) (vc : Option VCost)

/-- The call with a value made from the two values of each row. -/
def TwoTables.call (f : ℚ → ℚ → ℚ) : TwoTables → Op
  | .demand rows vc => .demand (rows.map (fun r => { r.1 with demand := f r.1.demand r.2 })) vc
  | .capacity rows vc => .capacity (rows.map (fun r => { r.1 with val := f r.1.val r.2 })) vc
  | .uigf rows vc => .uigf (rows.map (fun r => { r.1 with val := f r.1.val r.2 })) vc
  | .fcasReq rows vc => .fcasReq (rows.map (fun r => { r.1 with volume := f r.1.volume r.2 })) vc
  | .fcasMaxAvail rows vc => .fcasMaxAvail (rows.map (fun r => { r.1 with val := f r.1.val r.2 })) vc
  | .generic rows vc => .generic (rows.map (fun r => { r.1 with rhs := f r.1.rhs r.2 })) vc

/-- The call with the first values, the call with the second values, and the call with the values at the share `t` of the way from the
first to the second. -/
def TwoTables.first (T : TwoTables) : Op := T.call (fun a _ => a)
def TwoTables.second (T : TwoTables) : Op := T.call (fun _ b => b)
def TwoTables.between (T : TwoTables) (t : ℚ) : Op := T.call (fun a b => (1 - t) * a + t * b)

/-- The markets are the result of the same calls except one: where `op` was called for `m`, `op'` was called for `m'` and `op''` for
`m''`.  The three calls succeeded, and later calls are about other parts of the market definition. -/
def OneOfThree (op op' op'' : Op) (m m' m'' : Market) : Prop :=
  ∃ (regions : List String) (units : List UnitInfo) (di : ℚ) (m0 : Market) (before after : List Op),
    Market.init regions units di = .ok m0 ∧
    Benign m0 (before ++ op :: after) ∧ Benign m0 (before ++ op' :: after) ∧ Benign m0 (before ++ op'' :: after) ∧
    ((m0.run before).step op).2 = none ∧ ((m0.run before).step op').2 = none ∧ ((m0.run before).step op'').2 = none ∧
    (∀ o ∈ after, ∀ p ∈ op.parts ++ op'.parts ++ op''.parts, p ∉ o.parts) ∧
    m = m0.run (before ++ op :: after) ∧ m' = m0.run (before ++ op' :: after) ∧ m'' = m0.run (before ++ op'' :: after)

/-- Every link is named after its interconnector, so that no links are alternatives to each other. -/
def PlainLinks (m : Market) : Prop := ∀ v ∈ m.inters.getD [], v.link = v.inter

/-- The schedule at the share `t` of the way from `x` to `y`. -/
def mixture (t : ℚ) (x y : Nat → ℚ) : Nat → ℚ := fun i => (1 - t) * x i + t * y i

end Verif
