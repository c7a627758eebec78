import Verif.Spec.Elastic
import Verif.Spec.Reads
import Verif.Spec.Price

/-!
# Specification: replacing a constraint set

What a dispatch reports, when two markets report the same, and which calls replace what earlier calls about the same
constraint sets did.
-/

namespace Verif

/-- What is reported after a dispatch: the value of the objective, `get_unit_dispatch`, `get_interconnector_flows`,
`get_region_dispatch_summary` and `get_elastic_constraints_violation_degree`. -/
structure Report where
  cost : ℚ
  units : Except Err (List DispatchRow)
  flows : Except Err (List FlowRow)
  regions : Except Err (List SummaryRow)
  violation : CKey → ℚ

/-- The report on the solution `x` of the program `lp` of a market. -/
def Market.report (m : Market) (lp : Lp) (x : Nat → ℚ) : Report :=
  { cost := lp.cost x, units := m.unitDispatch x, flows := m.interFlows x, regions := m.regionSummary x,
    violation := m.violationDegree x }

/-- `energy` and `fcas` can be the energy and FCAS prices (`get_energy_prices`, `get_fcas_prices`) next to the report `r`: there
is an optimal solution with this report, a way to sort break points by distance, and shadow prices of the linear model for
prices at that solution from which the prices are read. -/
def Market.canPrice (m : Market) (r : Report) (energy : Except Err (List (String × ℚ)))
    (fcas : Except Err (List ((String × Service) × ℚ))) : Prop :=
  ∃ lp x S z p, m.assemble = .ok lp ∧ Optimal lp x ∧ S.sorts ∧ ShadowPrices (m.linear S x lp) z p ∧
    m.report lp x = r ∧ m.energyPrices p = energy ∧ m.fcasPrices p = fcas

/-- Two markets dispatch the same: a program can be built for both or for neither, any report on a feasible solution of one
is the report on a feasible solution of the other, any report on an optimal solution of one is the report on an optimal
solution of the other, and the same prices can go with it. -/
structure DispatchSame (m m' : Market) : Prop where
  builds : (∃ lp, m.assemble = .ok lp) ↔ (∃ lp, m'.assemble = .ok lp)
  feasible : ∀ r, (∃ lp x, m.assemble = .ok lp ∧ Feasible lp x ∧ m.report lp x = r) ↔
    (∃ lp x, m'.assemble = .ok lp ∧ Feasible lp x ∧ m'.report lp x = r)
  optimal : ∀ r, (∃ lp x, m.assemble = .ok lp ∧ Optimal lp x ∧ m.report lp x = r) ↔
    (∃ lp x, m'.assemble = .ok lp ∧ Optimal lp x ∧ m'.report lp x = r)
  prices : ∀ r energy fcas, m.canPrice r energy fcas ↔ m'.canPrice r energy fcas

/-- The call `o` is about one of the parts `op` is about. -/
def Op.about (op o : Op) : Bool := o.parts.any (fun p => decide (p ∈ op.parts))

/-- The calls considered to replace their constraint sets, in a market with units `units`: the setters of a single set (fast
start profiles only if one of the units is in one of the modes 0 to 4, otherwise nothing is set), the removal of fast start
constraints, and ramp rates in markets without bidirectional units. -/
def Op.replaces (units : List UnitInfo) : Op → Prop
  | .capacity _ _ | .uigf _ _ | .demand _ _ | .fcasReq _ _ | .fcasMaxAvail _ _ | .jointCapacity _ _ | .energyReg _ _
  | .generic _ _ | .losses _ _ | .tieBreak _ | .removeFastStart => True
  | .fastStart p _ => ∃ q ∈ p, q.endMode ≤ 4
  | .rampRates _ _ _ _ _ => ∀ u ∈ units, ∀ v ∈ units, u.unit = v.unit → u.dtype = v.dtype
  | _ => False

/-- The calls that set bids, interconnectors or links of generic constraints. -/
def Op.tabular : Op → Prop
  | .volumeBids _ | .priceBids _ | .interconnectors _ | .linkUnits _ | .linkRegions _ | .linkInters _ => True
  | _ => False

/-- The call leaves no violation variables of an earlier call: it has a violation cost that applies to at least one of its
constraints (or removes or replaces them in any case). -/
def Op.softens : Op → Prop
  | .capacity _ vc | .uigf _ vc | .rampRates _ _ _ _ vc | .fastStart _ vc | .demand _ vc | .fcasMaxAvail _ vc
  | .jointCapacity _ vc | .energyReg _ vc => vc.isSome = true
  | .fcasReq r vc => (∃ c, vc = some (.num c)) ∨ ∃ t, vc = some (.table t) ∧ ∃ q ∈ r, q.set ∈ t.map Prod.fst
  | .generic g vc => (g ≠ [] ∧ ∃ c, vc = some (.num c)) ∨ ∃ t, vc = some (.table t) ∧ ∃ q ∈ g, q.set ∈ t.map Prod.fst
  | .tieBreak _ | .removeFastStart => True
  | _ => False

end Verif
