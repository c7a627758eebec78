import Verif.Model.Market

/-!
# `SpotMarket.dispatch` and the output methods

The solver is an oracle: `x` is the value of each decision variable as written back by `markets.py:3067-3070`,
`dual` the value of `Constr.pi`.  The order of the rows of grouped tables is not modelled (pandas sorts them by
key).
-/

namespace Verif

/-- `DataFrame.groupby(key, as_index=False).sum()`: one row per key -/
def groupSum {α κ : Type} [DecidableEq κ] (key : α → κ) (val : α → ℚ) (l : List α) : List (κ × ℚ) :=
  (l.map key).dedup.map (fun k => (k, ((l.filter (fun a => decide (key a = k))).map val).sum))

/-- ids of the decision variables stored under `<key>_deficit`, `markets.py:2737-2738` -/
def Market.deficitVids (m : Market) (k : CKey) : List Nat :=
  ((m.deficits.get? k).elim [] (·.1)).map DefVar.vid

/-- `markets.py:2744-2755` (`get_elastic_constraints_violation_degree`): the sum of the violation
variables, `0.0` if there are none. -/
def Market.violationDegree (m : Market) (x : Nat → ℚ) (k : CKey) : ℚ :=
  match m.deficits.get? k with
  | some d => (d.1.map (fun v => x v.vid)).sum
  | none => 0

/-! ### Dispatch -/

/-- The solver: the values of an optimal solution (`none`: any other status), the dual values of the rows of a
program, and the order in which `sort_values('distance')` (`markets.py:3166`, not a stable sort) returns rows with
equal distance. -/
structure Solver where
  mip : Lp → Option (Nat → ℚ)
  dual : Lp → Nat → ℚ
  sort : List (ℚ × Nat) → List (ℚ × Nat)

/-- `markets.py:3159-3163`: distances of the break points of a link from its flow, with the ids of the weights -/
def Market.distances (m : Market) (x : Nat → ℚ) (v : InterVar) : List (ℚ × Nat) :=
  ((m.weights.getD []).filter (fun w => decide (w.inter = v.inter ∧ w.link = v.link))).map (fun w => (|x v.vid - w.bp|, w.vid))

/-- `markets.py:3158-3171`: ids of the weights of break points that are not among the three closest to the flow -/
def Market.unusedWeights (m : Market) (S : Solver) (x : Nat → ℚ) : List Nat :=
  (m.inters.getD []).flatMap (fun v => ((S.sort (m.distances x v)).drop 3).map Prod.snd)

/-- `markets.py:3152-3156`: ids of the flows of links of a pair that are not used -/
def Market.unusedLinks (m : Market) (x : Nat → ℚ) : List Nat :=
  ((m.inters.getD []).filter (fun v => decide (v.inter ≠ v.link ∧ x v.vid = 0))).map InterVar.vid

/-- `solver_interface.py:465-469` (`disable_variables`) -/
def Lp.disable (lp : Lp) (vs : List Nat) : Lp :=
  { lp with vars := lp.vars.map (fun v => if v.vid ∈ vs then { v with lb := 0, ub := some 0 } else v) }

/-- `markets.py:3072-3075`, `3147-3150`, `solver_interface.py:83-87,244`: the linear model used for prices.  It has all
variables and constraints but no special ordered sets. -/
def Market.linear (m : Market) (S : Solver) (x : Nat → ℚ) (lp : Lp) : Lp :=
  let lin := { lp with sos1 := [], sos2 := [] }
  if m.losses.isSome then lin.disable (m.unusedWeights S x ++ m.unusedLinks x) else lin

/-- `solver_interface.py:456-458` (`update_rhs`), summed over the calls for a constraint -/
def Lp.relax (lp : Lp) (adj : List (Nat × ℚ)) : Lp :=
  { lp with rows := lp.rows.map (fun r => { r with rhs := match r.rhs with
      | .const q => .const (q + ((adj.filter (fun a => decide (a.1 = r.cid))).map Prod.snd).sum)
      | .var v => .var v }) }

/-- Arguments of `dispatch`, `markets.py:2935-2940` -/
structure ReRun where
  energyCeiling : ℚ
  energyFloor : ℚ
  fcasCeiling : ℚ
  deriving Repr

/-- `markets.py:3109-3123`: some violation variable of the set is beyond 0.0001 -/
def Market.setViolated (m : Market) (x : Nat → ℚ) (k : CKey) : Bool :=
  (((m.deficits.get? k).elim [] (·.1))).any (fun v => decide (x v.vid > 1 / 10000 ∨ x v.vid < -(1 / 10000)))

/-- `markets.py:3091-3104`: a price limit is reached -/
def Market.limitReached (m : Market) (r : ReRun) (price : Nat → ℚ) : Bool :=
  ((m.mktRhs.get? .fcas).getD []).any (fun c => decide (price c.cid ≥ r.fcasCeiling)) ||
  ((m.mktRhs.get? .demand).getD []).any (fun c => decide (price c.cid ≥ r.energyCeiling)) ||
  ((m.mktRhs.get? .demand).getD []).any (fun c => decide (price c.cid ≤ r.energyFloor))

/-- `markets.py:3109-3132` for one constraint set: constraint ids and adjusters -/
def Market.adjustSet (m : Market) (x : Nat → ℚ) (k : CKey) : List (Nat × ℚ) :=
  if m.setViolated x k then
    (((m.deficits.get? k).elim [] (·.1)).filter (fun v => decide (x v.vid > 0 ∨ x v.vid < -0))).flatMap (fun v =>
      (((m.deficits.get? k).elim [] (·.2)).filter (fun t => decide (t.vid = v.vid))).map (fun t =>
        (t.cid, (x v.vid + 1 / 100) * t.coef * -1)))
  else []

/-- `markets.py:3127-3132` -/
def Market.adjusters (m : Market) (x : Nat → ℚ) : List (Nat × ℚ) := m.adjustSet x .generic ++ m.adjustSet x .fcas

/-- What `dispatch` leaves behind: values of the decision variables, prices of the market constraints, and
`objective_value`. -/
structure Outcome where
  x : Nat → ℚ
  price : Nat → ℚ
  cost : ℚ

/-- `solver_interface.py:451-454` (`price_constraints`): `constr_by_name` is `None` for a constraint without
coefficients, its `.pi` raises. -/
def Market.priced (m : Market) (lp : Lp) : Bool :=
  m.mktRhs.concat.all (fun r => decide (r.cid ∈ lp.rows.map LRow.cid))

/-- The prices, `markets.py:3082-3143`. -/
def Market.prices (m : Market) (S : Solver) (ocd : Option ReRun) (x : Nat → ℚ) (lin : Lp) : Nat → ℚ :=
  match ocd with
  | none => S.dual lin
  | some r =>
    if m.limitReached r (S.dual lin) && (m.setViolated x .generic || m.setViolated x .fcas) then
      S.dual (lin.relax (m.adjusters x))
    else S.dual lin

/-- `markets.py:2850-3145` (`dispatch`); `ocd`: the re-run is allowed and all price limits are given. -/
def Market.dispatch (m : Market) (S : Solver) (ocd : Option ReRun) : Except Err Outcome :=
  match m.assemble with
  | .error e => .error e
  | .ok lp =>
    match S.mip lp with
    | none => .error .valueError
    | some x =>
      if m.priced lp then .ok { x := x, price := m.prices S ocd x (m.linear S x lp), cost := lp.cost x }
      else .error .attributeError

/-! ### Results per unit and prices -/

/-- Row of `get_unit_dispatch` -/
structure DispatchRow where
  unit : String
  dtype : DType
  service : Service
  dispatch : ℚ
  deriving DecidableEq, Repr

/-- `markets.py:3246-3248` (`get_unit_dispatch`) -/
def Market.unitDispatch (m : Market) (x : Nat → ℚ) : Except Err (List DispatchRow) :=
  match m.bids with
  | none => .error .keyError
  | some bs => .ok ((groupSum (fun b => (b.unit, b.dtype, b.service)) (fun b => x b.vid) bs).map (fun g =>
      { unit := g.1.1, dtype := g.1.2.1, service := g.1.2.2, dispatch := g.2 }))

/-- `markets.py:3321-3322` (`get_energy_prices`) -/
def Market.energyPrices (m : Market) (price : Nat → ℚ) : Except Err (List (String × ℚ)) :=
  match m.mktRhs.get? .demand with
  | none => .error .keyError
  | some rows => .ok (rows.filterMap (fun r => r.region.map (fun g => (g, price r.cid))))

/-- `markets.py:3331-3335` (`get_fcas_prices`) -/
def Market.fcasPrices (m : Market) (price : Nat → ℚ) : Except Err (List ((String × Service) × ℚ)) :=
  match m.regCon.get? .fcas, m.mktRhs.get? .fcas with
  | some cs, some rows => .ok (groupSum (fun p : ConReg × Row => (p.1.region, p.1.service)) (fun p => price p.2.cid)
      (cs.flatMap (fun c => (rows.filter (fun r => decide (r.cid = c.cid))).map (fun r => (c, r)))))
  | _, _ => .error .keyError

/-! ### Interconnectors and regions -/

/-- Row of `get_interconnector_flows`; `losses` is NaN for links without loss variable -/
structure FlowRow where
  inter : String
  link : String
  flow : ℚ
  losses : Option ℚ
  deriving DecidableEq, Repr

/-- `markets.py:3417-3425` (`get_interconnector_flows`): left merge of flows and losses -/
def Market.interFlows (m : Market) (x : Nat → ℚ) : Except Err (List FlowRow) :=
  match m.inters with
  | none => .error .keyError
  | some vs => .ok (vs.flatMap (fun v =>
      match (m.losses.getD []).filter (fun l => decide (l.inter = v.inter ∧ l.link = v.link)) with
      | [] => [{ inter := v.inter, link := v.link, flow := x v.vid, losses := none }]
      | ls => ls.map (fun l => { inter := v.inter, link := v.link, flow := x v.vid, losses := some (x l.vid) })))

/-- `markets.py:3551-3571`: net dispatch per region -/
def Market.netByRegion (m : Market) (rows : List DispatchRow) : List (String × ℚ) :=
  groupSum Prod.fst Prod.snd
    ((rows.filter (fun r => decide (r.service = .energy))).flatMap (fun r =>
      (m.units.filter (fun u => decide (u.unit = r.unit ∧ u.dtype = r.dtype))).map (fun u =>
        (u.region, if r.dtype = .load then -1 * r.dispatch else r.dispatch))))

/-- `markets.py:3576-3612`: inflow per region -/
def inflowByRegion (ds : List InterDef) (fl : List FlowRow) : List (String × ℚ) :=
  groupSum Prod.fst Prod.snd
    ((ds.map (fun d => (d.inter, d.link, d.toR, (1 : ℚ))) ++ ds.map (fun d => (d.inter, d.link, d.fromR, (-1 : ℚ)))).flatMap
      (fun c => (fl.filter (fun f => decide (f.inter = c.1 ∧ f.link = c.2.1))).map (fun f => (c.2.2.1, f.flow * c.2.2.2))))

/-- `markets.py:3659-3664` -/
def transmissionLoss (isTo : Bool) (flow lf : ℚ) : ℚ :=
  if (isTo ∧ flow ≥ 0) ∨ (¬ isTo ∧ flow ≤ 0) then flow * (1 - lf) else |flow| - |flow| / lf

/-- `markets.py:3647-3669`: transmission losses per region -/
def transmissionByRegion (ds : List InterDef) (fl : List FlowRow) : List (String × ℚ) :=
  groupSum Prod.fst Prod.snd (fl.flatMap (fun f =>
    (ds.filter (fun d => decide (d.inter = f.inter ∧ d.link = f.link))).flatMap (fun d =>
      [(d.fromR, transmissionLoss false f.flow d.fromLf), (d.toR, transmissionLoss true f.flow d.toLf)])))

/-- `markets.py:3617-3645`: interconnector losses per region; NaN losses are skipped by `sum` -/
def lossesByRegion (shares : List (String × String × ℚ)) (ds : List InterDef) (fl : List FlowRow) : List (String × ℚ) :=
  let regional := shares.flatMap (fun s => (ds.filter (fun d => decide (d.inter = s.1 ∧ d.link = s.2.1))).map (fun d =>
      (s.1, s.2.1, d.fromR, s.2.2))) ++
    shares.flatMap (fun s => (ds.filter (fun d => decide (d.inter = s.1 ∧ d.link = s.2.1))).map (fun d =>
      (s.1, s.2.1, d.toR, 1 - s.2.2)))
  groupSum Prod.fst Prod.snd (fl.flatMap (fun f =>
    (regional.filter (fun s => decide (s.1 = f.inter ∧ s.2.1 = f.link))).map (fun s =>
      (s.2.2.1, (f.losses.getD 0) * s.2.2.2))))

/-- Row of `get_region_dispatch_summary`; columns that are not in the table are `none` -/
structure SummaryRow where
  region : String
  dispatch : ℚ
  inflow : Option ℚ := none
  transmission : Option ℚ := none
  losses : Option ℚ := none
  deriving DecidableEq, Repr

/-- `pd.merge(dispatch_summary, table, on='region')`; the regions of `table` are unique -/
def joinRegion (rows : List SummaryRow) (t : List (String × ℚ)) (f : SummaryRow → ℚ → SummaryRow) : List SummaryRow :=
  rows.flatMap (fun r => (t.filter (fun e => decide (e.1 = r.region))).map (fun e => f r e.2))

/-- `markets.py:3539-3549` (`get_region_dispatch_summary`).  Without links `apply` on the empty table raises in
`_get_transmission_losses` (`markets.py:3666-3667`): pandas tries the function on a row of NaN, for which `calc_losses`
has no value; the one in line 3568 does, so a market without energy bids has an empty table there.  Without a losses
column line 3621 raises. -/
def Market.regionSummary (m : Market) (x : Nat → ℚ) : Except Err (List SummaryRow) :=
  match m.unitDispatch x with
  | .error e => .error e
  | .ok rows =>
    let net := m.netByRegion rows
    match m.dirs with
    | none => .ok (net.map (fun g => { region := g.1, dispatch := g.2 }))
    | some ds =>
      match m.interFlows x with
      | .error e => .error e
      | .ok fl =>
        if ds.isEmpty then .error .valueError
        else
          let inflow := inflowByRegion ds fl
          let outer := ((net.map Prod.fst ++ inflow.map Prod.fst).dedup).map (fun g =>
            ({ region := g, dispatch := ((net.filter (fun e => decide (e.1 = g))).map Prod.snd).sum,
               inflow := some ((inflow.filter (fun e => decide (e.1 = g))).map Prod.snd).sum } : SummaryRow))
          let s := joinRegion outer (transmissionByRegion ds fl) (fun r v => { r with transmission := some v })
          match m.lossShares with
          | none => .ok s
          | some sh =>
            if m.losses.isNone then .error .keyError
            else .ok (joinRegion s (lossesByRegion sh ds fl) (fun r v => { r with losses := some v }))

/-! ### FCAS availability -/

/-- `solver_interface.py:387-389`: slack of a constraint; 0 for rows that are not in the program.  Only the
absolute value is used. -/
def Lp.slack (lp : Lp) (x : Nat → ℚ) (c : Nat) : ℚ :=
  match lp.rows.find? (fun r => decide (r.cid = c)) with
  | some r => |r.rhs.eval x - linVal x r.coefs|
  | none => 0

/-- `markets.py:3783-3785`: the constraint sets considered -/
def availabilitySets : List CKey :=
  [.fcasMaxAvail, .jrRaise, .jrLower, .jointCapacity, .energyReg, .biRampUp, .biRampDown]

/-- `markets.py:3795-3799`; `none` is infinity -/
def serviceSlack (coef : ℚ) (ty : CType) (slack : ℚ) : Option ℚ :=
  if (coef < 0 ∧ ty = .le) ∨ (coef > 0 ∧ ty = .ge) ∨ (coef < 1 / 100000 ∧ coef > -(1 / 100000)) then none
  else some (slack / |coef|)

/-- minimum with `none` as infinity -/
def minInf : Option ℚ → Option ℚ → Option ℚ
  | none, b => b
  | a, none => a
  | some a, some b => some (min a b)

/-- `markets.py:3782-3799`: units, services and how much each constraint leaves -/
def Market.serviceSlacks (m : Market) (lp : Lp) (x : Nat → ℚ) : List (String × Service × Option ℚ) :=
  availabilitySets.flatMap (fun k =>
    match m.conRhs.get? k with
    | none => []
    | some rows => ((m.unitCon.get? k).getD []).flatMap (fun c =>
        (rows.filter (fun r => decide (r.cid = c.cid))).map (fun r =>
          (c.unit, c.service, serviceSlack c.coef r.ctype (lp.slack x r.cid)))))

/-- Row of `get_fcas_availability`; `none` is infinity -/
structure AvailRow where
  unit : String
  service : Service
  availability : Option ℚ
  deriving DecidableEq, Repr

/-- `markets.py:3800-3809` (`get_fcas_availability`).  `pd.concat` of no tables raises. -/
def Market.fcasAvailability (m : Market) (lp : Lp) (x : Nat → ℚ) : Except Err (List AvailRow) :=
  if availabilitySets.all (fun k => (m.conRhs.get? k).isNone) then .error .valueError
  else
    match m.unitDispatch x with
    | .error e => .error e
    | .ok rows =>
      let sl := m.serviceSlacks lp x
      .ok (((sl.map (fun s => (s.1, s.2.1))).dedup.filter (fun k => decide (k.2 ≠ .energy))).flatMap (fun k =>
        (rows.filter (fun r => decide (r.unit = k.1 ∧ r.service = k.2))).map (fun r =>
          { unit := k.1, service := k.2,
            availability := (((sl.filter (fun s => decide (s.1 = k.1 ∧ s.2.1 = k.2))).map (·.2.2)).foldl minInf none).map
              (fun v => r.dispatch + v) })))

end Verif
