import Verif.Model.Backend

/-!
# The `SpotMarket` state machine and the program assembled by `dispatch`

`Market` holds the dictionaries of `markets.py:92-139`.  Every setter is a function returning the
new market and the exception raised, if any; a setter that raises half way leaves the updates made
so far, as in Python.
-/

namespace Verif

/-- Coefficients of units in generic constraints, `markets.py:2446-2452`. -/
structure GUnit where
  set : String
  unit : String
  service : Service
  coef : ℚ
  deriving DecidableEq, Repr

/-- Coefficients of regions in generic constraints, `markets.py:2532-2538`. -/
structure GRegion where
  set : String
  region : String
  service : Service
  coef : ℚ
  deriving DecidableEq, Repr

/-- Coefficients of interconnectors in generic constraints, `markets.py:2609-2614`. -/
structure GInter where
  set : String
  inter : String
  coef : ℚ
  deriving DecidableEq, Repr

/-- A row of `generic_constraint_parameters`, `markets.py:2365-2371`. -/
structure GenericRow where
  set : String
  ctype : CType
  rhs : ℚ
  deriving DecidableEq, Repr

/-- Violation cost argument: a number or a table by set (`markets.py:2727-2733`). -/
inductive VCost
  | num (c : ℚ)
  | table (t : List (String × ℚ))
  deriving DecidableEq, Repr

/-- `SpotMarket` instance, `markets.py:92-139`.  The entries `<key>_deficit` of
`_decision_variables`, `_objective_function_components` and `_lhs_coefficients` are always written
and deleted together (`markets.py:1044-1047`, `2737-2741`), so they are one dictionary `deficits`
here.  `nanCon` records that `_next_constraint_id` has become NaN. -/
structure Market where
  regions : List String
  units : List UnitInfo
  di : ℚ
  bids : Option (List BidVar) := none
  bidUnit : Option (List VarUnit) := none
  bidReg : Option (List VarReg) := none
  bidCost : Option (List BidCost) := none
  dirs : Option (List InterDef) := none
  inters : Option (List InterVar) := none
  interReg : Option (List InterMap) := none
  lossShares : Option (List (String × String × ℚ)) := none
  losses : Option (List LossVar) := none
  lossReg : Option (List VarReg) := none
  weights : Option (List WeightVar) := none
  lossLhs : Option (List Term) := none
  tieLhs : Option (List Term) := none
  deficits : Dict CKey (List DefVar × List Term) := []
  gUnit : Option (List GUnit) := none
  gRegion : Option (List GRegion) := none
  gInter : Option (List GInter) := none
  unitCon : Dict CKey (List ConUnit) := []
  regCon : Dict CKey (List ConReg) := []
  conRhs : Dict CKey (List Row) := []
  mktRhs : Dict CKey (List Row) := []
  dynRhs : Option (List DynRow) := none
  nextVar : Nat := 0
  nextCon : Nat := 0
  nanCon : Bool := false
  deriving Repr

/-- `markets.py:138-139`: units with exactly two rows in `unit_info`. -/
def bidiOf (units : List UnitInfo) : List String :=
  (units.map (·.unit)).filter (fun u => decide ((units.map (·.unit)).count u = 2))

/-- `self._bidirectional_units` -/
def Market.bidi (m : Market) : List String := bidiOf m.units

/-- `allowed_values=self._unit_info['unit']`, e.g. `markets.py:271`. -/
def Market.knows (m : Market) (u : String) : Bool := decide (u ∈ m.units.map (·.unit))

/-- `markets.py:92-139` with `141-148`: construct a market. -/
def Market.init (regions : List String) (units : List UnitInfo) (di : ℚ) : Except Err Market :=
  if units.all (fun u => decide (u.region ∈ regions) && decide (0 ≤ u.lf)) &&
     decide ((units.map (fun u => (u.unit, u.dtype))).Nodup) then
    .ok { regions := regions, units := units, di := di }
  else .error .validation

/-- Result of a setter: the market afterwards and the exception raised. -/
abbrev Res := Market × Option Err

/-- continue only if no exception was raised -/
def Res.andThen (r : Res) (f : Market → Res) : Res :=
  match r.2 with
  | none => f r.1
  | some e => (r.1, some e)

/-- `max(ids) + 1` -/
def nextAfter (ids : List Nat) : Nat := ids.foldl max 0 + 1

/-- the tables `'generic'` and `'fcas'` have a column `set` (`markets.py:2359`,
`market_constraints.py:181`) -/
def CKey.hasSetColumn : CKey → Bool
  | .generic => true
  | .fcas => true
  | _ => false

/-- `markets.py:2720-2725` -/
def Market.rowsOf (m : Market) (k : CKey) : Option (List Row) :=
  match m.mktRhs.get? k with
  | some rows => some rows
  | none => m.conRhs.get? k

/-- `markets.py:2727-2731`: attach the violation cost to the rows. -/
def costRows (k : CKey) (rows : List Row) : VCost → Except Err (List (Row × ℚ))
  | .num c => .ok (rows.map (fun r => (r, c)))
  | .table t =>
    if ¬ t.Nodup then .error .validation
    else if !k.hasSetColumn then .error .keyError
    else .ok (rows.flatMap (fun r => (t.filter (fun c => decide (r.set = some c.1))).map (fun c => (r, c.2))))

/-- `markets.py:2616-2742` (`make_constraints_elastic`). -/
def Market.makeElastic (m : Market) (k : CKey) (c : VCost) : Res :=
  match m.rowsOf k with
  | none => (m, some .modelBuild)
  | some rows =>
    match costRows k rows c with
    | .error e => (m, some e)
    | .ok rs =>
      if rs.isEmpty then (m, none)
      else
        let d := deficitVariables rs m.nextVar
        let m1 := { m with deficits := m.deficits.set k d }
        if d.1.isEmpty then (m1, some .valueError)
        else ({ m1 with nextVar := nextAfter (d.1.map DefVar.vid) }, none)

/-- the optional last step of most setters, e.g. `markets.py:531-532` -/
def Market.elasticOpt (m : Market) (k : CKey) : Option VCost → Res
  | none => (m, none)
  | some c => m.makeElastic k c

/-- The pattern `markets.py:527-529` used by all unit level constraint sets: store rows and map, then
`max(ids) + 1`, which raises ValueError for an empty table. -/
def Market.addUnitSet (m : Market) (k : CKey) (t : List Row × List ConUnit) : Res :=
  let m1 := { m with conRhs := m.conRhs.set k t.1, unitCon := m.unitCon.set k t.2 }
  if t.1.isEmpty then (m1, some .valueError)
  else ({ m1 with nextCon := nextAfter (t.1.map Row.cid) }, none)

/-- The pattern `markets.py:1140-1142` used by market constraint sets. -/
def Market.addRegSet (m : Market) (k : CKey) (t : List Row × List ConReg) : Res :=
  let m1 := { m with mktRhs := m.mktRhs.set k t.1, regCon := m.regCon.set k t.2 }
  if t.1.isEmpty then (m1, some .valueError)
  else ({ m1 with nextCon := nextAfter (t.1.map Row.cid) }, none)

/-- `markets.py:283-292` on the units of the (energy) rows -/
def biInputsOk (bidi : List String) (us : List String) : Bool :=
  let s := us.filter (fun u => decide (u ∈ bidi))
  decide (s.length = s.dedup.length * 2)

/-- units of the energy rows of a bid table, `markets.py:287-288` -/
def energyUnits (bids : List BidRow) : List String :=
  (bids.filter (fun b => decide (b.service = .energy))).map (·.unit)

/-- `markets.py:269-281`: value checks of volume bids. -/
def Market.volumeBidsOk (m : Market) (bids : List BidRow) : Bool :=
  bids.all (fun b => m.knows b.unit && b.bands.all (fun x => decide (0 ≤ x.2))) &&
  decide ((bids.map (fun b => (b.unit, b.service, b.dtype))).Nodup)

/-- `markets.py:150-267` (`set_unit_volume_bids`). -/
def Market.setVolumeBids (m : Market) (bids : List BidRow) : Res :=
  if !m.volumeBidsOk bids then (m, some .validation)
  else if !biInputsOk m.bidi (energyUnits bids) then (m, some .modelBuild)
  else
    let vars := bidVariables bids m.nextVar
    let m1 := { m with bids := some vars, bidUnit := some (bidUnitMap vars m.units m.bidi),
                       bidReg := some (bidRegMap vars m.units) }
    if vars.isEmpty then (m1, some .valueError)
    else ({ m1 with nextVar := nextAfter (vars.map BidVar.vid) }, none)

/-- `markets.py:406-418`: value checks of price bids. -/
def Market.priceBidsOk (m : Market) (bids : List BidRow) : Bool :=
  bids.all (fun b => m.knows b.unit) &&
  decide ((bids.map (fun b => (b.unit, b.service, b.dtype))).Nodup)

/-- `markets.py:294-404` (`set_unit_price_bids`). -/
def Market.setPriceBids (m : Market) (prices : List BidRow) : Res :=
  match m.bids with
  | none => (m, some .modelBuild)
  | some vars =>
    if !m.priceBidsOk prices then (m, some .validation)
    else if !biInputsOk m.bidi (energyUnits prices) then (m, some .modelBuild)
    else ({ m with bidCost := some (scaleByLossFactors (bidCosts vars prices) m.units) }, none)

/-- value checks of tables of unit limits: known units, no repeated key (`markets.py:534-540`,
`645-649`, `1351-1359`) -/
def Market.limsOk (m : Market) (ls : List Lim) : Bool :=
  ls.all (fun l => m.knows l.unit) && decide ((ls.map (fun l => (l.unit, l.service, l.dtype))).Nodup)

/-- `markets.py:424-532`; the limits apply to energy. -/
def Market.setCapacity (m : Market) (ls : List Lim) (vc : Option VCost) : Res :=
  if m.bids.isNone then (m, some .modelBuild)
  else if !m.limsOk ls || !ls.all (fun l => decide (l.service = .energy)) then (m, some .validation)
  else (m.addUnitSet .unitBidCapacity (capacityConstraints ls m.nextCon m.bidi)).andThen
    (fun m => m.elasticOpt .unitBidCapacity vc)

/-- `markets.py:542-643`; the table has no service and dispatch type columns, so energy and
generator are used. -/
def Market.setUigf (m : Market) (ls : List Lim) (vc : Option VCost) : Res :=
  if m.bids.isNone then (m, some .modelBuild)
  else if !m.limsOk ls || !ls.all (fun l => decide (l.service = .energy ∧ l.dtype = .generator)) then
    (m, some .validation)
  else (m.addUnitSet .uigf (uigfConstraints ls m.nextCon)).andThen (fun m => m.elasticOpt .uigf vc)

/-- `markets.py:884-896` -/
def Market.rampsOk (m : Market) (rs : List RampRow) : Bool :=
  rs.all (fun r => m.knows r.unit) && decide ((rs.map (fun r => (r.unit, r.dtype))).Nodup)

/-- `markets.py:898-905` -/
def Market.scadaOk (m : Market) (rs : List Scada) : Bool :=
  rs.all (fun r => m.knows r.unit) && decide ((rs.map (·.unit)).Nodup)

/-- `markets.py:907-921` -/
def Market.fsRampOk (m : Market) (ps : List FsRamp) : Bool :=
  ps.all (fun p => m.knows p.unit && decide (0 ≤ p.minLoading) && decide (0 ≤ p.since.getD 0)) &&
  decide ((ps.map (·.unit)).Nodup)

/-- `markets.py:826-827`: profiles are validated only for fast start runs -/
def Market.fsProfilesOk (m : Market) (rt : RunType) (ps : Option (List FsRamp)) : Bool :=
  match rt, ps with
  | .noFastStart, _ => true
  | _, none => true
  | _, some ps => m.fsRampOk ps

/-- make a set elastic if it is present in the unit level map, `markets.py:879-882` -/
def Market.elasticIfPresent (m : Market) (k : CKey) (c : VCost) : Res :=
  if m.unitCon.has k then m.makeElastic k c else (m, none)

/-- `markets.py:861-873`: bidirectional ramp constraints if there are any rows. -/
def Market.addBiRamps (m : Market) (bi : List BiRamp) : Res :=
  if bi.isEmpty then (m, none)
  else (m.addUnitSet .biRampUp (biRampConstraints bi true m.nextCon m.di)).andThen (fun m =>
    m.addUnitSet .biRampDown (biRampConstraints bi false m.nextCon m.di))

/-- `markets.py:875-882` -/
def Market.elasticRamps (m : Market) : Option VCost → Res
  | none => (m, none)
  | some c => (m.makeElastic .rampUp c).andThen (fun m => (m.makeElastic .rampDown c).andThen (fun m =>
      (m.elasticIfPresent .biRampUp c).andThen (fun m => m.elasticIfPresent .biRampDown c)))

/-- `markets.py:838-843`: optional SCADA adjustment -/
def scadaOpt {α : Type} (f : List α → List Scada → List α) (rs : List α) : Option (List Scada) → List α
  | none => rs
  | some sc => f rs sc

/-- `markets.py:838-840`: SCADA rates are validated if given -/
def Market.scadaOptOk (m : Market) : Option (List Scada) → Bool
  | none => true
  | some sc => m.scadaOk sc

/-- `markets.py:651-882` (`set_unit_ramp_rate_constraints`). -/
def Market.setRampRates (m : Market) (rs : List RampRow) (sc : Option (List Scada))
    (ps : Option (List FsRamp)) (rt : RunType) (vc : Option VCost) : Res :=
  if !m.rampsOk rs then (m, some .validation)
  else if !biInputsOk m.bidi (rs.map (·.unit)) then (m, some .modelBuild)
  else if !m.fsProfilesOk rt ps then (m, some .validation)
  else if !m.scadaOptOk sc then (m, some .validation)
  else
    let comp := compositeRampRates rs m.di m.bidi
    let ord := scadaOpt adjustForScada comp.1 sc
    let bi := scadaOpt adjustForScadaBi comp.2 sc
    match adjustForFastStart ord rt ps m.di with
    | .error e => (m, some e)
    | .ok ord =>
      (m.addUnitSet .rampUp (rampUpConstraints ord m.nextCon m.di)).andThen (fun m =>
        (m.addUnitSet .rampDown (rampDownConstraints ord m.nextCon m.di)).andThen (fun m =>
          (m.addBiRamps bi).andThen (fun m => m.elasticRamps vc)))

/-- Input row of `set_fast_start_constraints`, `markets.py:1049-1062`. -/
structure FsInput where
  unit : String
  endMode : Nat
  time : ℚ
  len2 : ℚ
  len4 : ℚ
  minLoading : ℚ
  deriving DecidableEq, Repr

/-- `markets.py:1049-1062` -/
def Market.fsInputsOk (m : Market) (ps : List FsInput) : Bool :=
  ps.all (fun p => m.knows p.unit && decide (0 ≤ p.time) && decide (0 ≤ p.len2) && decide (0 ≤ p.len4) &&
    decide (0 ≤ p.minLoading)) && decide ((ps.map (·.unit)).Nodup)

/-- `markets.py:1025-1029`: one row per unit and dispatch type. -/
def mergeFsProfiles (units : List UnitInfo) (ps : List FsInput) : List FsProfile :=
  units.flatMap (fun u => (ps.filter (fun p => decide (p.unit = u.unit))).map (fun p =>
    { unit := u.unit, dtype := u.dtype, endMode := p.endMode, time := p.time, len2 := p.len2,
      len4 := p.len4, minLoading := p.minLoading }))

/-- `markets.py:923-1038` (`set_fast_start_constraints`). -/
def Market.setFastStart (m : Market) (ps : List FsInput) (vc : Option VCost) : Res :=
  if !m.fsInputsOk ps then (m, some .validation)
  else
    let t := fastStartConstraints (mergeFsProfiles m.units ps) m.nextCon
    if t.1.isEmpty then (m, none)
    else (m.addUnitSet .fastStart t).andThen (fun m => m.elasticOpt .fastStart vc)

/-- `markets.py:1040-1047` (`remove_fast_start_constraints`). -/
def Market.removeFastStart (m : Market) : Res :=
  let m1 := if m.conRhs.has .fastStart then
      { m with conRhs := m.conRhs.erase .fastStart, unitCon := m.unitCon.erase .fastStart } else m
  let m2 := if m1.deficits.has .fastStart then { m1 with deficits := m1.deficits.erase .fastStart } else m1
  (m2, none)

/-- `markets.py:1064-1151` (`set_demand_constraints`). -/
def Market.setDemand (m : Market) (ds : List Demand) (vc : Option VCost) : Res :=
  if !(ds.all (fun d => decide (d.region ∈ m.regions)) && decide ((ds.map (·.region)).Nodup)) then
    (m, some .validation)
  else (m.addRegSet .demand (energyConstraints ds m.nextCon)).andThen (fun m => m.elasticOpt .demand vc)

/-- `markets.py:1153-1260` (`set_fcas_requirements_constraints`). -/
def Market.setFcasReq (m : Market) (rs : List FcasReq) (vc : Option VCost) : Res :=
  if !(rs.all (fun r => decide (r.region ∈ m.regions) && decide (r.ctype ≠ .other)) &&
      decide ((rs.map (fun r => (r.set, r.region, r.service))).Nodup)) then (m, some .validation)
  else (m.addRegSet .fcas (fcasConstraints rs m.nextCon)).andThen (fun m => m.elasticOpt .fcas vc)

/-- `markets.py:1262-1359` (`set_fcas_max_availability`). -/
def Market.setFcasMaxAvail (m : Market) (ls : List Lim) (vc : Option VCost) : Res :=
  if !m.limsOk ls || !ls.all (fun l => decide (l.service ≠ .energy) && decide (0 ≤ l.val)) then
    (m, some .validation)
  else (m.addUnitSet .fcasMaxAvail (fcasMaxAvailConstraints ls m.nextCon)).andThen
    (fun m => m.elasticOpt .fcasMaxAvail vc)

/-- `markets.py:1513-1518`, `1529-1537`: units bidding for a regulation service joined with ramp
rates.  `rate` selects up or down. -/
def regRates (vars : List BidVar) (s : Service) (rs : List RampRow) (rate : RampRow → ℚ) : List RegRate :=
  (((vars.filter (fun v => decide (v.service = s))).map (fun v => (v.unit, v.dtype, v.service))).dedup).flatMap
    (fun k => (rs.filter (fun r => decide (r.unit = k.1))).map (fun r =>
      { unit := k.1, dtype := k.2.1, service := k.2.2, init := r.init, rate := rate r }))

/-- `markets.py:1544-1550` etc.: add the set if the table is not empty -/
def Market.addUnitSetIf (m : Market) (k : CKey) (nonempty : Bool) (t : List Row × List ConUnit) : Res :=
  if nonempty then m.addUnitSet k t else (m, none)

/-- `markets.py:1595-1601` -/
def Market.elasticJr (m : Market) : Option VCost → Res
  | none => (m, none)
  | some c => (m.makeElastic .jrRaise c).andThen (fun m => (m.makeElastic .jrLower c).andThen (fun m =>
      (m.elasticIfPresent .jrRaiseBdu c).andThen (fun m => m.elasticIfPresent .jrLowerBdu c)))

/-- `markets.py:1361-1609` (`set_joint_ramping_constraints_reg`).  `rs` holds the SCADA ramp rates
(`up`, `down`) and initial outputs by unit; simplification: NaN rates are not represented. -/
def Market.setJointRamping (m : Market) (rs : List RampRow) (ps : Option (List FsRamp)) (rt : RunType)
    (vc : Option VCost) : Res :=
  if !(rs.all (fun r => m.knows r.unit) && decide ((rs.map (·.unit)).Nodup)) then (m, some .validation)
  else if !m.fsProfilesOk rt ps then (m, some .validation)
  else match m.bids with
    | none => (m, some .keyError)
    | some vars =>
      match adjustForFastStart rs rt ps m.di with
      | .error e => (m, some e)
      | .ok rs =>
        let raise := regRates vars .raiseReg rs (·.up)
        let raiseOrd := raise.filter (fun r => decide (r.unit ∉ m.bidi))
        let raiseBdu := raise.filter (fun r => decide (r.unit ∈ m.bidi))
        let lower := regRates vars .lowerReg rs (·.down)
        let lowerOrd := lower.filter (fun r => decide (r.unit ∉ m.bidi))
        let lowerBdu := lower.filter (fun r => decide (r.unit ∈ m.bidi))
        (m.addUnitSetIf .jrRaise (!raiseOrd.isEmpty) (jrRaiseReg raiseOrd m.di m.nextCon)).andThen (fun m =>
        (m.addUnitSetIf .jrRaiseBdu (!raiseBdu.isEmpty) (jrRaiseRegBdu raiseBdu m.di m.nextCon)).andThen (fun m =>
        (m.addUnitSetIf .jrLower (!lowerOrd.isEmpty) (jrLowerReg lowerOrd m.di m.nextCon)).andThen (fun m =>
        (m.addUnitSetIf .jrLowerBdu (!lowerBdu.isEmpty) (jrLowerRegBdu lowerBdu m.di m.nextCon)).andThen (fun m =>
          m.elasticJr vc))))

/-- `markets.py:1732-1745`, `1871-1884`: value checks of trapeziums. -/
def Market.trapsOk (m : Market) (ts : List Trap) (svc : Service → Bool) : Bool :=
  ts.all (fun t => m.knows t.unit && decide (0 ≤ t.maxAvail) && svc t.service) &&
  decide ((ts.map (fun t => (t.unit, t.service, t.dtype))).Nodup)

/-- `markets.py:116-118`: contingency services -/
def Service.isContingency : Service → Bool
  | .energy => false | .raiseReg => false | .lowerReg => false | _ => true

/-- `markets.py:119`: regulation services -/
def Service.isRegulation : Service → Bool
  | .raiseReg => true | .lowerReg => true | _ => false

/-- `markets.py:1611-1745` (`set_joint_capacity_constraints`). -/
def Market.setJointCapacity (m : Market) (ts : List Trap) (vc : Option VCost) : Res :=
  if !m.trapsOk ts Service.isContingency then (m, some .validation)
  else if ts.isEmpty then (m, some .valueError)  -- `max([])` inside the builder, fcas_constraints.py:223
  else (m.addUnitSet .jointCapacity (jointCapacityConstraints ts m.bidi m.nextCon)).andThen
    (fun m => m.elasticOpt .jointCapacity vc)

/-- `markets.py:1747-1884` (`set_energy_and_regulation_capacity_constraints`). -/
def Market.setEnergyReg (m : Market) (ts : List Trap) (vc : Option VCost) : Res :=
  if !m.trapsOk ts Service.isRegulation then (m, some .validation)
  else if ts.isEmpty then (m, some .valueError)  -- `max([])` inside the builder, fcas_constraints.py:416
  else (m.addUnitSet .energyReg (energyRegConstraints ts m.nextCon)).andThen
    (fun m => m.elasticOpt .energyReg vc)

/-- `markets.py:2003-2017` -/
def Market.interDefsOk (m : Market) (ds : List InterDef) : Bool :=
  ds.all (fun d => decide (d.toR ∈ m.regions) && decide (d.fromR ∈ m.regions) &&
    decide (d.gcf = 1 ∨ d.gcf = -1) && decide (0 ≤ d.fromLf) && decide (0 ≤ d.toLf)) &&
  decide ((ds.map (fun d => (d.inter, d.link))).Nodup)

/-- `markets.py:1886-2017` (`set_interconnectors`). -/
def Market.setInterconnectors (m : Market) (ds : List InterDef) : Res :=
  if !m.interDefsOk ds then (m, some .validation)
  else
    let vs := interVariables ds m.nextVar
    let m1 := { m with dirs := some ds, inters := some vs, interReg := some (interMap ds m.nextVar) }
    if vs.isEmpty then (m1, some .valueError)
    else ({ m1 with nextVar := nextAfter (vs.map InterVar.vid) }, none)

/-- `markets.py:2266-2284` -/
def lossInputsOk (fs : List LossFn) (bs : List BreakPt) : Bool :=
  fs.all (fun f => decide (0 ≤ f.share)) && decide ((fs.map (fun f => (f.inter, f.link))).Nodup) &&
  decide ((bs.map (fun b => (b.inter, b.link, b.seg))).Nodup)

/-- `markets.py:2019-2264` (`set_interconnector_losses`).  The check at 2204-2205 builds an exception
without raising it.  With no loss function row left, `DataFrame.apply` at
`interconnectors.py:146` returns a frame and the assignment raises ValueError. -/
def Market.setLosses (m : Market) (fs : List LossFn) (bs : List BreakPt) : Res :=
  if !lossInputsOk fs bs then (m, some .validation)
  else
    let m0 := { m with lossShares := some (fs.map (fun f => (f.inter, f.link, f.share))) }
    match m.dirs, m.inters, m.interReg with
    | some ds, some vs, some im =>
      let fr := mergeFromRegion fs ds
      let lv := lossVariables vs fr m.nextVar
      let lm := lossMap vs im fr m.nextVar
      let ws := weightVariables bs (nextAfter (lv.map LossVar.vid))
      let s := weightsSumToOne ws m.nextCon
      let ll := linkLossToWeights ws lv fr (nextAfter (s.2.map Row.cid))
      let lf := linkWeightsToFlow ws vs (nextAfter (ll.2.map DynRow.cid))
      let dyn := lf.2 ++ ll.2
      if ll.1.isEmpty then (m0, some .valueError)
      else ({ m0 with losses := some lv, lossReg := some lm, weights := some ws,
                      lossLhs := some (s.1 ++ lf.1 ++ ll.1),
                      conRhs := m0.conRhs.set .interpWeights s.2,
                      dynRhs := some dyn,
                      nextVar := nextAfter (lv.map LossVar.vid ++ ws.map WeightVar.vid),
                      nextCon := nextAfter (s.2.map Row.cid ++ dyn.map DynRow.cid) }, none)
    | _, _, _ => (m0, some .attributeError)

/-- `markets.py:2286-2371` (`set_generic_constraints`).  For an empty table `Series.max()` is NaN and
`_next_constraint_id` becomes NaN. -/
def Market.setGeneric (m : Market) (gs : List GenericRow) (vc : Option VCost) : Res :=
  if !decide ((gs.map (·.set)).Nodup) then (m, some .validation)
  else
    let rows := saveIndex gs m.nextCon (fun i g =>
      ({ cid := i, ctype := g.ctype, rhs := g.rhs, set := some g.set } : Row))
    let m1 := { m with conRhs := m.conRhs.set .generic rows }
    let m2 := if rows.isEmpty then { m1 with nanCon := true }
              else { m1 with nextCon := nextAfter (rows.map Row.cid) }
    m2.elasticOpt .generic vc

/-- `markets.py:2373-2452` -/
def Market.linkUnits (m : Market) (gs : List GUnit) : Res :=
  if !(gs.all (fun g => m.knows g.unit) && decide ((gs.map (fun g => (g.set, g.unit, g.service))).Nodup)) then
    (m, some .validation)
  else ({ m with gUnit := some gs }, none)

/-- `markets.py:2454-2538` -/
def Market.linkRegions (m : Market) (gs : List GRegion) : Res :=
  if !(gs.all (fun g => decide (g.region ∈ m.regions)) &&
      decide ((gs.map (fun g => (g.set, g.region, g.service))).Nodup)) then (m, some .validation)
  else ({ m with gRegion := some gs }, none)

/-- `markets.py:2540-2614` -/
def Market.linkInters (m : Market) (gs : List GInter) : Res :=
  if !decide ((gs.map (fun g => (g.set, g.inter))).Nodup) then (m, some .validation)
  else ({ m with gInter := some gs }, none)

/-- `markets.py:2757-2853` (`set_tie_break_constraints`).  Without tied bids `DataFrame.apply` at
`unit_constraints.py:574-576` returns a frame and the assignment raises ValueError. -/
def Market.setTieBreak (m : Market) (cost : ℚ) : Res :=
  match m.bidCost, m.bids with
  | some costs, some vars =>
    let ps := tiePairs (tieBids costs vars m.units)
    if ps.isEmpty then (m, some .valueError)
    else
      let t := tieConstraints ps m.nextCon
      let m1 := { m with tieLhs := some t.1, conRhs := m.conRhs.set .tieBreak t.2,
                         nextCon := nextAfter (t.2.map Row.cid) }
      m1.makeElastic .tieBreak (.num cost)
  | _, _ => (m, some .keyError)

/-- The calls that change a market definition. -/
inductive Op
  | volumeBids (b : List BidRow)
  | priceBids (b : List BidRow)
  | capacity (l : List Lim) (vc : Option VCost)
  | uigf (l : List Lim) (vc : Option VCost)
  | rampRates (r : List RampRow) (sc : Option (List Scada)) (ps : Option (List FsRamp)) (rt : RunType)
      (vc : Option VCost)
  | fastStart (p : List FsInput) (vc : Option VCost)
  | removeFastStart
  | demand (d : List Demand) (vc : Option VCost)
  | fcasReq (r : List FcasReq) (vc : Option VCost)
  | fcasMaxAvail (l : List Lim) (vc : Option VCost)
  | jointRamping (r : List RampRow) (ps : Option (List FsRamp)) (rt : RunType) (vc : Option VCost)
  | jointCapacity (t : List Trap) (vc : Option VCost)
  | energyReg (t : List Trap) (vc : Option VCost)
  | interconnectors (d : List InterDef)
  | losses (f : List LossFn) (b : List BreakPt)
  | generic (g : List GenericRow) (vc : Option VCost)
  | linkUnits (g : List GUnit)
  | linkRegions (g : List GRegion)
  | linkInters (g : List GInter)
  | elastic (k : CKey) (c : VCost)
  | tieBreak (cost : ℚ)

/-- One call.  Once ids are NaN (`nanCon`) the model stops: every further call is reported as
`nanIds` and has no effect. -/
def Market.step (m : Market) (op : Op) : Res :=
  if m.nanCon then (m, some .nanIds) else
  match op with
  | .volumeBids b => m.setVolumeBids b
  | .priceBids b => m.setPriceBids b
  | .capacity l vc => m.setCapacity l vc
  | .uigf l vc => m.setUigf l vc
  | .rampRates r sc ps rt vc => m.setRampRates r sc ps rt vc
  | .fastStart p vc => m.setFastStart p vc
  | .removeFastStart => m.removeFastStart
  | .demand d vc => m.setDemand d vc
  | .fcasReq r vc => m.setFcasReq r vc
  | .fcasMaxAvail l vc => m.setFcasMaxAvail l vc
  | .jointRamping r ps rt vc => m.setJointRamping r ps rt vc
  | .jointCapacity t vc => m.setJointCapacity t vc
  | .energyReg t vc => m.setEnergyReg t vc
  | .interconnectors d => m.setInterconnectors d
  | .losses f b => m.setLosses f b
  | .generic g vc => m.setGeneric g vc
  | .linkUnits g => m.linkUnits g
  | .linkRegions g => m.linkRegions g
  | .linkInters g => m.linkInters g
  | .elastic k c => m.makeElastic k c
  | .tieBreak c => m.setTieBreak c

/-- A history of calls; the user may catch exceptions and go on. -/
def Market.run (m : Market) (ops : List Op) : Market := ops.foldl (fun m op => (m.step op).1) m

/-! ## Assembling the program: `dispatch`, `markets.py:2855-3051` -/

/-- `solver_interface.py:484-554` (`create_lhs`) for regional constraints, join on region and
service. -/
def createLhsReg (cs : List ConReg) (vs : List VarReg) : List Term :=
  cs.flatMap (fun c => (vs.filter (fun v => decide (v.region = c.region ∧ v.service = c.service))).map
    (fun v => { cid := c.cid, vid := v.vid, coef := c.coef * v.coef }))

/-- `solver_interface.py:484-554` (`create_lhs`) for unit level constraints, join on unit, service and
dispatch type. -/
def createLhsUnit (cs : List ConUnit) (vs : List VarUnit) : List Term :=
  cs.flatMap (fun c => (vs.filter (fun v => decide (v.unit = c.unit ∧ v.service = c.service ∧ v.dtype = c.dtype))).map
    (fun v => { cid := c.cid, vid := v.vid, coef := c.coef * v.coef }))

/-- ids and sets of the rows of a table with a `set` column -/
def setIds (rows : List Row) : List (Nat × String) := rows.filterMap (fun r => r.set.map (fun s => (r.cid, s)))

/-- `solver_interface.py:557-631`: ids and sets of the generic and FCAS requirement constraints. -/
def Market.genericIds (m : Market) : Option (List (Nat × String)) :=
  match m.conRhs.get? .generic, m.mktRhs.get? .fcas with
  | none, none => none
  | g, q => some (setIds (g.getD []) ++ setIds (q.getD []))

/-- `solver_interface.py:634-711`: join on unit and service (both dispatch types). -/
def genericUnitLhs (gs : List GUnit) (ids : List (Nat × String)) (vs : List VarUnit) : List Term :=
  gs.flatMap (fun g => (vs.filter (fun v => decide (v.unit = g.unit ∧ v.service = g.service))).flatMap (fun v =>
    (ids.filter (fun i => decide (i.2 = g.set))).map (fun i =>
      { cid := i.1, vid := v.vid, coef := g.coef * v.coef })))

/-- `solver_interface.py:714-789`: join on region and service; the coefficient of the variable is not
used. -/
def genericRegionLhs (gs : List GRegion) (ids : List (Nat × String)) (vs : List VarReg) : List Term :=
  gs.flatMap (fun g => (vs.filter (fun v => decide (v.region = g.region ∧ v.service = g.service))).flatMap (fun v =>
    (ids.filter (fun i => decide (i.2 = g.set))).map (fun i =>
      { cid := i.1, vid := v.vid, coef := g.coef })))

/-- `solver_interface.py:792-828`: join on the interconnector (all its links). -/
def genericInterLhs (gs : List GInter) (ids : List (Nat × String)) (vs : List InterVar) : List Term :=
  gs.flatMap (fun g => (vs.filter (fun v => decide (v.inter = g.inter))).flatMap (fun v =>
    (ids.filter (fun i => decide (i.2 = g.set))).map (fun i =>
      { cid := i.1, vid := v.vid, coef := g.coef * v.gcf })))

/-- `markets.py:2957-2983`: the left hand sides for a list of ids -/
def Market.genericTermsFor (m : Market) (ids : List (Nat × String)) : List Term :=
  (match m.gUnit, m.bidUnit with | some g, some v => genericUnitLhs g ids v | _, _ => []) ++
  (match m.gRegion, m.bidReg with | some g, some v => genericRegionLhs g ids v | _, _ => []) ++
  (match m.gInter, m.inters with | some g, some v => genericInterLhs g ids v | _, _ => [])

/-- `markets.py:2953-2983` -/
def Market.genericTerms (m : Market) : List Term :=
  match m.genericIds with
  | none => []
  | some ids => m.genericTermsFor ids

/-- map rows of the interconnector flows as regional variable map rows -/
def InterMap.toReg (i : InterMap) : VarReg := { vid := i.vid, region := i.region, service := .energy, coef := i.coef }

/-- `markets.py:2989`: all variables mapped to regions -/
def Market.regVars (m : Market) : List VarReg :=
  m.bidReg.getD [] ++ (m.interReg.getD []).map InterMap.toReg ++ m.lossReg.getD []

/-- `markets.py:2942-2947`: fully defined left hand sides -/
def Market.fixedTerms (m : Market) : List Term :=
  m.lossLhs.getD [] ++ m.tieLhs.getD [] ++ m.deficits.flatMap (·.2.2)

/-- `markets.py:2985-2993` -/
def Market.regTerms (m : Market) : List Term := createLhsReg m.regCon.concat m.regVars
/-- `markets.py:2995-3003` -/
def Market.unitTerms (m : Market) : List Term := createLhsUnit m.unitCon.concat (m.bidUnit.getD [])

/-- `markets.py:2942-3003`: the whole left hand side -/
def Market.terms (m : Market) : List Term := m.fixedTerms ++ m.genericTerms ++ m.regTerms ++ m.unitTerms

/-- `markets.py:3009`: all decision variables -/
def Market.allVars (m : Market) : List LVar :=
  (m.bids.getD []).map (fun v => { vid := v.vid, lb := 0, ub := some v.ub }) ++
  (m.inters.getD []).map (fun v => { vid := v.vid, lb := v.lb, ub := some v.ub }) ++
  (m.losses.getD []).map (fun v => { vid := v.vid, lb := v.lb, ub := some v.ub }) ++
  (m.weights.getD []).map (fun v => { vid := v.vid, lb := 0, ub := some 1 }) ++
  m.deficits.flatMap (fun d => d.2.1.map (fun v => { vid := v.vid, lb := 0, ub := none }))

/-- `markets.py:3014-3018`: the objective -/
def Market.objective (m : Market) : List (Nat × ℚ) :=
  (m.bidCost.getD []).map (fun c => (c.vid, c.cost)) ++
  m.deficits.flatMap (fun d => d.2.1.map (fun v => (v.vid, v.cost)))

/-- `markets.py:3020-3034`: all right hand sides -/
def Market.allRows (m : Market) : List (Nat × CType × Rhs) :=
  m.conRhs.concat.map (fun r => (r.cid, r.ctype, Rhs.const r.rhs)) ++
  m.mktRhs.concat.map (fun r => (r.cid, r.ctype, Rhs.const r.rhs)) ++
  (m.dynRhs.getD []).map (fun r => (r.cid, r.ctype, Rhs.var r.rhsVid))

/-- `solver_interface.py:213-214`: coefficients of one constraint summed per variable. -/
def groupCoefs (ts : List Term) (cid : Nat) : List (Nat × ℚ) :=
  let mine := ts.filter (fun t => decide (t.cid = cid))
  (mine.map (·.vid)).dedup.map (fun v =>
    (v, ((mine.filter (fun t => decide (t.vid = v))).map (·.coef)).sum))

/-- `solver_interface.py:218-220`: `dict(zip(ids, ...))`, the last entry of an id wins. -/
def lookupLast (rows : List (Nat × CType × Rhs)) (cid : Nat) : Option (CType × Rhs) :=
  ((rows.reverse).find? (fun r => decide (r.1 = cid))).map (·.2)

/-- `solver_interface.py:225-244`: one row per constraint id that occurs on a left hand side. -/
def solverRows (ts : List Term) (rows : List (Nat × CType × Rhs)) : List Nat → Except Err (List LRow)
  | [] => .ok []
  | c :: cs =>
    match lookupLast rows c with
    | none => .error .keyError
    | some (ty, r) =>
      if ty = .other then .error .valueError
      else match solverRows ts rows cs with
        | .error e => .error e
        | .ok rest => .ok ({ cid := c, coefs := groupCoefs ts c, ctype := ty, rhs := r } :: rest)

/-- groups of the special ordered sets, `solver_interface.py:117-138` -/
def groupBy {α κ : Type} [DecidableEq κ] (key : α → κ) (l : List α) : List (List α) :=
  (l.map key).dedup.map (fun k => l.filter (fun a => decide (key a = k)))

/-- `markets.py:3037-3041` -/
def Market.sos2Groups (m : Market) : List (List (Nat × Int)) :=
  (groupBy (fun w => (w.inter, w.link)) (m.weights.getD [])).map (·.map (fun w => (w.vid, w.seg)))

/-- `markets.py:3043-3049` -/
def Market.sos1Groups (m : Market) : List (List Nat) :=
  (groupBy (·.inter) ((m.inters.getD []).filter (fun v => decide (v.inter ≠ v.link)))).map (·.map (·.vid))

/-- No table of variables has been created, `markets.py:3007`. -/
def Market.noVars (m : Market) : Bool :=
  m.bids.isNone && m.inters.isNone && m.losses.isNone && m.weights.isNone && m.deficits.isEmpty

/-- `markets.py:3020-3051`, `solver_interface.py:140-244`: the rows handed to the solver.  Without any
right hand side table no constraint is added. -/
def Market.lpRows (m : Market) : Except Err (List LRow) :=
  if m.conRhs.isEmpty && m.mktRhs.isEmpty && m.dynRhs.isNone then .ok []
  else if m.terms.isEmpty then .error .valueError
  else if !m.terms.all (fun t => decide (t.vid ∈ m.allVars.map LVar.vid)) then .error .typeError
  else solverRows m.terms m.allRows ((m.terms.map Term.cid).dedup)

/-- `markets.py:2942-3051`: build the program.  Error kinds: concatenating an empty list of maps is a
ValueError, unknown ids are KeyErrors or TypeErrors; when several apply the order of the checks is
simplified. -/
def Market.assemble (m : Market) : Except Err Lp :=
  if !m.regCon.isEmpty && m.bidReg.isNone && m.interReg.isNone && m.lossReg.isNone then .error .valueError
  else if !m.unitCon.isEmpty && m.bidUnit.isNone then .error .valueError
  else if m.noVars then .error .modelBuild
  else if !m.objective.all (fun o => decide (o.1 ∈ m.allVars.map LVar.vid)) then .error .keyError
  else if !(m.dynRhs.getD []).all (fun r => decide (r.rhsVid ∈ m.allVars.map LVar.vid)) then .error .keyError
  else match m.lpRows with
    | .error e => .error e
    | .ok rows => .ok { vars := m.allVars, rows := rows, sos2 := m.sos2Groups, sos1 := m.sos1Groups,
                        obj := m.objective }

end Verif
