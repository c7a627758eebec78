import Verif.Spec.Lp

/-!
# The constraint and variable builders of `spot_market_backend`

One Lean function per Python function.  Ids are natural numbers, all numbers are rationals.
-/

namespace Verif

/-! ## Row types -/

/-- A row of `unit_info`, `markets.py:141-148`. -/
structure UnitInfo where
  unit : String
  region : String
  lf : ℚ := 1
  dtype : DType := .generator
  deriving DecidableEq, Repr

/-- A row of a volume (or price) bid table: id columns and the value in each band column
(`markets.py:150-267`, `294-404`).  Simplification: the band columns are stored per row. -/
structure BidRow where
  unit : String
  service : Service := .energy
  dtype : DType := .generator
  bands : List (String × ℚ)
  deriving DecidableEq, Repr

/-- A bid decision variable, `variable_ids.py:173-175`; lower bound 0, type continuous. -/
structure BidVar where
  unit : String
  band : String
  service : Service
  dtype : DType
  vid : Nat
  ub : ℚ
  deriving DecidableEq, Repr

/-- Variable to unit level constraint map, `variable_ids.py:164-171`. -/
structure VarUnit where
  vid : Nat
  unit : String
  service : Service
  dtype : DType
  coef : ℚ
  deriving DecidableEq, Repr

/-- Variable to regional constraint map, `variable_ids.py:160-162`, `interconnectors.py:80-81`. -/
structure VarReg where
  vid : Nat
  region : String
  service : Service
  coef : ℚ
  deriving DecidableEq, Repr

/-- Unit level constraint to variable map, `unit_constraints.py:515-516`. -/
structure ConUnit where
  cid : Nat
  unit : String
  service : Service
  dtype : DType
  coef : ℚ
  deriving DecidableEq, Repr

/-- Regional constraint to variable map, `market_constraints.py:91-93`. -/
structure ConReg where
  cid : Nat
  region : String
  service : Service
  coef : ℚ
  deriving DecidableEq, Repr

/-- A row of a `rhs_and_type` table.  Columns that only some tables have are optional. -/
structure Row where
  cid : Nat
  ctype : CType
  rhs : ℚ
  set : Option String := none
  region : Option String := none
  deriving DecidableEq, Repr

/-- A row of a `rhs_and_type` table whose right hand side is a variable,
`interconnectors.py:153-155`. -/
structure DynRow where
  cid : Nat
  ctype : CType
  rhsVid : Nat
  deriving DecidableEq, Repr

/-- Objective function row for a bid, `markets.py:402-404`. -/
structure BidCost where
  vid : Nat
  unit : String
  service : Service
  dtype : DType
  band : String
  cost : ℚ
  deriving DecidableEq, Repr

/-! ## `variable_ids.py` -/

/-- `variable_ids.py:138-142`: one row per bid band, bands below 0.0001 removed.
(The Python melts column by column; the stable sort that follows removes the difference.) -/
def meltVolumes (bids : List BidRow) : List BidVar :=
  (bids.flatMap (fun r => r.bands.map (fun b =>
    { unit := r.unit, band := b.1, service := r.service, dtype := r.dtype, vid := 0, ub := b.2 }))).filter
    (fun v => decide (v.ub ≥ 1 / 10000))

/-- Sort order of `variable_ids.py:144`: by unit, then by band (both as strings). -/
def BidVar.before (a b : BidVar) : Prop := a.unit < b.unit ∨ (a.unit = b.unit ∧ a.band ≤ b.band)

instance : DecidableRel BidVar.before := fun a b => by unfold BidVar.before; infer_instance

/-- `variable_ids.py:128-149`: the decision variables of a volume bid table. -/
def bidVariables (bids : List BidRow) (next : Nat) : List BidVar :=
  saveIndex ((meltVolumes bids).insertionSort BidVar.before) next (fun i v => { v with vid := i })

/-- `variable_ids.py:151-171`: map to the unit level constraints. -/
def bidUnitMap (vars : List BidVar) (units : List UnitInfo) (bidi : List String) : List VarUnit :=
  vars.flatMap (fun v => (units.filter (fun u => decide (u.unit = v.unit ∧ u.dtype = v.dtype))).map
    (fun _ => { vid := v.vid, unit := v.unit, service := v.service, dtype := v.dtype,
                coef := if v.unit ∈ bidi ∧ v.service = .energy ∧ v.dtype = .load then -1 else 1 }))

/-- `variable_ids.py:151-162`: map to the regional constraints. -/
def bidRegMap (vars : List BidVar) (units : List UnitInfo) : List VarReg :=
  vars.flatMap (fun v => (units.filter (fun u => decide (u.unit = v.unit ∧ u.dtype = v.dtype))).map
    (fun u => { vid := v.vid, region := u.region, service := v.service,
                coef := if v.dtype = .load ∧ v.service = .energy then -1 else 1 }))

/-! ## `objective_function.py` -/

/-- `objective_function.py:6-29` (`bids`). -/
def bidCosts (vars : List BidVar) (prices : List BidRow) : List BidCost :=
  vars.flatMap (fun v =>
    (prices.filter (fun p => decide (p.unit = v.unit ∧ p.service = v.service ∧ p.dtype = v.dtype))).flatMap
      (fun p => (p.bands.filter (fun b => decide (b.1 = v.band))).map (fun b =>
        { vid := v.vid, unit := v.unit, service := v.service, dtype := v.dtype, band := v.band,
          cost := if v.dtype = .load ∧ v.service = .energy then -1 * b.2 else b.2 })))

/-- `objective_function.py:32-82` (`scale_by_loss_factors`). -/
def scaleByLossFactors (costs : List BidCost) (units : List UnitInfo) : List BidCost :=
  costs.flatMap (fun c => (units.filter (fun u => decide (u.unit = c.unit ∧ u.dtype = c.dtype))).map
    (fun u => { c with cost := if c.service = .energy then c.cost / u.lf else c.cost }))

/-! ## `unit_constraints.py` -/

/-- A row of a table of unit limits: id columns and the limit. -/
structure Lim where
  unit : String
  service : Service := .energy
  dtype : DType := .generator
  val : ℚ
  deriving DecidableEq, Repr

/-- `unit_constraints.py:499-518` (`create_constraints`). -/
def createConstraints (lims : List Lim) (next : Nat) (dir : CType) : List Row × List ConUnit :=
  (saveIndex lims next (fun i l => { cid := i, ctype := dir, rhs := l.val }),
   saveIndex lims next (fun i l =>
     { cid := i, unit := l.unit, service := l.service, dtype := l.dtype, coef := 1 }))

/-- `unit_constraints.py:7-98` (`capacity`): the map coefficient is -1 for the load side of
bidirectional units, whose variables also have coefficient -1. -/
def capacityConstraints (lims : List Lim) (next : Nat) (bidi : List String) : List Row × List ConUnit :=
  let r := createConstraints lims next .le
  (r.1, r.2.map (fun c => { c with coef := if c.dtype = .load ∧ c.unit ∈ bidi then -1 else 1 }))

/-- `unit_constraints.py:101-182` (`uigf`). -/
def uigfConstraints (lims : List Lim) (next : Nat) : List Row × List ConUnit :=
  createConstraints lims next .le

/-- A row of ramp rate inputs (`markets.py:884-896`), rates in MW/h. -/
structure RampRow where
  unit : String
  dtype : DType := .generator
  init : ℚ
  up : ℚ
  down : ℚ
  deriving DecidableEq, Repr

/-- `unit_constraints.py:185-270` (`ramp_up`). -/
def rampUpConstraints (rs : List RampRow) (next : Nat) (di : ℚ) : List Row × List ConUnit :=
  createConstraints (rs.map (fun r =>
    { unit := r.unit, dtype := r.dtype, val := r.init + r.up * (di / 60) })) next .le

/-- `unit_constraints.py:273-357` (`ramp_down`). -/
def rampDownConstraints (rs : List RampRow) (next : Nat) (di : ℚ) : List Row × List ConUnit :=
  createConstraints (rs.map (fun r =>
    { unit := r.unit, dtype := r.dtype, val := r.init - r.down * (di / 60) })) next .ge

/-- `unit_constraints.py:360-437` (`fcas_max_availability`). -/
def fcasMaxAvailConstraints (lims : List Lim) (next : Nat) : List Row × List ConUnit :=
  createConstraints lims next .le

/-- A fast start profile row after the merge with the dispatch types, `markets.py:1025-1029`. -/
structure FsProfile where
  unit : String
  dtype : DType := .generator
  endMode : Nat
  time : ℚ
  len2 : ℚ
  len4 : ℚ
  minLoading : ℚ
  deriving DecidableEq, Repr

/-- `unit_constraints.py:521-526`. -/
def fsModeOne (ps : List FsProfile) : List Lim :=
  (ps.filter (fun p => decide (p.endMode = 0 ∨ p.endMode = 1))).map
    (fun p => { unit := p.unit, dtype := p.dtype, val := 0 })

/-- `unit_constraints.py:529-537`. -/
def fsModeTwo (ps : List FsProfile) : List Lim :=
  (ps.filter (fun p => decide (p.endMode = 2))).map
    (fun p => { unit := p.unit, dtype := p.dtype, val := p.time / p.len2 * p.minLoading })

/-- `unit_constraints.py:540-544`. -/
def fsModeThree (ps : List FsProfile) : List Lim :=
  (ps.filter (fun p => decide (p.endMode = 3))).map
    (fun p => { unit := p.unit, dtype := p.dtype, val := p.minLoading })

/-- `unit_constraints.py:547-556`. -/
def fsModeFour (ps : List FsProfile) : List Lim :=
  (ps.filter (fun p => decide (p.endMode = 4))).map
    (fun p => { unit := p.unit, dtype := p.dtype,
                val := p.minLoading - p.time / p.len4 * p.minLoading })

/-- `unit_constraints.py:440-496` (`create_fast_start_profile_constraints`).  An empty group adds
no rows and leaves the next id as it is. -/
def fastStartConstraints (ps : List FsProfile) (next : Nat) : List Row × List ConUnit :=
  let g1 := createConstraints (fsModeOne ps) next .le
  let n2 := next + (fsModeOne ps).length
  let g2a := createConstraints (fsModeTwo ps) n2 .ge
  let n2b := n2 + (fsModeTwo ps).length
  let g2b := createConstraints (fsModeTwo ps) n2b .le
  let n3 := n2b + (fsModeTwo ps).length
  let g3 := createConstraints (fsModeThree ps) n3 .ge
  let n4 := n3 + (fsModeThree ps).length
  let g4 := createConstraints (fsModeFour ps) n4 .ge
  (g1.1 ++ g2a.1 ++ g2b.1 ++ g3.1 ++ g4.1, g1.2 ++ g2b.2 ++ g2a.2 ++ g3.2 ++ g4.2)

/-- A row of the table joined in `unit_constraints.py:560-564`. -/
structure TieBid where
  vid : Nat
  unit : String
  dtype : DType
  band : String
  cost : ℚ
  ub : ℚ
  region : String
  deriving DecidableEq, Repr

/-- `unit_constraints.py:560-564`: energy bids with bounds and regions; the region merge is on the
unit only. -/
def tieBids (costs : List BidCost) (vars : List BidVar) (units : List UnitInfo) : List TieBid :=
  ((costs.filter (fun c => decide (c.service = .energy))).flatMap (fun c =>
    (vars.filter (fun v => decide (v.vid = c.vid))).map (fun v => (c, v)))).flatMap (fun cv =>
      (units.filter (fun u => decide (u.unit = cv.1.unit))).map (fun u =>
        { vid := cv.1.vid, unit := cv.1.unit, dtype := cv.1.dtype, band := cv.1.band,
          cost := cv.1.cost, ub := cv.2.ub, region := u.region }))

/-- `unit_constraints.py:569-572` (`make_id`). -/
def tieName (a b : TieBid) : String :=
  String.join ([a.unit, a.band, b.unit, b.band].insertionSort (· ≤ ·))

/-- `unit_constraints.py:566-578`: tied pairs, one per name. -/
def tiePairs (bids : List TieBid) : List (TieBid × TieBid) :=
  dropDup (fun p => tieName p.1 p.2)
    (bids.flatMap (fun a => (bids.filter (fun b =>
      decide (b.cost = a.cost ∧ b.region = a.region ∧ b.dtype = a.dtype ∧ a.unit ≠ b.unit))).map
        (fun b => (a, b))))

/-- `unit_constraints.py:581-598`: left hand sides and right hand sides. -/
def tieConstraints (ps : List (TieBid × TieBid)) (next : Nat) : List Term × List Row :=
  (saveIndex ps next (fun i p => { cid := i, vid := p.1.vid, coef := 1 / p.1.ub }) ++
   saveIndex ps next (fun i p => { cid := i, vid := p.2.vid, coef := -1 / p.2.ub }),
   saveIndex ps next (fun i _ => { cid := i, ctype := .eq, rhs := 0 }))

/-! ## `market_constraints.py` -/

/-- A row of the demand table. -/
structure Demand where
  region : String
  demand : ℚ
  deriving DecidableEq, Repr

/-- `market_constraints.py:5-94` (`energy`). -/
def energyConstraints (ds : List Demand) (next : Nat) : List Row × List ConReg :=
  (saveIndex ds next (fun i d => { cid := i, ctype := .eq, rhs := d.demand, region := some d.region }),
   saveIndex ds next (fun i d => { cid := i, region := d.region, service := .energy, coef := 1 }))

/-- A row of the FCAS requirement table; `type` is `=` if the column is missing
(`market_constraints.py:173-174`). -/
structure FcasReq where
  set : String
  service : Service
  region : String
  volume : ℚ
  ctype : CType := .eq
  deriving DecidableEq, Repr

/-- `market_constraints.py:176-181`: one row per set, the first row of a set decides. -/
def fcasRows (rs : List FcasReq) (next : Nat) : List Row :=
  saveIndex (dropDup (·.set) rs) next (fun i r =>
    { cid := i, ctype := r.ctype, rhs := r.volume, set := some r.set })

/-- `market_constraints.py:97-188` (`fcas`). -/
def fcasConstraints (rs : List FcasReq) (next : Nat) : List Row × List ConReg :=
  let rows := fcasRows rs next
  (rows, rs.flatMap (fun r => (rows.filter (fun t => decide (t.set = some r.set))).map (fun t =>
    { cid := t.cid, region := r.region, service := r.service, coef := 1 })))

/-! ## `fcas_constraints.py` -/

/-- Ramp rate rows used by the joint ramping constraints (`markets.py:1535-1542`). -/
structure RegRate where
  unit : String
  dtype : DType
  service : Service
  init : ℚ
  rate : ℚ
  deriving DecidableEq, Repr

/-- Settings of `fcas_constraints.py:48-56`, `65-73`. -/
structure JrSettings where
  ctype : CType
  regCoef : ℚ
  dir : ℚ
  service : Service

/-- `fcas_constraints.py:96-108` (generic constructor), on rows that already have ids. -/
def jrGeneric (cs : List (Nat × RegRate)) (s : JrSettings) (di : ℚ) : List Row × List ConUnit :=
  (cs.map (fun c => { cid := c.1, ctype := s.ctype, rhs := c.2.init + s.dir * (c.2.rate * di / 60) }),
   cs.map (fun c => { cid := c.1, unit := c.2.unit, service := s.service, dtype := c.2.dtype,
                      coef := s.regCoef }) ++
   cs.map (fun c => { cid := c.1, unit := c.2.unit, service := .energy, dtype := c.2.dtype,
                      coef := 1 }))

/-- `fcas_constraints.py:80-93`: ids are given before splitting generators and loads. -/
def jrConstructor (rs : List RegRate) (di : ℚ) (next : Nat) (gen load : JrSettings) :
    List Row × List ConUnit :=
  let cs := saveIndex rs next (fun i r => (i, r))
  let g := jrGeneric (cs.filter (fun c => decide (c.2.dtype = .generator))) gen di
  let l := jrGeneric (cs.filter (fun c => decide (c.2.dtype = .load))) load di
  (g.1 ++ l.1, g.2 ++ l.2)

/-- `fcas_constraints.py:46-60`. -/
def jrRaiseReg (rs : List RegRate) (di : ℚ) (next : Nat) : List Row × List ConUnit :=
  jrConstructor rs di next ⟨.le, 1, 1, .raiseReg⟩ ⟨.ge, -1, -1, .raiseReg⟩

/-- `fcas_constraints.py:63-77`. -/
def jrLowerReg (rs : List RegRate) (di : ℚ) (next : Nat) : List Row × List ConUnit :=
  jrConstructor rs di next ⟨.ge, -1, -1, .lowerReg⟩ ⟨.le, 1, 1, .lowerReg⟩

/-- `fcas_constraints.py:6-43`: bidirectional units, one constraint per unit for both sides.
`sgn` is 1 for raise regulation (6-23) and -1 for lower regulation (26-43). -/
def jrBdu (rs : List RegRate) (di : ℚ) (next : Nat) (ctype : CType) (sgn : ℚ) :
    List Row × List ConUnit :=
  let us := dropDup (·.unit) rs
  let cs := saveIndex us next (fun i r => (i, r))
  let reg := cs.flatMap (fun c => (rs.filter (fun r => decide (r.unit = c.2.unit))).map (fun r =>
    ({ cid := c.1, unit := r.unit, service := r.service, dtype := r.dtype, coef := sgn } : ConUnit)))
  (cs.map (fun c => { cid := c.1, ctype := ctype, rhs := c.2.init + sgn * (c.2.rate * di / 60) }),
   reg ++ reg.map (fun c => { c with service := .energy, coef := 1 }))

/-- `fcas_constraints.py:6-23`. -/
def jrRaiseRegBdu (rs : List RegRate) (di : ℚ) (next : Nat) := jrBdu rs di next .le 1

/-- `fcas_constraints.py:26-43`. -/
def jrLowerRegBdu (rs : List RegRate) (di : ℚ) (next : Nat) := jrBdu rs di next .ge (-1)

/-- An FCAS trapezium (`markets.py:1732-1745`). -/
structure Trap where
  unit : String
  service : Service
  dtype : DType := .generator
  maxAvail : ℚ
  emin : ℚ
  lbp : ℚ
  hbp : ℚ
  emax : ℚ
  deriving DecidableEq, Repr

/-- `fcas_constraints.py:226-232`: upper slope coefficient. -/
def Trap.upperCoef (t : Trap) : ℚ := (t.emax - t.hbp) / t.maxAvail
/-- `fcas_constraints.py:226-232`: lower slope coefficient. -/
def Trap.lowerCoef (t : Trap) : ℚ := (t.lbp - t.emin) / t.maxAvail

/-- Upper slope part of the map of `fcas_constraints.py:248-272`, for one trapezium with id. -/
def jcUpperMap (bidi : List String) (i : Nat) (t : Trap) : List ConUnit :=
  [⟨i, t.unit, .energy, t.dtype, 1⟩, ⟨i, t.unit, t.service, t.dtype, t.upperCoef⟩,
   ⟨i, t.unit, if t.dtype = .generator then .raiseReg else .lowerReg, t.dtype, 1⟩] ++
  (if t.unit ∈ bidi then
    [⟨i, t.unit, .energy, .load, 1⟩,
     ⟨i, t.unit, if t.dtype = .generator then .raiseReg else .lowerReg, .load, 1⟩] else [])

/-- Lower slope part of the map of `fcas_constraints.py:274-301`, for one trapezium with id. The
load side regulation coefficient of bidirectional units is +1 (line 301). -/
def jcLowerMap (bidi : List String) (i : Nat) (t : Trap) : List ConUnit :=
  [⟨i, t.unit, .energy, t.dtype, 1⟩, ⟨i, t.unit, t.service, t.dtype, -1 * t.lowerCoef⟩,
   ⟨i, t.unit, if t.dtype = .generator then .lowerReg else .raiseReg, t.dtype, -1⟩] ++
  (if t.unit ∈ bidi then
    [⟨i, t.unit, .energy, .load, 1⟩,
     ⟨i, t.unit, if t.dtype = .generator then .lowerReg else .raiseReg, .load, 1⟩] else [])

/-- `fcas_constraints.py:111-312` (`joint_capacity_constraints`).  Simplification: the map rows are
grouped per constraint instead of per kind (order only). -/
def jointCapacityConstraints (ts : List Trap) (bidi : List String) (next : Nat) :
    List Row × List ConUnit :=
  let n2 := next + ts.length
  (saveIndex ts next (fun i t => { cid := i, ctype := .le, rhs := t.emax }) ++
   saveIndex ts n2 (fun i t => { cid := i, ctype := .ge, rhs := t.emin }),
   (saveIndex ts next (jcUpperMap bidi)).flatten ++ (saveIndex ts n2 (jcLowerMap bidi)).flatten)

/-- `fcas_constraints.py:315-464` (`energy_and_regulation_capacity_constraints`). -/
def energyRegConstraints (ts : List Trap) (next : Nat) : List Row × List ConUnit :=
  let n2 := next + ts.length
  (saveIndex ts next (fun i t => { cid := i, ctype := .le, rhs := t.emax }) ++
   saveIndex ts n2 (fun i t => { cid := i, ctype := .ge, rhs := t.emin }),
   (saveIndex ts next (fun i t => [(⟨i, t.unit, .energy, t.dtype, 1⟩ : ConUnit),
       ⟨i, t.unit, t.service, t.dtype, t.upperCoef⟩])).flatten ++
   (saveIndex ts n2 (fun i t => [(⟨i, t.unit, .energy, t.dtype, 1⟩ : ConUnit),
       ⟨i, t.unit, t.service, t.dtype, -1 * t.lowerCoef⟩])).flatten)

/-! ## `interconnectors.py` -/

/-- A row of the interconnector definition table, `markets.py:2003-2017`. -/
structure InterDef where
  inter : String
  link : String
  toR : String
  fromR : String
  max : ℚ
  min : ℚ
  gcf : ℚ := 1
  fromLf : ℚ := 1
  toLf : ℚ := 1
  deriving DecidableEq, Repr

/-- Interconnector flow variable, `interconnectors.py:68-72`. -/
structure InterVar where
  inter : String
  link : String
  vid : Nat
  lb : ℚ
  ub : ℚ
  gcf : ℚ
  deriving DecidableEq, Repr

/-- Row of the interconnector constraint map, `interconnectors.py:80-81` (service is energy). -/
structure InterMap where
  vid : Nat
  inter : String
  link : String
  region : String
  coef : ℚ
  deriving DecidableEq, Repr

/-- `interconnectors.py:55-72`: flow variables. -/
def interVariables (ds : List InterDef) (next : Nat) : List InterVar :=
  saveIndex ds next (fun i d =>
    { inter := d.inter, link := d.link, vid := i, lb := d.min, ub := d.max, gcf := d.gcf })

/-- `interconnectors.py:58-81`: regional map, first all to regions, then all from regions. -/
def interMap (ds : List InterDef) (next : Nat) : List InterMap :=
  saveIndex ds next (fun i d => { vid := i, inter := d.inter, link := d.link, region := d.toR, coef := 1 * d.toLf }) ++
  saveIndex ds next (fun i d => { vid := i, inter := d.inter, link := d.link, region := d.fromR, coef := -1 * d.fromLf })

/-- A row of `loss_functions` (`markets.py:2266-2274`). -/
structure LossFn where
  inter : String
  link : String
  fn : ℚ → ℚ
  share : ℚ

/-- `loss_functions` after the merge with the directions, `markets.py:2219-2221`. -/
structure LossFnR where
  inter : String
  link : String
  fn : ℚ → ℚ
  share : ℚ
  fromR : String

/-- `markets.py:2219-2221`. -/
def mergeFromRegion (fs : List LossFn) (ds : List InterDef) : List LossFnR :=
  fs.flatMap (fun f => (ds.filter (fun d => decide (d.inter = f.inter ∧ d.link = f.link))).map (fun d =>
    { inter := f.inter, link := f.link, fn := f.fn, share := f.share, fromR := d.fromR }))

/-- Break points, `markets.py:2276-2284`. -/
structure BreakPt where
  inter : String
  link : String
  seg : Int
  bp : ℚ
  deriving DecidableEq, Repr

/-- Loss variables, `interconnectors.py:397-398`. -/
structure LossVar where
  inter : String
  link : String
  vid : Nat
  lb : ℚ
  ub : ℚ
  deriving DecidableEq, Repr

/-- Interpolation weight variables, `interconnectors.py:321-326`; bounds 0 and 1. -/
structure WeightVar where
  inter : String
  link : String
  seg : Int
  bp : ℚ
  vid : Nat
  deriving DecidableEq, Repr

/-- `interconnectors.py:372-385`: loss variables with their shares; ids are given before the inner
merge with the loss functions. -/
def lossVariablesAux (vars : List InterVar) (fs : List LossFnR) (next : Nat) :
    List (LossVar × LossFnR) :=
  (saveIndex vars next (fun i v =>
    ({ inter := v.inter, link := v.link, vid := i, lb := -1 * Max.max |v.lb| |v.ub|,
       ub := Max.max |v.lb| |v.ub| } : LossVar))).flatMap (fun v =>
    (fs.filter (fun f => decide (f.inter = v.inter ∧ f.link = v.link))).map (fun f => (v, f)))

/-- `interconnectors.py:397-398`. -/
def lossVariables (vars : List InterVar) (fs : List LossFnR) (next : Nat) : List LossVar :=
  (lossVariablesAux vars fs next).map (·.1)

/-- `interconnectors.py:387-399`: regional map of the loss variables. -/
def lossMap (vars : List InterVar) (im : List InterMap) (fs : List LossFnR) (next : Nat) : List VarReg :=
  (lossVariablesAux vars fs next).flatMap (fun p =>
    (im.filter (fun r => decide (r.inter = p.1.inter ∧ r.link = p.1.link))).map (fun r =>
      { vid := p.1.vid, region := r.region, service := .energy,
        coef := if p.2.fromR = r.region then -1 * p.2.share else -1 * (1 - p.2.share) }))

/-- `interconnectors.py:267-326` (`create_weights`). -/
def weightVariables (bs : List BreakPt) (next : Nat) : List WeightVar :=
  saveIndex bs next (fun i b => { inter := b.inter, link := b.link, seg := b.seg, bp := b.bp, vid := i })

/-- `interconnectors.py:135-137`, `194-196`, `250-252`: one constraint per link with weights. -/
def weightConIds (ws : List WeightVar) (next : Nat) : List (Nat × String × String) :=
  saveIndex (dropDup (fun w => (w.inter, w.link)) ws) next (fun i w => (i, w.inter, w.link))

/-- the merge of weights with constraint ids used by the three functions below -/
def weightTerms (ws : List WeightVar) (next : Nat) (coef : WeightVar → ℚ) : List Term :=
  ws.flatMap (fun w => ((weightConIds ws next).filter (fun c => decide (c.2.1 = w.inter ∧ c.2.2 = w.link))).map
    (fun c => { cid := c.1, vid := w.vid, coef := coef w }))

/-- `interconnectors.py:214-264` (`create_weights_must_sum_to_one`). -/
def weightsSumToOne (ws : List WeightVar) (next : Nat) : List Term × List Row :=
  (weightTerms ws next (fun _ => 1),
   (weightConIds ws next).map (fun c => { cid := c.1, ctype := .eq, rhs := 1 }))

/-- `interconnectors.py:86-156` (`link_inter_loss_to_interpolation_weights`). -/
def linkLossToWeights (ws : List WeightVar) (ls : List LossVar) (fs : List LossFnR) (next : Nat) :
    List Term × List DynRow :=
  let cids := weightConIds ws next
  (ws.flatMap (fun w => (cids.filter (fun c => decide (c.2.1 = w.inter ∧ c.2.2 = w.link))).flatMap (fun c =>
     (fs.filter (fun f => decide (f.inter = w.inter ∧ f.link = w.link))).map (fun f =>
       { cid := c.1, vid := w.vid, coef := f.fn w.bp }))),
   cids.flatMap (fun c => (ls.filter (fun l => decide (l.inter = c.2.1 ∧ l.link = c.2.2))).map (fun l =>
     { cid := c.1, ctype := .eq, rhsVid := l.vid })))

/-- `interconnectors.py:159-211` (`link_weights_to_inter_flow`). -/
def linkWeightsToFlow (ws : List WeightVar) (vs : List InterVar) (next : Nat) :
    List Term × List DynRow :=
  (weightTerms ws next (fun w => w.bp),
   (weightConIds ws next).flatMap (fun c => (vs.filter (fun v => decide (v.inter = c.2.1 ∧ v.link = c.2.2))).map
     (fun v => { cid := c.1, ctype := .eq, rhsVid := v.vid })))

/-! ## `elastic_constraints.py` -/

/-- Deficit variable, `elastic_constraints.py:71-74`: bounds 0 and infinity. -/
structure DefVar where
  vid : Nat
  cost : ℚ
  deriving DecidableEq, Repr

/-- `elastic_constraints.py:66` rows with an inequality sign. -/
def isIneq (r : Row × ℚ) : Bool := decide (r.1.ctype = .ge ∨ r.1.ctype = .le)
/-- `elastic_constraints.py:67` -/
def isEqual (r : Row × ℚ) : Bool := decide (r.1.ctype = .eq)

/-- `elastic_constraints.py:6-114` (`create_deficit_variables`), rows paired with their cost. -/
def deficitVariables (rows : List (Row × ℚ)) (next : Nat) : List DefVar × List Term :=
  let ins := rows.filter isIneq
  let eqs := rows.filter isEqual
  let nUp := next + ins.length
  let nDown := nUp + eqs.length
  (saveIndex ins next (fun i r => { vid := i, cost := r.2 }) ++
   saveIndex eqs nUp (fun i r => { vid := i, cost := r.2 }) ++
   saveIndex eqs nDown (fun i r => { vid := i, cost := r.2 }),
   saveIndex ins next (fun i r => { cid := r.1.cid, vid := i, coef := if r.1.ctype = .ge then 1 else -1 }) ++
   saveIndex eqs nUp (fun i r => { cid := r.1.cid, vid := i, coef := -1 }) ++
   saveIndex eqs nDown (fun i r => { cid := r.1.cid, vid := i, coef := 1 }))

/-! ## `ramp_rate_processing.py` -/

/-- `ramp_rate_processing.py:18-30` (`calc_composite_ramp_up_rate`). `di` is in minutes. -/
def compositeUp (di init up down : ℚ) : ℚ :=
  let h := di / 60
  if init ≥ 0 then up
  else if down = 0 then 0
  else if |init / down| ≥ h then down
  else ((h - |init / down|) * up - init) / h

/-- `ramp_rate_processing.py:39-51` (`calc_composite_ramp_down_rate`). -/
def compositeDown (di init up down : ℚ) : ℚ :=
  let h := di / 60
  if init ≤ 0 then up
  else if down = 0 then 0
  else if |init / down| ≥ h then down
  else ((h - |init / down|) * up + init) / h

/-- Composite ramp rates of a bidirectional unit, `ramp_rate_processing.py:56-60`. -/
structure BiRamp where
  unit : String
  down : ℚ
  up : ℚ
  init : ℚ
  deriving DecidableEq, Repr

/-- `ramp_rate_processing.py:7-62` (`_calculate_composite_ramp_rates`). -/
def compositeRampRates (rs : List RampRow) (di : ℚ) (bidi : List String) :
    List RampRow × List BiRamp :=
  let bi := rs.filter (fun r => decide (r.unit ∈ bidi))
  let gen := bi.filter (fun r => decide (r.dtype = .generator))
  let load := bi.filter (fun r => decide (r.dtype = .load))
  let ups : List (String × ℚ × ℚ) := gen.flatMap (fun g => (load.filter (fun l => decide (l.unit = g.unit))).map
    (fun l => (g.unit, compositeUp di l.init g.up l.down, l.init)))
  let downs : List (String × ℚ) := load.flatMap (fun l => (gen.filter (fun g => decide (g.unit = l.unit))).map
    (fun g => (l.unit, compositeDown di g.init l.up g.down)))
  (rs.filter (fun r => decide (r.unit ∉ bidi)),
   downs.flatMap (fun d => (ups.filter (fun u => decide (u.1 = d.1))).map (fun u =>
     { unit := d.1, down := d.2, up := u.2.1, init := u.2.2 })))

/-- A row of SCADA ramp rates; `none` is NaN or a missing column (`markets.py:898-905`). -/
structure Scada where
  unit : String
  up : Option ℚ
  down : Option ℚ
  deriving DecidableEq, Repr

/-- `np.fmin(a, b)` with `b` possibly NaN. -/
def fmin (a : ℚ) : Option ℚ → ℚ
  | none => a
  | some b => min a b

/-- left merge on the unit (`ramp_rate_processing.py:78`): one row per match, or the row itself -/
def leftMerge {α β : Type} (p : α → β → Bool) (l : List α) (r : List β) : List (α × Option β) :=
  l.flatMap (fun a =>
    let ms := r.filter (p a)
    if ms.isEmpty then [(a, none)] else ms.map (fun b => (a, some b)))

/-- `ramp_rate_processing.py:77-85` for ordinary units. -/
def adjustForScada (rs : List RampRow) (sc : List Scada) : List RampRow :=
  (leftMerge (fun r s => decide (s.unit = r.unit)) rs sc).map (fun p =>
    { p.1 with down := fmin p.1.down (p.2.bind (·.down)), up := fmin p.1.up (p.2.bind (·.up)) })

/-- `ramp_rate_processing.py:77-85` for composite rows. -/
def adjustForScadaBi (rs : List BiRamp) (sc : List Scada) : List BiRamp :=
  (leftMerge (fun r s => decide (s.unit = r.unit)) rs sc).map (fun p =>
    { p.1 with down := fmin p.1.down (p.2.bind (·.down)), up := fmin p.1.up (p.2.bind (·.up)) })

/-- Fast start profile columns used for ramp rates (`markets.py:907-921`).  `curMode` is read in the
first run, the other columns in the second. -/
structure FsRamp where
  unit : String
  curMode : Nat := 0
  endMode : Nat := 0
  minLoading : ℚ := 0
  since : Option ℚ := none
  deriving DecidableEq, Repr

/-- Run types; `other` is any unknown string. -/
inductive RunType
  | noFastStart | first | second | other
  deriving DecidableEq, Repr

/-- `ramp_rate_processing.py:88-92`. -/
def removeStarting012 (rs : List RampRow) (ps : List FsRamp) : List RampRow :=
  rs.filter (fun r => decide (r.unit ∉ (ps.filter (fun p => decide (p.curMode = 0 ∨ p.curMode = 1 ∨ p.curMode = 2))).map (·.unit)))

/-- `ramp_rate_processing.py:95-99`. -/
def removeEnding012 (rs : List RampRow) (ps : List FsRamp) : List RampRow :=
  rs.filter (fun r => decide (r.unit ∉ (ps.filter (fun p => decide (p.endMode = 0 ∨ p.endMode = 1 ∨ p.endMode = 2))).map (·.unit)))

/-- `ramp_rate_processing.py:112-118`: the adjusted ramp up rate. -/
def adjustedUp (di : ℚ) (r : RampRow) (minLoading since : ℚ) : ℚ :=
  (since * (r.up / 60) + minLoading - r.init) * (60 / di)

/-- `ramp_rate_processing.py:102-124`. -/
def adjustModeThreeFour (rs : List RampRow) (ps : List FsRamp) (di : ℚ) : List RampRow :=
  let adj := rs.flatMap (fun r => (ps.filter (fun p => decide (p.unit = r.unit))).filterMap (fun p =>
    p.since.map (fun s => { r with up := adjustedUp di r p.minLoading s })))
  adj ++ rs.filter (fun r => decide (r.unit ∉ adj.map (·.unit)))

/-- `ramp_rate_processing.py:65-74`.  A missing profile table (`None`) with a fast start run type is
a TypeError. -/
def adjustForFastStart (rs : List RampRow) (rt : RunType) (ps : Option (List FsRamp)) (di : ℚ) :
    Except Err (List RampRow) :=
  match rt, ps with
  | .noFastStart, _ => .ok rs
  | .first, some ps => .ok (removeStarting012 rs ps)
  | .second, some ps => .ok (adjustModeThreeFour (removeEnding012 rs ps) ps di)
  | .other, _ => .error .valueError
  | _, none => .error .typeError

/-- `ramp_rate_processing.py:127-160` (`_bidirectional_ramp_constraints`), type `'up'`. -/
def biRampConstraints (rs : List BiRamp) (isUp : Bool) (next : Nat) (di : ℚ) :
    List Row × List ConUnit :=
  let us := dropDup (·.unit) rs
  let rows := saveIndex us next (fun i r =>
    ({ cid := i, ctype := if isUp then .le else .ge,
       rhs := if isUp then r.init + r.up * (di / 60) else r.init - r.down * (di / 60) } : Row))
  let ids := saveIndex us next (fun i r => (i, r.unit))
  let mp := fun (d : DType) => rs.flatMap (fun r => (ids.filter (fun c => decide (c.2 = r.unit))).map (fun c =>
    ({ cid := c.1, unit := r.unit, service := .energy, dtype := d, coef := 1 } : ConUnit)))
  (rows, mp .load ++ mp .generator)

end Verif
