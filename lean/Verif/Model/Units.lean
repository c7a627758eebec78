import Verif.Model.Outputs

/-!
# Unit data from historical inputs, `historical_inputs/units.py`

Tables are lists of rows.  Bid types are the services of `units.py:71-74` and directions are the two values of
`units.py:70`; the files know other spellings (`xml_cache.py:452-457`) that are mapped to these.  Missing values are
`none`.
-/

namespace Verif.Units

open Verif

/-- Exceptions raised by the modelled functions. -/
inductive UErr
  /-- `KeyError` for a missing direction, `aemo_to_nempy_name_mapping.py:54` -/
  | keyError
  /-- `ZeroDivisionError`, `units.py:1427` and `1436` -/
  | zeroDivision
  /-- `MethodCallOrderError`, `units.py:771`, `825`, `897`, `970` -/
  | callOrder
  deriving DecidableEq, Repr

/-! ### Fast start profiles -/

/-- A row of `fast_start_profiles` after the renaming at `units.py:439`. -/
structure Profile where
  unit : String
  minLoading : ℚ
  mode : Nat
  time : ℚ
  len1 : ℚ
  len2 : ℚ
  len3 : ℚ
  len4 : ℚ
  deriving DecidableEq, Repr

/-- A row of the table built in `_update_modes`: `temp_current_mode`, `temp_time_in_current_mode`,
`time_left_in_interval`, `time_since_end_of_mode_two` (`units.py:450-478`). -/
structure ModeRow where
  profile : Profile
  mode : Nat
  time : ℚ
  left : ℚ
  since2 : Option ℚ
  deriving DecidableEq, Repr

/-- A row returned by `_update_modes` (`units.py:504-506`). -/
structure ModeOut where
  profile : Profile
  endMode : Nat
  endTime : ℚ
  since2 : Option ℚ
  deriving DecidableEq, Repr

/-- `units.py:450-457`: five minutes are left, units off with a positive dispatch are committed.  The time in the current
mode is taken over. -/
def commit (p : Profile) (dispatch : ℚ) : ModeRow where
  profile := p
  mode := if p.mode = 0 ∧ 0 < dispatch then 1 else p.mode
  time := p.time
  left := 5
  since2 := none

/-- `units.py:461-462` (mode one), `472-473` (two), `484-485` (three): the mask of the rows that move on -/
def ModeRow.moves (m : Nat) (len : Profile → ℚ) (r : ModeRow) : Bool :=
  decide (r.mode = m) && decide (len r.profile - r.time < r.left)

/-- `units.py:465-467` (mode one), `476-478` (two), `488-490` (three) -/
def ModeRow.next (m : Nat) (len : Profile → ℚ) (r : ModeRow) : ModeRow where
  profile := r.profile
  mode := m + 1
  time := 0
  left := r.left - (len r.profile - r.time)
  since2 := if m = 2 then some (r.left - (len r.profile - r.time)) else r.since2

/-- `units.py:461-468`, `472-480`, `484-491`: the rows that move on are put before the others -/
def stage (m : Nat) (len : Profile → ℚ) (rows : List ModeRow) : List ModeRow :=
  (rows.filter (ModeRow.moves m len)).map (ModeRow.next m len) ++ rows.filter (fun r => !(ModeRow.moves m len r))

/-- `units.py:493-506` -/
def ModeRow.out (r : ModeRow) : ModeOut where
  profile := r.profile
  endMode := r.mode
  endTime :=
    let t := if r.mode = 0 then 0 else r.time + r.left
    if r.mode = 4 ∧ r.profile.len4 < t then r.profile.len4 else t
  since2 := r.since2

/-- `units.py:446-447`: inner merge with the energy rows of the unconstrained dispatch -/
def mergeDispatch (ps : List Profile) (ds : List DispatchRow) : List (Profile × DispatchRow) :=
  ps.flatMap (fun p => ((ds.filter (fun d => decide (d.service = .energy))).filter
    (fun d => decide (d.unit = p.unit))).map (fun d => (p, d)))

/-- `units.py:445-506` (`_update_modes`), called by `get_fast_start_profiles_for_dispatch` (`units.py:425`) when an
unconstrained dispatch is given.  The conversions of columns to floats at `427-429` do not change values. -/
def updateModes (ps : List Profile) (ds : List DispatchRow) : List ModeOut :=
  (stage 3 Profile.len3 (stage 2 Profile.len2 (stage 1 Profile.len1
    ((mergeDispatch ps ds).map (fun q => commit q.1 q.2.dispatch))))).map ModeRow.out

/-! ### Bids and other tables -/

/-- A row of `volume_bids` (`xml_cache.py:420-431`).  Values that should be numbers are numbers. -/
structure VolBid where
  duid : String
  service : Service
  dir : Option DType
  bands : List ℚ
  maxAvail : ℚ
  emin : ℚ
  lbp : ℚ
  hbp : ℚ
  emax : ℚ
  rampDown : ℚ := 0
  rampUp : ℚ := 0
  deriving DecidableEq, Repr

/-- A row of `price_bids` (`xml_cache.py:512-518`), the directions are never missing (`xml_cache.py:529-533`). -/
structure PriceBid where
  duid : String
  service : Service
  dir : DType
  prices : List ℚ
  deriving DecidableEq, Repr

/-- A row of `initial_conditions` (`xml_cache.py:261`) -/
structure InitCond where
  duid : String
  traderType : String
  initMw : Option ℚ
  rampUp : Option ℚ
  rampDown : Option ℚ
  agc : Option ℚ
  deriving DecidableEq, Repr

/-- A row of the AGC enablement limits, table `DISPATCHLOAD` (`mms_db.py`) -/
structure AgcLimits where
  duid : String
  raiseMax : Option ℚ
  raiseMin : Option ℚ
  lowerMax : Option ℚ
  lowerMin : Option ℚ
  deriving DecidableEq, Repr

/-- A row of `unit_details`, table `DUDETAILSUMMARY` -/
structure Details where
  duid : String
  region : String
  tlf : ℚ
  secondary : Option ℚ
  dlf : ℚ
  deriving DecidableEq, Repr

/-- `units.py:90-101` (`_map_direction_to_volume_bids`): bids without a direction are left merged with the price bids on
the unit and the service and put before the others. -/
def mapDirections (vs : List VolBid) (ps : List PriceBid) : List VolBid :=
  (vs.filter (fun v => decide (v.dir = none))).flatMap (fun v =>
    match ps.filter (fun p => decide (p.duid = v.duid ∧ p.service = v.service)) with
    | [] => [v]
    | qs => qs.map (fun p => { v with dir := some p.dir })) ++
  vs.filter (fun v => !decide (v.dir = none))

/-- `units.py:1242-1250` (lower), `1263-1271` (raise) for one kind of regulation bids: the break point and the limit move up when the AGC limit is
above the offered one and positive; NaN compares false. -/
def VolBid.agcLow (agc : Option ℚ) (b : VolBid) : VolBid :=
  match agc with
  | none => b
  | some l => if b.emin < l ∧ 0 < l then { b with lbp := b.lbp + (l - b.emin), emin := l } else b

/-- `units.py:1252-1260` (lower), `1273-1281` (raise) -/
def VolBid.agcHigh (agc : Option ℚ) (b : VolBid) : VolBid :=
  match agc with
  | none => b
  | some u => if u < b.emax ∧ 0 < u then { b with hbp := b.hbp - (b.emax - u), emax := u } else b

/-- the regulation services, `units.py:1233-1235` -/
def isReg (s : Service) : Bool := decide (s = .raiseReg ∨ s = .lowerReg)

/-- `units.py:1148-1288` (`_scaling_for_agc_enablement_limits`): regulation bids are inner merged with the limits on the
unit, so bids of units without a row are dropped. -/
def agcEnablement (bs : List VolBid) (ls : List AgcLimits) : List VolBid :=
  bs.filter (fun b => !isReg b.service) ++
  ((bs.filter (fun b => decide (b.service = .lowerReg))).flatMap (fun b =>
    (ls.filter (fun l => decide (l.duid = b.duid))).map (fun l => (b.agcLow l.lowerMin).agcHigh l.lowerMax)) ++
  (bs.filter (fun b => decide (b.service = .raiseReg))).flatMap (fun b =>
    (ls.filter (fun l => decide (l.duid = b.duid))).map (fun l => (b.agcLow l.raiseMin).agcHigh l.raiseMax)))

/-- `units.py:1378`: `(~isna & rate) != 0`, pandas reads a missing value as false and other numbers as true unless
they are zero -/
def hasRate (r : Option ℚ) : Bool := decide (r ≠ none ∧ r ≠ some 0)

/-- `units.py:1421-1428` (`get_new_low_break_point`); comparing with a missing value gives false -/
def newLow (oldMax : ℚ) (rampMax : Option ℚ) (lbp emin : ℚ) : Except UErr ℚ :=
  match rampMax with
  | none => .ok lbp
  | some r =>
    if r < oldMax ∧ lbp - emin ≠ 0 then
      if oldMax = 0 then .error .zeroDivision else .ok (r / (oldMax / (lbp - emin)) + emin)
    else .ok lbp

/-- `units.py:1430-1437` (`get_new_high_break_point`) -/
def newHigh (oldMax : ℚ) (rampMax : Option ℚ) (hbp emax : ℚ) : Except UErr ℚ :=
  match rampMax with
  | none => .ok hbp
  | some r =>
    if r < oldMax ∧ emax - hbp ≠ 0 then
      if oldMax = 0 then .error .zeroDivision else .ok (emax - r / (oldMax / (emax - hbp)))
    else .ok hbp

/-- `units.py:1448`: `np.where(MAXAVAIL > RAMPMAX, RAMPMAX, MAXAVAIL)` -/
def capMax (oldMax : ℚ) : Option ℚ → ℚ
  | none => oldMax
  | some r => if r < oldMax then r else oldMax

/-- `units.py:1407-1408` and `1440-1448` for one row -/
def VolBid.rampScale (rate : Option ℚ) (b : VolBid) : Except UErr VolBid :=
  (newLow b.maxAvail (rate.map (· * (5 / 60))) b.lbp b.emin).bind (fun lbp =>
  (newHigh b.maxAvail (rate.map (· * (5 / 60))) b.hbp b.emax).bind (fun hbp =>
    .ok { b with lbp := lbp, hbp := hbp, maxAvail := capMax b.maxAvail (rate.map (· * (5 / 60))) }))

/-- the units with a telemetered rate, `units.py:1377-1378` and `1381-1382` -/
def ratedUnits (rate : InitCond → Option ℚ) (cs : List InitCond) : List String :=
  (cs.filter (fun c => hasRate (rate c))).map (·.duid)

/-- the other units of the table, `units.py:1379-1380` and `1383-1384` -/
def unratedUnits (rate : InitCond → Option ℚ) (cs : List InitCond) : List String :=
  (cs.filter (fun c => !decide (c.duid ∈ ratedUnits rate cs))).map (·.duid)

/-- `units.py:1291-1455` (`_scaling_for_agc_ramp_rates`).  Regulation bids of units that are not in the table of initial
conditions are in none of the groups.  The break points are computed row by row, first all low ones and then all high
ones; here row by row, which only matters for which of two exceptions is raised. -/
def agcRamp (bs : List VolBid) (cs : List InitCond) : Except UErr (List VolBid) :=
  let cs' := cs.filter (fun c => decide (c.duid ∈ ratedUnits InitCond.rampUp cs ++ ratedUnits InitCond.rampDown cs))
  let lower := (bs.filter (fun b => decide (b.service = .lowerReg) && decide (b.duid ∈ ratedUnits InitCond.rampDown cs))).flatMap
    (fun b => (cs'.filter (fun c => decide (c.duid = b.duid))).map (fun c => (b, c.rampDown)))
  let raise := (bs.filter (fun b => decide (b.service = .raiseReg) && decide (b.duid ∈ ratedUnits InitCond.rampUp cs))).flatMap
    (fun b => (cs'.filter (fun c => decide (c.duid = b.duid))).map (fun c => (b, c.rampUp)))
  ((lower ++ raise).mapM (fun q => VolBid.rampScale q.2 q.1)).bind (fun reg =>
    .ok (bs.filter (fun b => !isReg b.service) ++
      bs.filter (fun b => decide (b.service = .raiseReg) && decide (b.duid ∈ unratedUnits InitCond.rampUp cs)) ++
      bs.filter (fun b => decide (b.service = .lowerReg) && decide (b.duid ∈ unratedUnits InitCond.rampDown cs)) ++ reg))

/-- `units.py:1511-1530` for one row: `get_new_high_break_point` and the new upper enablement limit -/
def VolBid.uigfScale (u : ℚ) (b : VolBid) : VolBid :=
  if u < b.emax then { b with hbp := b.hbp - (b.emax - u), emax := u } else b

/-- `units.py:1458-1537` (`_scaling_for_uigf`) -/
def uigfScaling (bs : List VolBid) (us : List (String × ℚ)) : List VolBid :=
  bs.filter (fun b => decide (b.service = .energy)) ++
  bs.filter (fun b => !decide (b.service = .energy) && !decide (b.duid ∈ us.map Prod.fst)) ++
  (bs.filter (fun b => !decide (b.service = .energy) && decide (b.duid ∈ us.map Prod.fst))).flatMap (fun b =>
    (us.filter (fun u => decide (u.1 = b.duid))).map (fun u => b.uigfScale u.2))

/-! ### Which bids are enabled -/

/-- A row of `capacity_limits` (`units.py:581-584`): the forecasts have no dispatch type -/
structure CapLimit where
  unit : String
  dtype : Option DType
  capacity : ℚ
  deriving DecidableEq, Repr

/-- `numpy` rounding to the nearest integer, halves to the even one -/
def roundEven (q : ℚ) : Int :=
  if q - (q.floor : ℚ) < 1 / 2 then q.floor
  else if 1 / 2 < q - (q.floor : ℚ) then q.floor + 1
  else if q.floor % 2 = 0 then q.floor else q.floor + 1

/-- `Series.round(5)` (`units.py:1938-1943`) -/
def round5 (q : ℚ) : ℚ := (roundEven (q * 100000) : ℚ) / 100000

/-- A row of the merged FCAS table: the bid, the merged `capacity`, initial conditions, and the columns
`FILTERENABLMENTMIN` and `FILTERENABLMENTMAX` -/
structure FcasRow where
  bid : VolBid
  capacity : Option ℚ
  init : InitCond
  fmin : Option ℚ
  fmax : Option ℚ
  deriving DecidableEq, Repr

/-- the capacities merged to a unit and direction: one missing value if there is none (left merge,
`units.py:1828-1834`) -/
def capsOf (caps : List CapLimit) (duid : String) (dir : Option DType) : List (Option ℚ) :=
  match caps.filter (fun c => decide (c.unit = duid ∧ c.dtype = dir)) with
  | [] => [none]
  | cs => cs.map (fun c => some c.capacity)

/-- `units.py:1835`: `(capacity >= limit) | capacity.isna()` -/
def capAtLeast (limit : ℚ) (c : Option ℚ) : Bool :=
  match c with
  | none => true
  | some c => decide (limit ≤ c)

/-- `units.py:1873-1875` and `1921-1923`: `(-1 * capacity <= limit) | capacity.isna()` -/
def negCapAtMost (limit : ℚ) (c : Option ℚ) : Bool :=
  match c with
  | none => true
  | some c => decide (-1 * c ≤ limit)

/-- `units.py:1809-1842`: FCAS bids with positive availability and a positive band whose capacity is missing or at least
the lower enablement limit, with the initial conditions of the unit -/
def fcasRows (bs : List VolBid) (cs : List InitCond) (caps : List CapLimit) : List FcasRow :=
  (((bs.filter (fun b => !decide (b.service = .energy))).filter (fun b => decide (0 < b.maxAvail))).filter
    (fun b => b.bands.any (fun v => decide (0 < v)))).flatMap (fun b =>
      ((capsOf caps b.duid b.dir).filter (capAtLeast b.emin)).flatMap (fun cap =>
        (cs.filter (fun c => decide (c.duid = b.duid))).map (fun c => ⟨b, cap, c, none, none⟩)))

/-- `units.py:1844-1845` -/
def FcasRow.bdu (r : FcasRow) : Bool := decide (r.init.traderType = "BIDIRECTIONAL")

/-- `units.py:1887-1898` and `1900-1911`: left merge on the unit and the service with a limit of the rows of the other
side, replaced by the own limit if there is none -/
def otherSide (limit : FcasRow → ℚ) (own : ℚ) (others : List FcasRow) (r : FcasRow) : List ℚ :=
  match others.filter (fun o => decide (o.bid.duid = r.bid.duid ∧ o.bid.service = r.bid.service)) with
  | [] => [own]
  | os => os.map limit

/-- `units.py:1938-1943`: `ENABLEMENTMAX >= INITIALMW.round(5)` and `ENABLEMENTMIN <= INITIALMW.round(5)`, false for a
missing value -/
def within (lo hi : ℚ) (mw : Option ℚ) : Bool :=
  match mw with
  | none => false
  | some x => decide (round5 x ≤ hi) && decide (lo ≤ round5 x)

/-- `units.py:1932-1936`: negative initial outputs count as zero unless the unit is bidirectional -/
def FcasRow.initMw (r : FcasRow) : Option ℚ :=
  r.init.initMw.map (fun x => if x < 0 ∧ r.bdu = false then 0 else x)

/-- `units.py:1540-1970` (`_enforce_preconditions_for_enabling_fcas`), the FCAS rows that are left. -/
def enabledRows (bs : List VolBid) (cs : List InitCond) (caps : List CapLimit) : List FcasRow :=
  let rows := fcasRows bs cs caps
  let bdu := rows.filter FcasRow.bdu
  let gen := bdu.filter (fun r => decide (r.bid.dir = some .generator))
  let load := bdu.filter (fun r => decide (r.bid.dir = some .load))
  let genReg := gen.filter (fun r => isReg r.bid.service)
  let loadReg := load.filter (fun r => isReg r.bid.service)
  let notBdu := ((rows.filter (fun r => !r.bdu)).filter (fun r => decide (0 ≤ r.bid.emax))).filter
    (fun r => capAtLeast r.bid.emin r.capacity)
  let genCon := (((gen.filter (fun r => !isReg r.bid.service)).filter (fun r => decide (0 ≤ r.bid.emax))).filter
    (fun r => capAtLeast r.bid.emin r.capacity)).flatMap (fun r =>
      ((capsOf caps r.bid.duid (some .load)).filter (negCapAtMost r.bid.emax)).map (fun c => { r with capacity := c }))
  let loadCon := (load.filter (fun r => !isReg r.bid.service)).filter (fun r => decide (r.bid.emin ≤ 0))
  let loadReg' := ((loadReg.flatMap (fun r => (otherSide (fun o => o.bid.emax) r.bid.emax genReg r).map (fun x =>
      { r with fmin := some r.bid.emin, fmax := some x }))).filter (fun r => decide (r.bid.emin ≤ 0))).filter
    (fun r => negCapAtMost r.bid.emax r.capacity)
  let genReg' := ((genReg.flatMap (fun r => (otherSide (fun o => o.bid.emin) r.bid.emin loadReg r).map (fun x =>
      { r with fmin := some x, fmax := some r.bid.emax }))).filter (fun r => decide (0 ≤ r.bid.emax))).filter
    (fun r => capAtLeast r.bid.emin r.capacity)
  ((loadCon ++ genCon ++ notBdu).filter (fun r => within r.bid.emin r.bid.emax r.initMw) ++
    (genReg' ++ loadReg').filter (fun r => within (r.fmin.getD 0) (r.fmax.getD 0) r.init.initMw)).filter
    (fun r => !(decide (r.init.agc = some 0) && isReg r.bid.service))

/-- `units.py:1951-1970`: the volume bids and price bids that are left -/
def enforce (bs : List VolBid) (ps : List PriceBid) (cs : List InitCond) (caps : List CapLimit) :
    List VolBid × List PriceBid :=
  let kept := (enabledRows bs cs caps).map (·.bid)
  (bs.filter (fun b => decide (b.service = .energy)) ++ kept,
    ps.filter (fun p => decide (p.service = .energy)) ++
      (ps.filter (fun p => !decide (p.service = .energy))).flatMap (fun p =>
        (kept.filter (fun b => decide (b.duid = p.duid ∧ b.service = p.service ∧ b.dir = some p.dir))).map (fun _ => p)))

/-! ### Unit information -/

/-- A row of `get_unit_info` (`units.py:579`) -/
structure Info where
  unit : String
  dtype : DType
  region : String
  lossFactor : ℚ
  deriving DecidableEq, Repr

/-- `units.py:567-571`: the loss factor of a unit in a direction -/
def lossFactor (traderType : String) (dir : DType) (d : Details) : ℚ :=
  match d.secondary with
  | some s => if dir = .generator ∧ traderType = "BIDIRECTIONAL" then s * d.dlf else d.tlf * d.dlf
  | none => d.tlf * d.dlf

/-- `units.py:508-579` (`get_unit_info`): trader types inner merged with the directions inner merged with the details -/
def unitInfo (ps : List PriceBid) (cs : List InitCond) (ds : List Details) : List Info :=
  cs.flatMap (fun c =>
    ((dropDup id (ps.map (fun p => (p.duid, p.dir)))).flatMap (fun q =>
      (ds.filter (fun d => decide (d.duid = q.1))).map (fun d => (q, d)))).filterMap (fun r =>
        if r.1.1 = c.duid then
          some ⟨c.duid, r.1.2, r.2.region, lossFactor c.traderType r.1.2 r.2⟩
        else none))

/-! ### The unit data object -/

/-- The tables `UnitData` loads when it is created (`units.py:76-85`), and the AGC limits it loads later
(`units.py:674`).  `before` says that the interval is before 2023/07/07 13:40 (`units.py:145`). -/
structure Inputs where
  before : Bool
  volume : List VolBid
  price : List PriceBid
  init : List InitCond
  uigf : List (String × ℚ)
  details : List Details
  agc : List AgcLimits
  deriving Repr

/-- `units.py:78` -/
def Inputs.bids (i : Inputs) : List VolBid := mapDirections i.volume i.price

/-- `units.py:136-144` (`get_unit_bid_availability`) -/
def Inputs.bidAvailability (i : Inputs) : Except UErr (List (String × DType × ℚ)) :=
  ((i.bids.filter (fun b => decide (b.service = .energy))).filter
    (fun b => !(i.before && decide (b.duid ∈ i.uigf.map Prod.fst)))).mapM (fun b =>
      match b.dir with
      | none => .error .keyError
      | some d => .ok (b.duid, d, b.maxAvail))

/-- `units.py:581-584` (`_get_unit_availability`) -/
def Inputs.availability (i : Inputs) : Except UErr (List CapLimit) :=
  i.bidAvailability.bind (fun bs =>
    .ok (bs.map (fun b => ⟨b.1, some b.2.1, b.2.2⟩) ++ i.uigf.map (fun u => ⟨u.1, none, u.2⟩)))

/-- A row of the volume or price bids returned by `get_processed_bids` (`units.py:684-689`) -/
structure BidRow where
  unit : String
  service : Service
  dtype : DType
  bands : List ℚ
  deriving DecidableEq, Repr

/-- `units.py:1008-1077` (`_format_volume_bids`) for one row: a missing direction raises `KeyError` -/
def VolBid.format (b : VolBid) : Except UErr BidRow :=
  match b.dir with
  | none => .error .keyError
  | some d => .ok ⟨b.duid, b.service, d, b.bands⟩

/-- `units.py:696-705` (`_unscale_price_bids`) -/
def unscale (ps : List BidRow) (us : List Info) : List BidRow :=
  ps.flatMap (fun p => (us.filter (fun u => decide (u.unit = p.unit ∧ u.dtype = p.dtype))).map (fun u =>
    if p.service = .energy then { p with bands := p.bands.map (· * u.lossFactor) } else p))

/-- `units.py:675-679`: the scaled and filtered bids -/
def Inputs.processed (i : Inputs) : Except UErr (List VolBid × List PriceBid) :=
  i.availability.bind (fun caps =>
    (agcRamp (agcEnablement i.bids i.agc) i.init).bind (fun bs =>
      .ok (enforce (uigfScaling bs i.uigf) i.price i.init caps)))

/-- `units.py:664-694` (`get_processed_bids`) -/
def Inputs.processedBids (i : Inputs) : Except UErr (List BidRow × List BidRow) :=
  i.processed.bind (fun q =>
    (q.1.mapM VolBid.format).bind (fun vs =>
      let info := unitInfo i.price i.init i.details
      .ok (vs.filter (fun v => decide (v.unit ∈ info.map (·.unit))),
        unscale ((q.2.map (fun p => (⟨p.duid, p.service, p.dir, p.prices⟩ : BidRow))).filter
          (fun p => decide (p.unit ∈ info.map (·.unit)))) info)))

/-- A row of the trapezium tables (`units.py:999-1006`, `_format_fcas_trapezium_constraints`) -/
structure TrapRow where
  unit : String
  service : Service
  dtype : DType
  maxAvail : ℚ
  emin : ℚ
  lbp : ℚ
  hbp : ℚ
  emax : ℚ
  deriving DecidableEq, Repr

/-- `units.py:999-1006` for one row -/
def VolBid.trap (b : VolBid) : Except UErr TrapRow :=
  match b.dir with
  | none => .error .keyError
  | some d => .ok ⟨b.duid, b.service, d, b.maxAvail, b.emin, b.lbp, b.hbp, b.emax⟩

/-- The attributes that change: `BIDPEROFFER_D` and `fcas_trapeziums` (`units.py:85-86`) -/
structure State where
  bids : Option (List VolBid) := none
  traps : Option (List TrapRow) := none
  deriving Repr

/-- Calls of the methods that read or change these attributes -/
inductive Call
  | processedBids | addTrapeziums | maxAvailability | regulation | contingency
  deriving DecidableEq, Repr

/-- What a call returns -/
inductive Ret
  | bids (volume price : List BidRow)
  | none
  | traps (rows : List TrapRow)
  deriving Repr

/-- The methods `get_processed_bids` (`units.py:586`), `add_fcas_trapezium_constraints` (`707-772`),
`get_fcas_max_availability` (`774-826`, here with all columns), `get_fcas_regulation_trapeziums` (`828-898`) and
`get_contingency_services` (`900-971`).  `get_processed_bids` stores the bids before it formats them. -/
def Call.run (i : Inputs) : Call → State → State × Except UErr Ret
  | .processedBids, s =>
    match i.processed with
    | .error e => (s, .error e)
    | .ok q => ({ s with bids := some q.1 }, i.processedBids.map (fun r => .bids r.1 r.2))
  | .addTrapeziums, s =>
    match s.bids with
    | Option.none => (s, .error .callOrder)
    | some bs =>
      match (bs.filter (fun b => !decide (b.service = .energy))).mapM VolBid.trap with
      | .error e => (s, .error e)
      | .ok ts => ({ s with traps := some ts }, .ok .none)
  | .maxAvailability, s =>
    match s.traps with
    | Option.none => (s, .error .callOrder)
    | some ts => (s, .ok (.traps ts))
  | .regulation, s =>
    match s.traps with
    | Option.none => (s, .error .callOrder)
    | some ts => (s, .ok (.traps (ts.filter (fun t => isReg t.service))))
  | .contingency, s =>
    match s.traps with
    | Option.none => (s, .error .callOrder)
    | some ts => (s, .ok (.traps (ts.filter (fun t => !isReg t.service))))

end Verif.Units
