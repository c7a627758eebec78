import Verif.Model.Backend

/-!
# Model of `historical_inputs/interconnectors.py` and `historical_inputs/demand.py`

The tables come from the market management system database (`mms_db.py`); numbers are rationals, no value is missing
unless the type says so.  The results use the row types of the market model.
-/

namespace Verif.Inter

/-- A row of `INTERCONNECTORCONSTRAINT` (`interconnectors.py:63`) -/
structure ConstraintRow where
  id : String
  icType : String
  importLimit : ℚ
  exportLimit : ℚ
  lossConstant : ℚ
  flowCoef : ℚ
  fromShare : ℚ
  deriving DecidableEq, Repr

/-- A row of `INTERCONNECTOR` (`interconnectors.py:71`) -/
structure Direction where
  id : String
  fromR : String
  toR : String
  deriving DecidableEq, Repr

/-- A row of `MNSP_INTERCONNECTOR` (`interconnectors.py:273`) -/
structure Mnsp where
  id : String
  link : String
  fromTlf : ℚ
  toTlf : ℚ
  fromR : String
  toR : String
  lhsFactor : ℚ
  maxCapacity : ℚ
  deriving DecidableEq, Repr

/-- A row of the availabilities bid for links (`interconnectors.py:272`) -/
structure LinkBid where
  inter : String
  toR : String
  availability : Option ℚ
  deriving DecidableEq, Repr

/-- A row of `DISPATCHREGIONSUM` (`demand.py:65`) -/
structure RegionSum where
  region : String
  totalDemand : ℚ
  initialSupply : ℚ
  demandForecast : ℚ
  deriving DecidableEq, Repr

/-- A row of `LOSSFACTORMODEL` (`interconnectors.py:158-159`) -/
structure DemandCoef where
  id : String
  region : String
  coef : ℚ
  deriving DecidableEq, Repr

/-- A row of `LOSSMODEL` (`interconnectors.py:164`), segments after the conversion to integers in line 167 -/
structure LossSegment where
  id : String
  seg : Int
  bp : ℚ
  deriving DecidableEq, Repr

/-- The tables -/
structure Tables where
  constraints : List ConstraintRow
  directions : List Direction
  mnsp : List Mnsp
  linkBids : List LinkBid
  regions : List RegionSum
  demandCoefs : List DemandCoef
  segments : List LossSegment
  deriving Repr

/-- `demand.py:40-67` (`get_operational_demand`): region and demand -/
def operationalDemand (rs : List RegionSum) : List (String × ℚ) := rs.map (fun r => (r.region, r.totalDemand))

/-- `demand.py:70-92` (`_format_regional_demand`), the columns `region` and `loss_function_demand` -/
def lossFunctionDemand (rs : List RegionSum) : List (String × ℚ) :=
  rs.map (fun r => (r.region, r.initialSupply + r.demandForecast))

/-- `interconnectors.py:67-69`: the loss share of Basslink -/
def fixShare (c : ConstraintRow) : ConstraintRow :=
  { c with fromShare := if c.id = "T-V-MNSP1" then 1 else c.fromShare }

/-- `self.INTERCONNECTORCONSTRAINT` -/
def Tables.cons (t : Tables) : List ConstraintRow := t.constraints.map fixShare

/-- A row of `_format_interconnector_definitions` -/
structure Basic where
  inter : String
  fromR : String
  toR : String
  min : ℚ
  max : ℚ
  deriving DecidableEq, Repr

/-- `interconnectors.py:284-313` (`_format_interconnector_definitions`) -/
def formatDefinitions (ds : List Direction) (cs : List ConstraintRow) : List Basic :=
  ds.flatMap (fun d => (cs.filter (fun c => decide (c.id = d.id))).map (fun c =>
    ⟨d.id, d.fromR, d.toR, -1 * c.importLimit, c.exportLimit⟩))

/-- `astype(np.int64)` (`interconnectors.py:267`): towards zero -/
def truncate (q : ℚ) : Int := if 0 ≤ q then q.floor else -(-q).floor

/-- `interconnectors.py:253-261`: regulated interconnectors -/
def Tables.regulated (t : Tables) : List InterDef :=
  ((formatDefinitions t.directions t.cons).filter (fun b =>
    decide (b.inter ∈ (t.cons.filter (fun c => decide (c.icType = "REGULATED"))).map (·.id)))).map (fun b =>
      { inter := b.inter, link := b.inter, toR := b.toR, fromR := b.fromR, max := b.max, min := b.min, gcf := 1,
        fromLf := 1, toLf := 1 })

/-- `interconnectors.py:316-361` (`_format_mnsp_transmission_loss_factors`), with the factor as it is in the table -/
def Tables.mnspLinks (t : Tables) : List InterDef :=
  t.mnsp.flatMap (fun m =>
    ((t.cons.filter (fun c => decide (c.icType = "MNSP"))).filter (fun c => decide (c.id = m.id))).map (fun _ =>
      { inter := m.id, link := m.link, toR := m.toR, fromR := m.fromR, max := m.maxCapacity, min := 0,
        gcf := m.lhsFactor, fromLf := m.fromTlf, toLf := m.toTlf }))

/-- `interconnectors.py:271-281` (`_get_market_interconnector_links`) -/
def Tables.market (t : Tables) : List InterDef :=
  t.mnspLinks.flatMap (fun d =>
    (t.linkBids.filter (fun b => decide (b.inter = d.inter ∧ b.toR = d.toR))).map (fun b =>
      { d with max := b.availability.getD d.max }))

/-- `interconnectors.py:202-269` (`get_interconnector_definitions`) -/
def Tables.definitions (t : Tables) : List InterDef :=
  (t.regulated ++ t.market).map (fun d => { d with gcf := truncate d.gcf })

/-- `interconnectors.py:494-498` (`_create_function`) -/
def createFunction (constant flowCoef : ℚ) (flow : ℚ) : ℚ := (constant - 1) * flow + flowCoef / 2 * flow ^ 2

/-- A row of the result of `create_loss_functions` -/
structure LossRow where
  inter : String
  fn : ℚ → ℚ
  share : ℚ

/-- `interconnectors.py:483-486`: the demand offset of each interconnector: `groupby('interconnector')['offset'].sum()`
of the coefficients inner merged with the demand -/
def demandOffsets (ds : List DemandCoef) (demand : List (String × ℚ)) : List (String × ℚ) :=
  let rows := ds.flatMap (fun d => (demand.filter (fun r => decide (r.1 = d.region))).map (fun r => (d.id, r.2 * d.coef)))
  (dropDup Prod.fst rows).map (fun k => (k.1, ((rows.filter (fun r => decide (r.1 = k.1))).map Prod.snd).sum))

/-- `interconnectors.py:486-490`: the rows of an interconnector in the left merge with the offsets, a missing offset counts
as zero -/
def lossRowsOf (c : ConstraintRow) : List (String × ℚ) → List LossRow
  | [] => [⟨c.id, createFunction c.lossConstant c.flowCoef, c.fromShare⟩]
  | os => os.map (fun o => ⟨c.id, createFunction (c.lossConstant + o.2) c.flowCoef, c.fromShare⟩)

/-- `interconnectors.py:364-491` (`create_loss_functions`) -/
def createLossFunctions (cs : List ConstraintRow) (ds : List DemandCoef) (demand : List (String × ℚ)) : List LossRow :=
  cs.flatMap (fun c => lossRowsOf c ((demandOffsets ds demand).filter (fun o => decide (o.1 = c.id))))

/-- `interconnectors.py:75-200` (`get_interconnector_loss_model`), the loss functions: those of the interconnector with the
flow multiplied by the generic constraint factor of the link -/
def Tables.lossFunctions (t : Tables) : List LossFn :=
  t.definitions.flatMap (fun d =>
    ((createLossFunctions t.cons t.demandCoefs (lossFunctionDemand t.regions)).filter (fun f => decide (f.inter = d.inter))).map
      (fun f => ⟨d.inter, d.link, fun flow => f.fn (flow * d.gcf), f.share⟩))

/-- `interconnectors.py:176-184`, the break points: multiplied by the generic constraint factor of the link.  The factors
are integers (`Tables.definitions`). -/
def Tables.breakPoints (t : Tables) : List BreakPt :=
  t.definitions.flatMap (fun d =>
    (t.segments.filter (fun s => decide (s.id = d.inter))).map (fun s =>
      { inter := d.inter, link := d.link, seg := s.seg * truncate d.gcf, bp := s.bp * d.gcf }))

end Verif.Inter
