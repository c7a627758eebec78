import Verif.Spec.Currency

/-!
# Specification: a market in another unit of power

The same inputs with all amounts of power multiplied by `c` (for example 1000 for kW instead of MW): volumes, limits, ramp rates,
demand, requirements, trapeziums, flow limits, break points and losses.  Prices per unit of power stay as they are, so amounts of
money are multiplied by `c` too.
-/

namespace Verif

/-- A row of volume bids in another unit. -/
def BidRow.inPower (c : ℚ) (b : BidRow) : BidRow := { b with bands := b.bands.map (fun e => (e.1, c * e.2)) }
/-- A limit in another unit. -/
def Lim.inPower (c : ℚ) (l : Lim) : Lim := { l with val := c * l.val }
/-- Ramp rates and initial output in another unit. -/
def RampRow.inPower (c : ℚ) (r : RampRow) : RampRow := { r with init := c * r.init, up := c * r.up, down := c * r.down }
/-- SCADA ramp rates in another unit. -/
def Scada.inPower (c : ℚ) (s : Scada) : Scada := { s with up := s.up.map (c * ·), down := s.down.map (c * ·) }
/-- Columns of fast start profiles for ramp rates in another unit. -/
def FsRamp.inPower (c : ℚ) (p : FsRamp) : FsRamp := { p with minLoading := c * p.minLoading }
/-- Fast start profiles in another unit. -/
def FsInput.inPower (c : ℚ) (p : FsInput) : FsInput := { p with minLoading := c * p.minLoading }
/-- Demand in another unit. -/
def Demand.inPower (c : ℚ) (d : Demand) : Demand := { d with demand := c * d.demand }
/-- FCAS requirements in another unit. -/
def FcasReq.inPower (c : ℚ) (r : FcasReq) : FcasReq := { r with volume := c * r.volume }
/-- Trapeziums in another unit. -/
def Trap.inPower (c : ℚ) (t : Trap) : Trap :=
  { t with maxAvail := c * t.maxAvail, emin := c * t.emin, lbp := c * t.lbp, hbp := c * t.hbp, emax := c * t.emax }
/-- Flow limits in another unit. -/
def InterDef.inPower (c : ℚ) (d : InterDef) : InterDef := { d with max := c * d.max, min := c * d.min }
/-- Losses as a function of flow, both in another unit. -/
def LossFn.inPower (c : ℚ) (f : LossFn) : LossFn := { f with fn := fun x => c * f.fn (x / c) }
/-- Break points in another unit. -/
def BreakPt.inPower (c : ℚ) (b : BreakPt) : BreakPt := { b with bp := c * b.bp }
/-- The right hand side of a generic constraint in another unit. -/
def GenericRow.inPower (c : ℚ) (g : GenericRow) : GenericRow := { g with rhs := c * g.rhs }

/-- The constraint sets about shares, not about amounts of power: shares of tied bids and interpolation weights. -/
def CKey.isShare : CKey → Bool
  | .tieBreak => true
  | .interpWeights => true
  | _ => false

/-- A violation cost of a constraint set.  A cost per unit of power stays as it is, a cost per share is an amount of money. -/
def VCost.inPower (c : ℚ) (k : CKey) (v : VCost) : VCost := if k.isShare then v.inCurrency c else v

/-- A call in another unit of power. -/
def Op.inPower (c : ℚ) : Op → Op
  | .volumeBids b => .volumeBids (b.map (BidRow.inPower c))
  | .priceBids b => .priceBids b
  | .capacity l v => .capacity (l.map (Lim.inPower c)) v
  | .uigf l v => .uigf (l.map (Lim.inPower c)) v
  | .rampRates r sc ps rt v => .rampRates (r.map (RampRow.inPower c)) (sc.map (List.map (Scada.inPower c)))
      (ps.map (List.map (FsRamp.inPower c))) rt v
  | .fastStart p v => .fastStart (p.map (FsInput.inPower c)) v
  | .removeFastStart => .removeFastStart
  | .demand d v => .demand (d.map (Demand.inPower c)) v
  | .fcasReq r v => .fcasReq (r.map (FcasReq.inPower c)) v
  | .fcasMaxAvail l v => .fcasMaxAvail (l.map (Lim.inPower c)) v
  | .jointRamping r ps rt v => .jointRamping (r.map (RampRow.inPower c)) (ps.map (List.map (FsRamp.inPower c))) rt v
  | .jointCapacity t v => .jointCapacity (t.map (Trap.inPower c)) v
  | .energyReg t v => .energyReg (t.map (Trap.inPower c)) v
  | .interconnectors d => .interconnectors (d.map (InterDef.inPower c))
  | .losses f b => .losses (f.map (LossFn.inPower c)) (b.map (BreakPt.inPower c))
  | .generic g v => .generic (g.map (GenericRow.inPower c)) v
  | .linkUnits g => .linkUnits g
  | .linkRegions g => .linkRegions g
  | .linkInters g => .linkInters g
  | .elastic k v => .elastic k (v.inPower c k)
  | .tieBreak v => .tieBreak (c * v)

/-- No bid band is below the limit of 0.0001 in one unit and not in the other. -/
def Op.bandsKept (c : ℚ) : Op → Prop
  | .volumeBids b => ∀ r ∈ b, ∀ e ∈ r.bands, (1 / 10000 ≤ c * e.2 ↔ 1 / 10000 ≤ e.2)
  | _ => True

/-- A row of `get_unit_dispatch` in another unit. -/
def DispatchRow.inPower (c : ℚ) (r : DispatchRow) : DispatchRow := { r with dispatch := c * r.dispatch }
/-- A row of `get_interconnector_flows` in another unit. -/
def FlowRow.inPower (c : ℚ) (r : FlowRow) : FlowRow := { r with flow := c * r.flow, losses := r.losses.map (c * ·) }
/-- A row of `get_region_dispatch_summary` in another unit. -/
def SummaryRow.inPower (c : ℚ) (r : SummaryRow) : SummaryRow :=
  { r with dispatch := c * r.dispatch, inflow := r.inflow.map (c * ·), transmission := r.transmission.map (c * ·),
           losses := r.losses.map (c * ·) }

/-- A report in another unit of power. -/
def Report.inPower (c : ℚ) (r : Report) : Report :=
  { cost := c * r.cost, units := r.units.map (List.map (DispatchRow.inPower c)), flows := r.flows.map (List.map (FlowRow.inPower c)),
    regions := r.regions.map (List.map (SummaryRow.inPower c)),
    violation := fun k => if k.isShare then r.violation k else c * r.violation k }

/-- Two markets dispatch the same up to the unit of power, a unit of power of the first being `c` of the second.  Prices are the
same. -/
structure DispatchInPower (c : ℚ) (m m' : Market) : Prop where
  builds : (∃ lp, m.assemble = .ok lp) ↔ (∃ lp, m'.assemble = .ok lp)
  feasible : ∀ r, (∃ lp x, m.assemble = .ok lp ∧ Feasible lp x ∧ m.report lp x = r) ↔
    (∃ lp x, m'.assemble = .ok lp ∧ Feasible lp x ∧ m'.report lp x = r.inPower c)
  optimal : ∀ r, (∃ lp x, m.assemble = .ok lp ∧ Optimal lp x ∧ m.report lp x = r) ↔
    (∃ lp x, m'.assemble = .ok lp ∧ Optimal lp x ∧ m'.report lp x = r.inPower c)
  prices : ∀ r energy fcas, m.canPrice r energy fcas ↔ m'.canPrice (r.inPower c) energy fcas

end Verif
