import Verif.Model.Interconnectors

/-!
# Specification: interconnectors of historical dispatch
-/

namespace Verif.Inter

/-- The demand a loss equation uses for a region -/
def regionDemand (rs : List RegionSum) (region : String) : ℚ :=
  ((rs.filter (fun r => decide (r.region = region))).map (fun r => r.initialSupply + r.demandForecast)).sum

/-- The marginal loss factor equation of an interconnector at a flow: constant, flow coefficient times flow, and demand
coefficients times the demand of the regions -/
def marginalLoss (c : ConstraintRow) (ds : List DemandCoef) (rs : List RegionSum) (flow : ℚ) : ℚ :=
  c.lossConstant + c.flowCoef * flow +
    ((ds.filter (fun d => decide (d.id = c.id))).map (fun d => d.coef * regionDemand rs d.region)).sum

/-- `fn` is the loss function with this marginal loss factor: no loss at zero flow, and between two flows the loss changes
by the integral of the marginal loss factor minus one, which for a linear function is the mean of the end points times the
difference of the flows. -/
def IsLoss (mlf : ℚ → ℚ) (fn : ℚ → ℚ) : Prop :=
  fn 0 = 0 ∧ ∀ a b, fn b - fn a = ((mlf a + mlf b) / 2 - 1) * (b - a)

/-- A regulated interconnector in the table of definitions -/
def Regulated (t : Tables) (r : InterDef) : Prop :=
  ∃ d ∈ t.directions, ∃ c ∈ t.constraints, c.id = d.id ∧ c.icType = "REGULATED" ∧
    r = { inter := d.id, link := d.id, toR := d.toR, fromR := d.fromR, max := c.exportLimit, min := -c.importLimit,
          gcf := 1, fromLf := 1, toLf := 1 }

/-- A link of a market interconnector: flows from zero to the availability in the bid, or to the capacity if the bid has
none. -/
def MarketLink (t : Tables) (r : InterDef) : Prop :=
  ∃ m ∈ t.mnsp, ∃ c ∈ t.constraints, ∃ b ∈ t.linkBids, c.id = m.id ∧ c.icType = "MNSP" ∧ b.inter = m.id ∧
    b.toR = m.toR ∧
    r = { inter := m.id, link := m.link, toR := m.toR, fromR := m.fromR, max := b.availability.getD m.maxCapacity, min := 0,
          gcf := truncate m.lhsFactor, fromLf := m.fromTlf, toLf := m.toTlf }

/-- The links of the interconnectors are those in `ls`, each once. -/
def Links (t : Tables) (ls : List InterDef) : Prop := ls.Nodup ∧ ∀ r, r ∈ ls ↔ Regulated t r ∨ MarketLink t r

/-- Part of the loss of an interconnector that the from region pays: all of it for Basslink, otherwise the part in the table. -/
def lossShare (t : Tables) (inter : String) : ℚ :=
  if inter = "T-V-MNSP1" then 1
  else ((t.constraints.filter (fun c => decide (c.id = inter))).map (fun c => c.fromShare)).sum

/-- The break points of an interconnector in the table of loss models -/
def lossPoints (t : Tables) (inter : String) : List ℚ :=
  (t.segments.filter (fun s => decide (s.id = inter))).map (fun s => s.bp)

/-- The break points of an interconnector increase with the numbers of their segments. -/
def PointsIncrease (t : Tables) (inter : String) : Prop :=
  ∀ s ∈ t.segments, ∀ s' ∈ t.segments, s.id = inter → s'.id = inter → s.seg < s'.seg → s.bp < s'.bp

end Verif.Inter
