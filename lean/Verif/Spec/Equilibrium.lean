import Verif.Spec.Price

/-!
# Specification: what units earn at the prices of the market
-/

namespace Verif

/-- Energy consumed by a load is paid for, everything else is paid to the unit. -/
def UnitInfo.sign (i : UnitInfo) (s : Service) : ℚ := if i.dtype = .load ∧ s = .energy then -1 else 1

/-- What the units `us` earn with the schedule `x` at energy prices by region: price of the region of the unit times its dispatch. -/
def Market.energyRevenue (m : Market) (energy : List (String × ℚ)) (x : Nat → ℚ) (us : List String) : ℚ :=
  ((m.units.filter (fun i => decide (i.unit ∈ us))).map (fun i =>
    ((energy.filter (fun e => decide (e.1 = i.region))).map (fun e =>
      e.2 * (i.sign .energy * m.dispatched x i.unit .energy i.dtype))).sum)).sum

/-- What the units `us` earn with the schedule `x` at prices of services by region and service. -/
def Market.fcasRevenue (m : Market) (fcas : List ((String × Service) × ℚ)) (x : Nat → ℚ) (us : List String) : ℚ :=
  ((m.units.filter (fun i => decide (i.unit ∈ us))).map (fun i =>
    ((fcas.filter (fun e => decide (e.1.1 = i.region))).map (fun e =>
      e.2 * (i.sign e.1.2 * m.dispatched x i.unit e.1.2 i.dtype))).sum)).sum

/-- The cost of the schedule to the units `us` according to their bids: what is dispatched in each band times the price of the
band at the reference node (negative for loads, which are worth this to the unit). -/
def Market.costOfBids (m : Market) (ps : List BidRow) (x : Nat → ℚ) (us : List String) : ℚ :=
  (((m.bids.getD []).filter (fun b => decide (b.unit ∈ us))).map (fun b => b.price ps m * x b.vid)).sum

/-- `y` differs from `x` only in the dispatch of bids of the units `us`. -/
def Market.onlyUnits (m : Market) (us : List String) (x y : Nat → ℚ) : Prop :=
  ∀ v, (∀ b ∈ m.bids.getD [], b.unit ∈ us → b.vid ≠ v) → y v = x v

/-- `x` with nothing dispatched from the units `us`. -/
def Market.stopped (m : Market) (us : List String) (x : Nat → ℚ) (v : Nat) : ℚ :=
  if ∃ b ∈ m.bids.getD [], b.unit ∈ us ∧ b.vid = v then 0 else x v

/-- `y` respects the bounds of the variables and all constraints other than those of the constraint sets `ks`. -/
def Market.allButSets (m : Market) (ks : List CKey) (lp : Lp) (y : Nat → ℚ) : Prop :=
  (∀ v ∈ lp.vars, v.holds y) ∧ ∀ r ∈ lp.rows, (∀ k ∈ ks, ¬ m.rowOf k r.cid) → r.holds y

/-- `y` differs from `x` only in flows, losses and interpolation weights of interconnectors: bids and violations are the same. -/
def Market.onlyNetwork (m : Market) (x y : Nat → ℚ) : Prop :=
  (∀ b ∈ m.bids.getD [], y b.vid = x b.vid) ∧ ∀ d ∈ m.deficits, ∀ v ∈ d.2.1, y v.vid = x v.vid

/-- What the interconnectors earn at energy prices by region: energy delivered to a region is paid for at its price, energy taken
from it is bought at its price, and so are the losses charged to it. -/
def Market.residue (m : Market) (energy : List (String × ℚ)) (fs : List LossFn) (x : Nat → ℚ) : ℚ :=
  (energy.map (fun e => e.2 * (m.netImport x e.1 - m.chargedLoss x fs e.1))).sum

/-- Flows and losses of all links other than that of `d` are the same. -/
def Market.onlyLink (m : Market) (d : InterDef) (x y : Nat → ℚ) : Prop :=
  ∀ q ∈ m.dirs.getD [], q ≠ d → m.flow y q.inter q.link = m.flow x q.inter q.link ∧ m.linkLoss y q.inter q.link = m.linkLoss x q.inter q.link

/-- What the demand of the regions costs at energy prices by region. -/
def energyPayment (energy : List (String × ℚ)) (ds : List Demand) : ℚ :=
  (ds.map (fun d => ((energy.filter (fun e => decide (e.1 = d.region))).map (fun e => e.2 * d.demand)).sum)).sum

end Verif
