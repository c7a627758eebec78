import Verif.Spec.Replace

/-!
# Specification: a market in another currency

The same inputs with all amounts of money multiplied by `c`: price bids and violation costs.
-/

namespace Verif

/-- A violation cost in another currency. -/
def VCost.inCurrency (c : ℚ) : VCost → VCost
  | .num v => .num (c * v)
  | .table t => .table (t.map (fun e => (e.1, c * e.2)))

/-- A row of price bids in another currency. -/
def BidRow.inCurrency (c : ℚ) (b : BidRow) : BidRow := { b with bands := b.bands.map (fun e => (e.1, c * e.2)) }

/-- A call in another currency: price bids and violation costs are multiplied by `c`, nothing else changes. -/
def Op.inCurrency (c : ℚ) : Op → Op
  | .priceBids b => .priceBids (b.map (BidRow.inCurrency c))
  | .elastic k v => .elastic k (v.inCurrency c)
  | .tieBreak v => .tieBreak (c * v)
  | .capacity l v => .capacity l (v.map (VCost.inCurrency c))
  | .uigf l v => .uigf l (v.map (VCost.inCurrency c))
  | .rampRates r sc ps rt v => .rampRates r sc ps rt (v.map (VCost.inCurrency c))
  | .fastStart p v => .fastStart p (v.map (VCost.inCurrency c))
  | .demand d v => .demand d (v.map (VCost.inCurrency c))
  | .fcasReq r v => .fcasReq r (v.map (VCost.inCurrency c))
  | .fcasMaxAvail l v => .fcasMaxAvail l (v.map (VCost.inCurrency c))
  | .jointRamping r ps rt v => .jointRamping r ps rt (v.map (VCost.inCurrency c))
  | .jointCapacity t v => .jointCapacity t (v.map (VCost.inCurrency c))
  | .energyReg t v => .energyReg t (v.map (VCost.inCurrency c))
  | .generic g v => .generic g (v.map (VCost.inCurrency c))
  | o => o

/-- A report in another currency: only the value of the objective changes. -/
def Report.inCurrency (c : ℚ) (r : Report) : Report := { r with cost := c * r.cost }

/-- A table of prices in another currency. -/
def pricesIn {α : Type} (c : ℚ) (t : Except Err (List (α × ℚ))) : Except Err (List (α × ℚ)) :=
  t.map (fun l => l.map (fun e => (e.1, c * e.2)))

/-- The limits of the over constrained dispatch re-run in another currency. -/
def ReRun.inCurrency (c : ℚ) (r : ReRun) : ReRun :=
  { energyCeiling := c * r.energyCeiling, energyFloor := c * r.energyFloor, fcasCeiling := c * r.fcasCeiling }

/-- Two markets dispatch the same up to the currency, a unit of money of the first being `c` of the second. -/
structure DispatchInCurrency (c : ℚ) (m m' : Market) : Prop where
  builds : (∃ lp, m.assemble = .ok lp) ↔ (∃ lp, m'.assemble = .ok lp)
  feasible : ∀ r, (∃ lp x, m.assemble = .ok lp ∧ Feasible lp x ∧ m.report lp x = r) ↔
    (∃ lp x, m'.assemble = .ok lp ∧ Feasible lp x ∧ m'.report lp x = r.inCurrency c)
  optimal : ∀ r, (∃ lp x, m.assemble = .ok lp ∧ Optimal lp x ∧ m.report lp x = r) ↔
    (∃ lp x, m'.assemble = .ok lp ∧ Optimal lp x ∧ m'.report lp x = r.inCurrency c)
  prices : ∀ r energy fcas, m.canPrice r energy fcas ↔
    m'.canPrice (r.inCurrency c) (pricesIn c energy) (pricesIn c fcas)

/-- `S'` solves like `S` but in another currency: for a program whose costs are `c` times as high it finds the same solution,
with prices `c` times as high. -/
def Solver.inCurrency (c : ℚ) (S S' : Solver) : Prop :=
  ∀ lp lp' : Lp, lp'.vars = lp.vars → lp'.rows = lp.rows → lp'.sos2 = lp.sos2 → lp'.sos1 = lp.sos1 →
    lp'.obj = lp.obj.map (fun o => (o.1, c * o.2)) →
    S'.mip lp' = S.mip lp ∧ (∀ i, S'.dual lp' i = c * S.dual lp i) ∧ S'.sort = S.sort

end Verif
