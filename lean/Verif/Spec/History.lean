import Verif.Model.Market

/-!
# Specification: call histories

Vocabulary for statements about histories of `SpotMarket` calls: which kinds of constraints a call
is about, which histories are well formed, what it means that a call is still in force, and the
dispatch reported for a unit.
-/

namespace Verif

/-- All break points belong to links that are defined at the time of the call. -/
def LinksKnown (m : Market) (bs : List BreakPt) : Prop :=
  ∀ b ∈ bs, ∃ v ∈ m.inters.getD [], v.inter = b.inter ∧ v.link = b.link

/-- The parts of a market definition: the bids, prices, interconnectors, links of generic constraints
and the constraint sets. -/
inductive Part
  | bids | prices | inters | gUnit | gRegion | gInter
  | set (k : CKey)
  deriving DecidableEq, Repr

/-- The parts of the market definition a call is about. -/
def Op.parts : Op → List Part
  | .volumeBids _ => [.bids]
  | .priceBids _ => [.prices]
  | .capacity _ _ => [.set .unitBidCapacity]
  | .uigf _ _ => [.set .uigf]
  | .rampRates _ _ _ _ _ => [.set .rampUp, .set .rampDown, .set .biRampUp, .set .biRampDown]
  | .fastStart _ _ => [.set .fastStart]
  | .removeFastStart => [.set .fastStart]
  | .demand _ _ => [.set .demand]
  | .fcasReq _ _ => [.set .fcas]
  | .fcasMaxAvail _ _ => [.set .fcasMaxAvail]
  | .jointRamping _ _ _ _ => [.set .jrRaise, .set .jrRaiseBdu, .set .jrLower, .set .jrLowerBdu]
  | .jointCapacity _ _ => [.set .jointCapacity]
  | .energyReg _ _ => [.set .energyReg]
  | .interconnectors _ => [.inters]
  | .losses _ _ => [.set .interpWeights]
  | .generic _ _ => [.set .generic]
  | .linkUnits _ => [.gUnit]
  | .linkRegions _ => [.gRegion]
  | .linkInters _ => [.gInter]
  | .elastic k _ => [.set k]
  | .tieBreak _ => [.set .tieBreak]

/-- Calls of `set_interconnector_losses` only name known links, and no call divides by zero (the code goes on with infinite or NaN
numbers then, which the model does not have): loss factors, lengths of the modes of fast start units at the end of the interval, FCAS
availabilities and the length of the dispatch interval. -/
def Op.benign (m : Market) : Op → Prop
  | .losses _ b => LinksKnown m b
  | .priceBids _ => ∀ u ∈ m.units, u.lf ≠ 0
  | .fastStart ps _ => ∀ p ∈ ps, (p.endMode = 2 → p.len2 ≠ 0) ∧ (p.endMode = 4 → p.len4 ≠ 0)
  | .jointCapacity ts _ => ∀ t ∈ ts, t.maxAvail ≠ 0
  | .energyReg ts _ => ∀ t ∈ ts, t.maxAvail ≠ 0
  | .rampRates .. => m.di ≠ 0
  | .jointRamping .. => m.di ≠ 0
  | .interconnectors ds => ∀ d ∈ ds, d.fromLf ≠ 0 ∧ d.toLf ≠ 0
  | _ => True

/-- All calls of a history are benign. -/
def Benign : Market → List Op → Prop
  | _, [] => True
  | m, op :: ops => op.benign m ∧ Benign (m.step op).1 ops

/-- The call `op` is in force in the market `m`: `m` was created, some calls were made, `op` was
called and did not raise, and afterwards only calls were made that are about other parts of the
market definition (such calls may also raise). -/
def InForce (op : Op) (m : Market) : Prop :=
  ∃ (regions : List String) (units : List UnitInfo) (di : ℚ) (m0 : Market) (before after : List Op),
    Market.init regions units di = .ok m0 ∧
    Benign m0 (before ++ op :: after) ∧
    ((m0.run before).step op).2 = none ∧
    (∀ o ∈ after, ∀ p ∈ op.parts, p ∉ o.parts) ∧
    m = m0.run (before ++ op :: after)

/-- As `InForce`, and the later calls also leave the parts `keep` alone. -/
def InForceKeeping (keep : List Part) (op : Op) (m : Market) : Prop :=
  ∃ (regions : List String) (units : List UnitInfo) (di : ℚ) (m0 : Market) (before after : List Op),
    Market.init regions units di = .ok m0 ∧
    Benign m0 (before ++ op :: after) ∧
    ((m0.run before).step op).2 = none ∧
    (∀ o ∈ after, ∀ p ∈ keep ++ op.parts, p ∉ o.parts) ∧
    m = m0.run (before ++ op :: after)

/-- A market reached by some history. -/
def Reached (m : Market) : Prop :=
  ∃ (regions : List String) (units : List UnitInfo) (di : ℚ) (m0 : Market) (ops : List Op),
    Market.init regions units di = .ok m0 ∧ Benign m0 ops ∧ m = m0.run ops

/-- Sum of the values of the bid variables of a unit, service and dispatch type: the dispatch
reported by `get_unit_dispatch`, `markets.py:3246-3248`. -/
def Market.dispatched (m : Market) (x : Nat → ℚ) (u : String) (s : Service) (d : DType) : ℚ :=
  (((m.bids.getD []).filter (fun b => decide (b.unit = u ∧ b.service = s ∧ b.dtype = d))).map
    (fun b => x b.vid)).sum

/-- The unit and dispatch type are listed in `unit_info`. -/
def Market.lists (m : Market) (u : String) (d : DType) : Prop := ∃ i ∈ m.units, i.unit = u ∧ i.dtype = d

/-- The unit has a bid band (of at least 0.0001 MW) for the service and dispatch type. -/
def Market.bidsFor (m : Market) (u : String) (s : Service) (d : DType) : Prop :=
  ∃ b ∈ m.bids.getD [], b.unit = u ∧ b.service = s ∧ b.dtype = d

/-- Net energy output: generation minus consumption. -/
def Market.netOutput (m : Market) (x : Nat → ℚ) (u : String) : ℚ :=
  m.dispatched x u .energy .generator - m.dispatched x u .energy .load

/-- The market with every constraint set other than `k` removed (bids, interconnectors and links of
generic constraints stay). -/
def Market.only (m : Market) (k : CKey) : Market :=
  { m with
    unitCon := m.unitCon.filter (fun e => decide (e.1 = k))
    regCon := m.regCon.filter (fun e => decide (e.1 = k))
    conRhs := m.conRhs.filter (fun e => decide (e.1 = k))
    mktRhs := m.mktRhs.filter (fun e => decide (e.1 = k))
    deficits := m.deficits.filter (fun e => decide (e.1 = k))
    lossLhs := if k = .interpWeights then m.lossLhs else none
    dynRhs := if k = .interpWeights then m.dynRhs else none
    tieLhs := if k = .tieBreak then m.tieLhs else none }

/-- The constraint with this id belongs to constraint set `k`: its right hand side is stored there. -/
def Market.rowOf (m : Market) (k : CKey) (c : Nat) : Prop :=
  (∃ rows, m.conRhs.get? k = some rows ∧ ∃ r ∈ rows, r.cid = c) ∨
  (∃ rows, m.mktRhs.get? k = some rows ∧ ∃ r ∈ rows, r.cid = c) ∨
  (k = .interpWeights ∧ ∃ r ∈ m.dynRhs.getD [], r.cid = c)

/-- `x` satisfies the constraints of the program that belong to constraint set `k`. -/
def Market.obeys (m : Market) (lp : Lp) (x : Nat → ℚ) (k : CKey) : Prop :=
  ∀ r ∈ lp.rows, m.rowOf k r.cid → r.holds x

end Verif
