import Verif.Spec.Regional
import Verif.Spec.Ramp
import Verif.Spec.FastStart
import Verif.Spec.Trap
import Verif.Spec.Interp
import Verif.Spec.Lp
import Verif.Spec.Cost

/-!
# Specification: a whole market

What the calls that define a market ask of a schedule (the dispatch of every bid band and the flow and loss of every link), call
by call and without the tables of constraints, coefficients and ids.
-/

namespace Verif

/-- No call of the history raises. -/
def Accepted : Market → List Op → Prop
  | _, [] => True
  | m, op :: ops => (m.step op).2 = none ∧ Accepted (m.step op).1 ops

/-- No two calls of the history are about the same part of the market. -/
def OncePerPart (ops : List Op) : Prop := ops.Pairwise (fun a b => ∀ p ∈ a.parts, p ∉ b.parts)

/-- A call without violation costs, whose inputs make sense: FCAS requirements are not for energy, FCAS availabilities are positive,
break points increase and belong to links with a loss function.  Tie-break constraints are left out, they are allowed to be violated. -/
def Op.firm : Op → Prop
  | .volumeBids _ => True
  | .priceBids _ => True
  | .capacity _ vc => vc = none
  | .uigf _ vc => vc = none
  | .rampRates _ _ _ _ vc => vc = none
  | .fastStart _ vc => vc = none
  | .removeFastStart => False
  | .demand _ vc => vc = none
  | .fcasReq rs vc => vc = none ∧ ∀ r ∈ rs, r.service ≠ .energy
  | .fcasMaxAvail _ vc => vc = none
  | .jointRamping _ _ _ vc => vc = none
  | .jointCapacity ts vc => vc = none ∧ ∀ t ∈ ts, 0 < t.maxAvail
  | .energyReg ts vc => vc = none ∧ ∀ t ∈ ts, 0 < t.maxAvail
  | .interconnectors _ => True
  | .losses fs bs => (∀ f ∈ fs, Increasing (pointsOf bs f.inter f.link)) ∧ ∀ b ∈ bs, ∃ f ∈ fs, f.inter = b.inter ∧ f.link = b.link
  | .generic _ vc => vc = none
  | .linkUnits _ => True
  | .linkRegions _ => True
  | .linkInters _ => True
  | .elastic _ _ => False
  | .tieBreak _ => False

/-- What is asked of calls about bidirectional units (those listed both as generator and as load): fast start profiles
are for other units, ramp rates are not negative and come with one initial output for both sides, and a joint capacity trapezium is
for the generator side of a unit that does not bid for lower regulation as a load (`C17_bidirectional_left_edge_fails` and
`C17_bidirectional_load_side_fails` show what happens otherwise).  Other units with a fast start profile in joint ramping bid as generators only. -/
def Op.suits (m : Market) : Op → Prop
  | .rampRates rs _ _ _ _ => ∀ r ∈ rs, r.unit ∈ m.bidi → 0 < m.di ∧ 0 ≤ r.up ∧ 0 ≤ r.down ∧ ∀ q ∈ rs, q.unit = r.unit → q.init = r.init
  | .fastStart ps _ => ∀ p ∈ ps, p.unit ∉ m.bidi
  | .jointRamping rs ps rt _ => ∀ r ∈ rs, r.unit ∉ m.bidi → rt = .noFastStart ∨ ∀ p ∈ ps.getD [], p.unit = r.unit →
      ∀ b ∈ m.bids.getD [], b.unit = r.unit → b.dtype = .generator
  | .jointCapacity ts _ => ∀ t ∈ ts, t.unit ∈ m.bidi → t.dtype = .generator ∧ ¬ m.bidsFor t.unit .lowerReg .load
  | _ => True

/-- The dispatch of a unit, 0 if it is not listed in `unit_info`. -/
def Market.output (m : Market) (x : Nat → ℚ) (u : String) (s : Service) (d : DType) : ℚ :=
  if m.units.any (fun i => decide (i.unit = u ∧ i.dtype = d)) then m.dispatched x u s d else 0

/-- The unit bids for the service as a generator (load). -/
def Market.bidding (m : Market) (u : String) (s : Service) (d : DType) : Bool :=
  (m.bids.getD []).any (fun b => decide (b.unit = u ∧ b.service = s ∧ b.dtype = d))

/-- The energy of the sides of a bidirectional unit that bid for the regulation service `s`, where consumption counts as negative: the
net output if both sides bid for the service. -/
def Market.regEnergy (m : Market) (x : Nat → ℚ) (u : String) (s : Service) : ℚ :=
  (if m.bidding u s .generator then m.dispatched x u .energy .generator else 0) -
  (if m.bidding u s .load then m.dispatched x u .energy .load else 0)

/-- The energy of one side of a unit, where the consumption of a bidirectional unit counts as negative. -/
def Market.sideEnergy (m : Market) (x : Nat → ℚ) (u : String) (d : DType) : ℚ :=
  if u ∈ m.bidi ∧ d = .load then -m.output x u .energy d else m.output x u .energy d

/-- The energy of a unit, which is the net output of a bidirectional unit. -/
def Market.position (m : Market) (x : Nat → ℚ) (u : String) (d : DType) : ℚ :=
  if u ∈ m.bidi then m.netOutput x u else m.output x u .energy d

/-- The regulation a unit provides, on both sides of a bidirectional unit. -/
def Market.regulation (m : Market) (x : Nat → ℚ) (u : String) (s : Service) (d : DType) : ℚ :=
  if u ∈ m.bidi then m.dispatched x u s .generator + m.dispatched x u s .load else m.output x u s d

/-- The unit bids for the service of the trapezium, or, on its side or on any side of a bidirectional unit, for energy or for the
regulation service `s`. -/
def Market.inTrap (m : Market) (t : Trap) (s : Service) : Prop :=
  m.bidsFor t.unit t.service t.dtype ∨
  ∃ d, (d = t.dtype ∨ t.unit ∈ m.bidi) ∧ (m.bidsFor t.unit .energy d ∨ m.bidsFor t.unit s d)

/-- `g` and `l` are the ramp rates of the generator and load side of a bidirectional unit. -/
def Market.sides (m : Market) (g l : RampRow) : Prop :=
  g.unit ∈ m.bidi ∧ g.unit = l.unit ∧ g.dtype = .generator ∧ l.dtype = .load

instance (m : Market) (g l : RampRow) : Decidable (m.sides g l) := by unfold Market.sides; infer_instance

/-- The largest net output a bidirectional unit can reach, at its own rates and at the rate from SCADA if there is one. -/
def highest (sc : Option (List Scada)) (di : ℚ) (g l : RampRow) : ℚ :=
  match scadaRate sc Scada.up g.unit with
  | none => reachUp g.init (di / 60) g.up l.down
  | some v => min (reachUp g.init (di / 60) g.up l.down) (g.init + v * (di / 60))

/-- The smallest net output a bidirectional unit can reach. -/
def lowest (sc : Option (List Scada)) (di : ℚ) (g l : RampRow) : ℚ :=
  match scadaRate sc Scada.down g.unit with
  | none => reachDown g.init (di / 60) g.down l.up
  | some v => max (reachDown g.init (di / 60) g.down l.up) (g.init - v * (di / 60))

/-- The loss functions given by a history. -/
def lossesOf (ops : List Op) : List LossFn :=
  ops.flatMap (fun | .losses fs _ => fs | _ => [])

/-- `m` is defined by the calls `ops` and nothing else: the market was created, the calls were made in this order, none raised, no
two were about the same part, all are firm and suit the bidirectional units, and links with a loss function join two regions. -/
structure DefinedBy (ops : List Op) (m : Market) : Prop where
  history : ∃ (regions : List String) (units : List UnitInfo) (di : ℚ) (m0 : Market),
    Market.init regions units di = .ok m0 ∧ Benign m0 ops ∧ Accepted m0 ops ∧ m = m0.run ops
  once : OncePerPart ops
  plain : ∀ op ∈ ops, op.firm
  oneWay : ∀ op ∈ ops, op.suits m
  proper : m.properLinks (lossesOf ops)

/-- What a call asks of the schedule `x`, where `fs` are the loss functions of the market.

* volume bids: every bid band is dispatched between 0 and its volume;
* capacities, forecasts, FCAS availabilities: the dispatch is at most the given value;
* ramp rates: the energy dispatch is between what can be reached by ramping down and up, and so is the net output of a bidirectional
  unit;
* fast start profiles: the energy dispatch is allowed by the mode;
* demand: supply, net imports and charged losses balance in each region;
* FCAS requirements and generic constraints: the sum of what belongs to a set satisfies its relation;
* joint ramping: energy with raise regulation stays below what can be reached by ramping up and energy less lower regulation above what
  can be reached by ramping down, for bidirectional units with the energy of the sides that bid for the regulation service;
* trapeziums: enablement stays within the edges, for bidirectional units with the net output and the regulation of both sides;
* interconnectors: flows are within limits, and at most one link of an interconnector with named links carries flow;
* losses: the loss of a link is the interpolated loss of its flow, and is not larger than the largest flow the link allows;
* prices and links of generic constraints: nothing. -/
def Op.meets (m : Market) (fs : List LossFn) (x : Nat → ℚ) : Op → Prop
  | .volumeBids _ => ∀ b ∈ m.bids.getD [], 0 ≤ x b.vid ∧ x b.vid ≤ b.ub
  | .priceBids _ => True
  | .capacity ls _ => ∀ l ∈ ls, m.lists l.unit l.dtype → m.bidsFor l.unit .energy l.dtype →
      m.dispatched x l.unit .energy l.dtype ≤ l.val
  | .uigf ls _ => ∀ l ∈ ls, m.lists l.unit .generator → m.bidsFor l.unit .energy .generator →
      m.dispatched x l.unit .energy .generator ≤ l.val
  | .rampRates rs sc ps rt _ => (∀ r ∈ rs, r.unit ∉ m.bidi → m.lists r.unit r.dtype → m.bidsFor r.unit .energy r.dtype →
      (∀ L, upLimit rt (ps.getD []) m.di r.init (tighter r.up (scadaRate sc Scada.up r.unit)) r.unit = some L →
        m.dispatched x r.unit .energy r.dtype ≤ L) ∧
      (∀ L, downLimit rt (ps.getD []) m.di r.init (tighter r.down (scadaRate sc Scada.down r.unit)) r.unit = some L →
        L ≤ m.dispatched x r.unit .energy r.dtype)) ∧
      ∀ g ∈ rs, ∀ l ∈ rs, m.sides g l → (∃ d, m.bidsFor g.unit .energy d) →
        m.netOutput x g.unit ≤ highest sc m.di g l ∧ lowest sc m.di g l ≤ m.netOutput x g.unit
  | .fastStart ps _ => ∀ p ∈ ps, ∀ d, m.lists p.unit d → m.bidsFor p.unit .energy d → p.allows (m.dispatched x p.unit .energy d)
  | .removeFastStart => True
  | .demand ds _ => ∀ d ∈ ds, m.hasSupply d.region .energy ∨ m.hasLink d.region →
      m.supply x d.region .energy + m.netImport x d.region - m.chargedLoss x fs d.region = d.demand
  | .fcasReq rs _ => ∀ r, FirstOfSet rs r → (∃ q ∈ rs, q.set = r.set ∧ m.hasSupply q.region q.service) ∨ m.hasLinked r.set →
      r.ctype.holds (m.setSupply x rs r.set + m.linked x r.set) r.volume
  | .fcasMaxAvail ls _ => ∀ l ∈ ls, m.lists l.unit l.dtype → m.bidsFor l.unit l.service l.dtype →
      m.dispatched x l.unit l.service l.dtype ≤ l.val
  | .jointRamping rs ps rt _ => ∀ r ∈ rs, (r.unit ∉ m.bidi →
      (m.lists r.unit .generator → m.bidsFor r.unit .raiseReg .generator →
        ∀ L, upLimit rt (ps.getD []) m.di r.init r.up r.unit = some L →
          m.dispatched x r.unit .energy .generator + m.dispatched x r.unit .raiseReg .generator ≤ L) ∧
      (m.lists r.unit .load → m.bidsFor r.unit .raiseReg .load →
        r.init - r.up * (m.di / 60) ≤ m.dispatched x r.unit .energy .load - m.dispatched x r.unit .raiseReg .load) ∧
      (m.lists r.unit .generator → m.bidsFor r.unit .lowerReg .generator →
        ∀ L, downLimit rt (ps.getD []) m.di r.init r.down r.unit = some L →
          L ≤ m.dispatched x r.unit .energy .generator - m.dispatched x r.unit .lowerReg .generator) ∧
      (m.lists r.unit .load → m.bidsFor r.unit .lowerReg .load →
        m.dispatched x r.unit .energy .load + m.dispatched x r.unit .lowerReg .load ≤ r.init + r.down * (m.di / 60))) ∧
      (r.unit ∈ m.bidi →
      ((∃ d, m.bidsFor r.unit .raiseReg d) → ∀ L, upLimit rt (ps.getD []) m.di r.init r.up r.unit = some L →
        m.regEnergy x r.unit .raiseReg + (m.dispatched x r.unit .raiseReg .generator + m.dispatched x r.unit .raiseReg .load) ≤ L) ∧
      ((∃ d, m.bidsFor r.unit .lowerReg d) → ∀ L, downLimit rt (ps.getD []) m.di r.init r.down r.unit = some L →
        L ≤ m.regEnergy x r.unit .lowerReg - (m.dispatched x r.unit .lowerReg .generator + m.dispatched x r.unit .lowerReg .load)))
  | .jointCapacity ts _ => ∀ t ∈ ts, m.lists t.unit t.dtype →
      (m.inTrap t t.dtype.upReg → m.position x t.unit t.dtype + m.regulation x t.unit t.dtype.upReg t.dtype ≤
        t.rightEdge (m.output x t.unit t.service t.dtype)) ∧
      (m.inTrap t t.dtype.downReg → t.leftEdge (m.output x t.unit t.service t.dtype) ≤
        m.position x t.unit t.dtype - m.regulation x t.unit t.dtype.downReg t.dtype)
  | .energyReg ts _ => ∀ t ∈ ts, m.lists t.unit t.dtype → (m.bidsFor t.unit .energy t.dtype ∨ m.bidsFor t.unit t.service t.dtype) →
      m.sideEnergy x t.unit t.dtype ≤ t.rightEdge (m.output x t.unit t.service t.dtype) ∧
      t.leftEdge (m.output x t.unit t.service t.dtype) ≤ m.sideEnergy x t.unit t.dtype
  | .interconnectors ds =>
      (∀ d ∈ ds, d.min ≤ m.flow x d.inter d.link ∧ m.flow x d.inter d.link ≤ d.max) ∧
      ∀ d ∈ ds, ∀ d' ∈ ds, d.inter = d'.inter → d.inter ≠ d.link → d'.inter ≠ d'.link → m.flow x d.inter d.link ≠ 0 →
        m.flow x d'.inter d'.link ≠ 0 → d = d'
  | .losses gs bs => ∀ d ∈ m.dirs.getD [], ∀ f ∈ gs, f.inter = d.inter → f.link = d.link →
      |m.linkLoss x d.inter d.link| ≤ max |d.min| |d.max| ∧
      (pointsOf bs d.inter d.link ≠ [] →
        Interpolates f.fn ((pointsOf bs d.inter d.link).map BreakPt.bp) (m.flow x d.inter d.link) (m.linkLoss x d.inter d.link))
  | .generic gs _ => ∀ g ∈ gs, m.hasLinked g.set → g.ctype.holds (m.linked x g.set) g.rhs
  | .linkUnits _ => True
  | .linkRegions _ => True
  | .linkInters _ => True
  | .elastic _ _ => True
  | .tieBreak _ => True

/-- `x` and `z` are the same schedule: they give the same dispatch of every bid band and the same flow and loss of every link (they
may differ in the auxiliary weights of the break points). -/
def SameSchedule (m : Market) (x z : Nat → ℚ) : Prop :=
  (∀ b ∈ m.bids.getD [], z b.vid = x b.vid) ∧ (∀ v ∈ m.inters.getD [], z v.vid = x v.vid) ∧
  (∀ v ∈ m.losses.getD [], z v.vid = x v.vid)

/-- Cost of a schedule: the dispatch of every bid band times its price at the regional reference node. -/
def Market.costAt (m : Market) (ps : List BidRow) (x : Nat → ℚ) : ℚ :=
  ((m.bids.getD []).map (fun b => costOf ps m.units b.unit b.service b.dtype b.band * x b.vid)).sum

/-- The schedule does what all calls ask, at the least cost. -/
def LeastCost (m : Market) (ops : List Op) (ps : List BidRow) (x : Nat → ℚ) : Prop :=
  (∀ op ∈ ops, op.meets m (lossesOf ops) x) ∧
  ∀ y, (∀ op ∈ ops, op.meets m (lossesOf ops) y) → m.costAt ps x ≤ m.costAt ps y

end Verif
