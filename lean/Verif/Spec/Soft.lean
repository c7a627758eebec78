import Verif.Spec.Whole
import Verif.Spec.Elastic
import Verif.Spec.Price
import Verif.Spec.Ramp
import Verif.Spec.FastStart
import Verif.Spec.Tie

/-!
# Specification: a whole market with violation costs

What a schedule pays for missing what the calls made with a violation cost ask.
-/

namespace Verif

/-- The violation cost gives each of the sets a price, and none is negative. -/
def VCost.covers (vc : VCost) (sets : List String) : Prop :=
  vc.proper ∧ ∀ s ∈ sets, ∃ c, vc.forSet s = some c ∧ 0 ≤ c

/-- By how much an energy dispatch of `e` misses what a fast start profile allows. -/
def FsInput.missedBy (p : FsInput) (e : ℚ) : ℚ :=
  if p.endMode ≤ 1 then max 0 e
  else if p.endMode = 2 then |e - p.minLoading * (p.time / p.len2)|
  else if p.endMode = 3 then max 0 (p.minLoading - e)
  else if p.endMode = 4 then max 0 (p.minLoading * (1 - p.time / p.len4) - e)
  else 0

/-- A call with a violation cost whose inputs make sense. -/
def Op.lax : Op → Prop
  | .capacity _ (some (.num c)) => 0 ≤ c
  | .uigf _ (some (.num c)) => 0 ≤ c
  | .fcasMaxAvail _ (some (.num c)) => 0 ≤ c
  | .demand _ (some (.num c)) => 0 ≤ c
  | .jointCapacity ts (some (.num c)) => 0 ≤ c ∧ ∀ t ∈ ts, 0 < t.maxAvail
  | .energyReg ts (some (.num c)) => 0 ≤ c ∧ ∀ t ∈ ts, 0 < t.maxAvail
  | .rampRates _ _ _ _ (some (.num c)) => 0 ≤ c
  | .fastStart _ (some (.num c)) => 0 ≤ c
  | .jointRamping _ _ _ (some (.num c)) => 0 ≤ c
  | .fcasReq rs (some vc) => vc.covers (rs.map FcasReq.set) ∧ ∀ r ∈ rs, r.service ≠ .energy
  | .generic gs (some vc) => vc.covers (gs.map GenericRow.set) ∧ gs ≠ []
  | .tieBreak c => 0 ≤ c
  | _ => False

/-- The price bids given by a history. -/
def pricesOf (ops : List Op) : List BidRow :=
  ops.flatMap (fun | .priceBids ps => ps | _ => [])

theorem tied_iff {m : Market} {ps : List BidRow} {a b : BidVar} : Tied m ps a b ↔
    a ∈ m.bids.getD [] ∧ b ∈ m.bids.getD [] ∧ (a.service = .energy ∧ b.service = .energy) ∧ a.dtype = b.dtype ∧ a.unit ≠ b.unit ∧
    (∃ u ∈ m.units, ∃ w ∈ m.units, u.unit = a.unit ∧ w.unit = b.unit ∧ u.region = w.region) ∧
    ∃ pa ∈ priceOf ps a.unit .energy a.dtype a.band, ∃ pb ∈ priceOf ps b.unit .energy b.dtype b.band,
    ∃ fa ∈ lossFactor m.units a.unit a.dtype, ∃ fb ∈ lossFactor m.units b.unit b.dtype, pa / fa = pb / fb := by
  constructor
  · rintro ⟨h1, h2, h3, h4, h5, h6, pa, pb, fa, fb, e1, e2, e3, e4, e5⟩
    exact ⟨h1, h2, h3, h4, h5, h6, pa, e1, pb, e2, fa, e3, fb, e4, e5⟩
  · rintro ⟨h1, h2, h3, h4, h5, h6, pa, e1, pb, e2, fa, e3, fb, e4, e5⟩
    exact ⟨h1, h2, h3, h4, h5, h6, pa, pb, fa, fb, e1, e2, e3, e4, e5⟩

instance (m : Market) (ps : List BidRow) (a b : BidVar) : Decidable (Tied m ps a b) := decidable_of_iff' _ tied_iff

/-- What tie-break constraints need: the price table has every band column once, and no two pairs of tied bands have the same name. -/
structure ToldApart (ops : List Op) (m : Market) : Prop where
  bands : ∀ ps, Op.priceBids ps ∈ ops → BandsUnique ps
  names : ∀ a b, Tied m (pricesOf ops) a b → NameUnique m a b

/-- As `DefinedBy`, with calls that have a violation cost as well. -/
structure MadeBy (ops : List Op) (m : Market) : Prop where
  history : ∃ (regions : List String) (units : List UnitInfo) (di : ℚ) (m0 : Market),
    Market.init regions units di = .ok m0 ∧ Benign m0 ops ∧ Accepted m0 ops ∧ m = m0.run ops
  once : OncePerPart ops
  kinds : ∀ op ∈ ops, op.firm ∨ op.lax
  oneWay : ∀ op ∈ ops, op.suits m
  proper : m.properLinks (lossesOf ops)
  ties : ∀ c, Op.tieBreak c ∈ ops → ToldApart ops m

/-- By how much the schedule `x` misses each requirement of a call with a violation cost, with the price per MW.  Tie-break constraints
ask that two tied bands are dispatched to the same fraction of their volume. -/
def Op.misses (m : Market) (ops : List Op) (x : Nat → ℚ) : Op → List (ℚ × ℚ)
  | .capacity ls (some (.num c)) => ls.map (fun l => (c, max 0 (m.output x l.unit .energy l.dtype - l.val)))
  | .uigf ls (some (.num c)) => ls.map (fun l => (c, max 0 (m.output x l.unit .energy .generator - l.val)))
  | .fcasMaxAvail ls (some (.num c)) => ls.map (fun l => (c, max 0 (m.output x l.unit l.service l.dtype - l.val)))
  | .demand ds (some (.num c)) => ds.map (fun d =>
      (c, |m.supply x d.region .energy + m.netImport x d.region - m.chargedLoss x (lossesOf ops) d.region - d.demand|))
  | .jointCapacity ts (some (.num c)) =>
      ts.map (fun t => (c, max 0 (m.position x t.unit t.dtype + m.regulation x t.unit t.dtype.upReg t.dtype -
        t.rightEdge (m.output x t.unit t.service t.dtype)))) ++
      ts.map (fun t => (c, max 0 (t.leftEdge (m.output x t.unit t.service t.dtype) -
        (m.position x t.unit t.dtype - m.regulation x t.unit t.dtype.downReg t.dtype))))
  | .energyReg ts (some (.num c)) =>
      ts.map (fun t => (c, max 0 (m.sideEnergy x t.unit t.dtype - t.rightEdge (m.output x t.unit t.service t.dtype)))) ++
      ts.map (fun t => (c, max 0 (t.leftEdge (m.output x t.unit t.service t.dtype) - m.sideEnergy x t.unit t.dtype)))
  | .rampRates rs sc ps rt (some (.num c)) => rs.flatMap (fun r => if r.unit ∈ m.bidi then [] else
      (upLimit rt (ps.getD []) m.di r.init (tighter r.up (scadaRate sc Scada.up r.unit)) r.unit).toList.map (fun L =>
        (c, max 0 (m.output x r.unit .energy r.dtype - L))) ++
      (downLimit rt (ps.getD []) m.di r.init (tighter r.down (scadaRate sc Scada.down r.unit)) r.unit).toList.map (fun L =>
        (c, max 0 (L - m.output x r.unit .energy r.dtype)))) ++
      rs.flatMap (fun g => rs.flatMap (fun l => if m.sides g l then
        [(c, max 0 (m.netOutput x g.unit - highest sc m.di g l)), (c, max 0 (lowest sc m.di g l - m.netOutput x g.unit))] else []))
  | .fastStart ps (some (.num c)) => m.units.flatMap (fun u => (ps.filter (fun p => decide (p.unit = u.unit))).map (fun p =>
      (c, p.missedBy (m.output x u.unit .energy u.dtype))))
  | .jointRamping rs ps rt (some (.num c)) => rs.flatMap (fun r => if r.unit ∈ m.bidi then
      (if m.bidding r.unit .raiseReg .generator || m.bidding r.unit .raiseReg .load then
        (upLimit rt (ps.getD []) m.di r.init r.up r.unit).toList.map (fun L => (c, max 0 (m.regEnergy x r.unit .raiseReg +
          (m.dispatched x r.unit .raiseReg .generator + m.dispatched x r.unit .raiseReg .load) - L))) else []) ++
      (if m.bidding r.unit .lowerReg .generator || m.bidding r.unit .lowerReg .load then
        (downLimit rt (ps.getD []) m.di r.init r.down r.unit).toList.map (fun L => (c, max 0 (L - (m.regEnergy x r.unit .lowerReg -
          (m.dispatched x r.unit .lowerReg .generator + m.dispatched x r.unit .lowerReg .load))))) else [])
    else
      (if m.bidding r.unit .raiseReg .generator then
        (upLimit rt (ps.getD []) m.di r.init r.up r.unit).toList.map (fun L =>
          (c, max 0 (m.output x r.unit .energy .generator + m.output x r.unit .raiseReg .generator - L))) else []) ++
      (if m.bidding r.unit .raiseReg .load then
        [(c, max 0 (r.init - r.up * (m.di / 60) - (m.output x r.unit .energy .load - m.output x r.unit .raiseReg .load)))] else []) ++
      (if m.bidding r.unit .lowerReg .generator then
        (downLimit rt (ps.getD []) m.di r.init r.down r.unit).toList.map (fun L =>
          (c, max 0 (L - (m.output x r.unit .energy .generator - m.output x r.unit .lowerReg .generator)))) else []) ++
      (if m.bidding r.unit .lowerReg .load then
        [(c, max 0 (m.output x r.unit .energy .load + m.output x r.unit .lowerReg .load - (r.init + r.down * (m.di / 60))))] else []))
  | .fcasReq rs (some vc) => (dropDup (·.set) rs).map (fun r =>
      ((vc.forSet r.set).getD 0, r.ctype.violation (m.setSupply x rs r.set + m.linked x r.set) r.volume))
  | .generic gs (some vc) => gs.map (fun g => ((vc.forSet g.set).getD 0, g.ctype.violation (m.linked x g.set) g.rhs))
  | .tieBreak c => (m.bids.getD []).flatMap (fun a =>
      ((m.bids.getD []).filter (fun b => decide (a.vid < b.vid ∧ Tied m (pricesOf ops) a b))).map (fun b =>
        (c, |x a.vid / a.ub - x b.vid / b.ub|)))
  | _ => []

/-- What the schedule pays for what it misses: price times amount, for all calls with a violation cost. -/
def Market.penalty (m : Market) (ops : List Op) (x : Nat → ℚ) : ℚ :=
  ((ops.flatMap (Op.misses m ops x)).map (fun p => p.1 * p.2)).sum

/-- The schedule does what all calls without a violation cost ask. -/
def Permitted (m : Market) (ops : List Op) (x : Nat → ℚ) : Prop := ∀ op ∈ ops, op.firm → op.meets m (lossesOf ops) x

/-- The schedule does what the calls without a violation cost ask, and no such schedule has a smaller sum of the cost of the dispatched
bids and of what is paid for what is missed. -/
def LeastTotal (m : Market) (ops : List Op) (ps : List BidRow) (x : Nat → ℚ) : Prop :=
  Permitted m ops x ∧ ∀ y, Permitted m ops y → m.costAt ps x + m.penalty ops x ≤ m.costAt ps y + m.penalty ops y

end Verif
