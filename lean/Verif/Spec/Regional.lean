import Verif.Spec.History

/-!
# Specification: regional quantities

Supply of a region, interconnector flows and losses, and the value of the terms linked to a constraint set.
-/

namespace Verif

/-- Net supply of a service by the units of a region: the dispatch of the units listed there, energy consumption of
loads counted negative. -/
def Market.supply (m : Market) (x : Nat → ℚ) (r : String) (s : Service) : ℚ :=
  ((m.units.filter (fun u => decide (u.region = r))).map (fun u =>
    (if u.dtype = .load ∧ s = .energy then -1 else 1) * m.dispatched x u.unit s u.dtype)).sum

/-- Flow of a link: the value `get_interconnector_flows` reports, `markets.py:3416-3417`. -/
def Market.flow (m : Market) (x : Nat → ℚ) (inter link : String) : ℚ :=
  (((m.inters.getD []).filter (fun v => decide (v.inter = inter ∧ v.link = link))).map (fun v => x v.vid)).sum

/-- Energy a region receives over the links: the flow of the links to it times their to region factor, less the flow
of the links from it times their from region factor. -/
def Market.netImport (m : Market) (x : Nat → ℚ) (r : String) : ℚ :=
  ((m.dirs.getD []).map (fun d => (if d.toR = r then d.toLf * m.flow x d.inter d.link else 0) -
    (if d.fromR = r then d.fromLf * m.flow x d.inter d.link else 0))).sum

/-- Flow into a region over the links, before transmission losses. -/
def Market.inflow (m : Market) (x : Nat → ℚ) (r : String) : ℚ :=
  ((m.dirs.getD []).map (fun d => (if d.toR = r then m.flow x d.inter d.link else 0) -
    (if d.fromR = r then m.flow x d.inter d.link else 0))).sum

/-- What the summary misses by at the ends of a link in region `r`: where the flow leaves, the flow times the square of one less the loss
factor, divided by the loss factor; where it arrives at the `from` end, twice the loss. -/
def linkGap (r : String) (d : InterDef) (f : ℚ) : ℚ :=
  (if d.fromR = r then if 0 < f then f * (1 - d.fromLf) ^ 2 / d.fromLf else -2 * f * (1 - d.fromLf) else 0) +
  (if d.toR = r then if f < 0 then -f * (1 - d.toLf) ^ 2 / d.toLf else 0 else 0)

/-- Loss of a link: the value `get_interconnector_flows` reports as losses, `markets.py:3419-3422`. -/
def Market.linkLoss (m : Market) (x : Nat → ℚ) (inter link : String) : ℚ :=
  (((m.losses.getD []).filter (fun v => decide (v.inter = inter ∧ v.link = link))).map (fun v => x v.vid)).sum

/-- Part of the loss of a link that is charged to region `r`. -/
def lossCharge (fromR toR : String) (share loss : ℚ) (r : String) : ℚ :=
  if r = fromR then share * loss else if r = toR then (1 - share) * loss else 0

/-- Losses charged to a region: over all links with a loss function, the from region pays its share and the to
region the rest. -/
def Market.chargedLoss (m : Market) (x : Nat → ℚ) (fs : List LossFn) (r : String) : ℚ :=
  ((m.dirs.getD []).map (fun d => ((fs.filter (fun f => decide (f.inter = d.inter ∧ f.link = d.link))).map (fun f =>
    lossCharge d.fromR d.toR f.share (m.linkLoss x d.inter d.link) r)).sum)).sum

/-- Dispatch of a unit for a service over its dispatch types, the energy of the load side of a bidirectional unit
counted negative. -/
def Market.unitTotal (m : Market) (x : Nat → ℚ) (u : String) (s : Service) : ℚ :=
  ((m.units.filter (fun i => decide (i.unit = u))).map (fun i =>
    (if u ∈ m.bidi ∧ s = .energy ∧ i.dtype = .load then -1 else 1) * m.dispatched x u s i.dtype)).sum

/-- Dispatch of all units of a region for a service, loads counted positive. -/
def Market.regionTotal (m : Market) (x : Nat → ℚ) (r : String) (s : Service) : ℚ :=
  ((m.units.filter (fun u => decide (u.region = r))).map (fun u => m.dispatched x u.unit s u.dtype)).sum

/-- Flow of an interconnector: the flows of its links times their generic constraint factors. -/
def Market.interTotal (m : Market) (x : Nat → ℚ) (i : String) : ℚ :=
  (((m.dirs.getD []).filter (fun d => decide (d.inter = i))).map (fun d => d.gcf * m.flow x d.inter d.link)).sum

/-- Value of all terms linked to a constraint set by `link_units_to_generic_constraints`,
`link_regions_to_generic_constraints` and `link_interconnectors_to_generic_constraints`. -/
def Market.linked (m : Market) (x : Nat → ℚ) (set : String) : ℚ :=
  (((m.gUnit.getD []).filter (fun g => decide (g.set = set))).map (fun g => g.coef * m.unitTotal x g.unit g.service)).sum +
  (((m.gRegion.getD []).filter (fun g => decide (g.set = set))).map (fun g => g.coef * m.regionTotal x g.region g.service)).sum +
  (((m.gInter.getD []).filter (fun g => decide (g.set = set))).map (fun g => g.coef * m.interTotal x g.inter)).sum

/-- Some listed unit of the region bids for the service. -/
def Market.hasSupply (m : Market) (r : String) (s : Service) : Prop :=
  ∃ u ∈ m.units, u.region = r ∧ m.bidsFor u.unit s u.dtype

/-- Some link starts or ends in the region. -/
def Market.hasLink (m : Market) (r : String) : Prop := ∃ d ∈ m.dirs.getD [], d.toR = r ∨ d.fromR = r

/-- Something that can be dispatched is linked to the set. -/
def Market.hasLinked (m : Market) (set : String) : Prop :=
  (∃ g ∈ m.gUnit.getD [], g.set = set ∧ ∃ d, m.lists g.unit d ∧ m.bidsFor g.unit g.service d) ∨
  (∃ g ∈ m.gRegion.getD [], g.set = set ∧ m.hasSupply g.region g.service) ∨
  (∃ g ∈ m.gInter.getD [], g.set = set ∧ ∃ d ∈ m.dirs.getD [], d.inter = g.inter)

/-- No call about interconnector losses was made. -/
def NoLosses (m : Market) : Prop :=
  ∃ (regions : List String) (units : List UnitInfo) (di : ℚ) (m0 : Market) (ops : List Op),
    Market.init regions units di = .ok m0 ∧ Benign m0 ops ∧ (∀ o ∈ ops, Part.set .interpWeights ∉ o.parts) ∧ m = m0.run ops

/-- The loss functions of the market are `fs`: either no call about losses was made and `fs` is empty, or the last
one was `set_interconnector_losses` with `fs`, after the last definition of interconnectors. -/
def LossFunctions (fs : List LossFn) (m : Market) : Prop :=
  (fs = [] ∧ NoLosses m) ∨ ∃ bs, InForceKeeping [.inters] (.losses fs bs) m

/-- Links with a loss function join two different regions. -/
def Market.properLinks (m : Market) (fs : List LossFn) : Prop :=
  ∀ d ∈ m.dirs.getD [], ∀ f ∈ fs, f.inter = d.inter → f.link = d.link → d.fromR ≠ d.toR

/-- `r` is the first row of its set. -/
def FirstOfSet (rs : List FcasReq) (r : FcasReq) : Prop :=
  ∃ pre post, rs = pre ++ r :: post ∧ ∀ q ∈ pre, q.set ≠ r.set

/-- Total supply of the regions and services of a requirement set. -/
def Market.setSupply (m : Market) (x : Nat → ℚ) (rs : List FcasReq) (set : String) : ℚ :=
  ((rs.filter (fun q => decide (q.set = set))).map (fun q => m.supply x q.region q.service)).sum

end Verif
