import Verif.Spec.Bands
import Verif.Proofs.WholeLoss

/-!
# Lemmas: what a call asks depends on results only
-/

namespace Verif

/-- `m` and `m'` agree in all that calls refer to, and the schedules have the same results -/
structure Twin (m m' : Market) (x x' : Nat → ℚ) : Prop extends SameResults m m' x x' where
  units : m'.units = m.units
  di : m'.di = m.di
  dirs : m'.dirs = m.dirs
  gUnit : m'.gUnit = m.gUnit
  gRegion : m'.gRegion = m.gRegion
  gInter : m'.gInter = m.gInter
  bidsFor : m'.bidsFor = m.bidsFor

namespace Twin

variable {m m' : Market} {x x' : Nat → ℚ}

theorem supply (h : Twin m m' x x') : m'.supply x' = m.supply x := by
  funext r s; unfold Market.supply; rw [h.dispatched, h.units]

theorem netImport (h : Twin m m' x x') : m'.netImport x' = m.netImport x := by
  funext r; unfold Market.netImport; rw [h.flow, h.dirs]

theorem chargedLoss (h : Twin m m' x x') : m'.chargedLoss x' = m.chargedLoss x := by
  funext fs r; unfold Market.chargedLoss; rw [h.linkLoss, h.dirs]

theorem setSupply (h : Twin m m' x x') : m'.setSupply x' = m.setSupply x := by
  funext rs t; unfold Market.setSupply; rw [h.supply]

theorem bidi (h : Twin m m' x x') : m'.bidi = m.bidi := by unfold Market.bidi; rw [h.units]

theorem linked (h : Twin m m' x x') : m'.linked x' = m.linked x := by
  funext t
  unfold Market.linked Market.unitTotal Market.regionTotal Market.interTotal
  rw [h.dispatched, h.flow, h.gUnit, h.gRegion, h.gInter, h.units, h.dirs, h.bidi]

theorem lists (h : Twin m m' x x') : m'.lists = m.lists := by funext u d; unfold Market.lists; rw [h.units]

theorem hasSupply (h : Twin m m' x x') : m'.hasSupply = m.hasSupply := by
  funext r s; unfold Market.hasSupply; rw [h.units, h.bidsFor]

theorem hasLink (h : Twin m m' x x') : m'.hasLink = m.hasLink := by funext r; unfold Market.hasLink; rw [h.dirs]

theorem hasLinked (h : Twin m m' x x') : m'.hasLinked = m.hasLinked := by
  funext t; unfold Market.hasLinked; rw [h.gUnit, h.gRegion, h.gInter, h.lists, h.bidsFor, h.hasSupply, h.dirs]

theorem output (h : Twin m m' x x') : m'.output x' = m.output x := by
  funext u s d; unfold Market.output; rw [h.units, h.dispatched]

theorem bidding (h : Twin m m' x x') : m'.bidding = m.bidding := by
  funext u s d
  rw [Bool.eq_iff_iff]
  have : ∀ a : Market, a.bidding u s d = true ↔ a.bidsFor u s d := by
    intro a; simp [Market.bidding, Market.bidsFor, List.any_eq_true]
  rw [this, this, h.bidsFor]

theorem netOutput (h : Twin m m' x x') : m'.netOutput x' = m.netOutput x := by
  funext u; unfold Market.netOutput; rw [h.dispatched]

theorem sideEnergy (h : Twin m m' x x') : m'.sideEnergy x' = m.sideEnergy x := by
  funext u d; unfold Market.sideEnergy; rw [h.output, h.bidi]

theorem position (h : Twin m m' x x') : m'.position x' = m.position x := by
  funext u d; unfold Market.position; rw [h.output, h.netOutput, h.bidi]

theorem regulation (h : Twin m m' x x') : m'.regulation x' = m.regulation x := by
  funext u s d; unfold Market.regulation; rw [h.output, h.dispatched, h.bidi]

theorem regEnergy (h : Twin m m' x x') : m'.regEnergy x' = m.regEnergy x := by
  funext u s; unfold Market.regEnergy; rw [h.dispatched, h.bidding]

theorem inTrap (h : Twin m m' x x') : m'.inTrap = m.inTrap := by
  funext t s; unfold Market.inTrap; rw [h.bidsFor, h.bidi]

theorem sides (h : Twin m m' x x') (g l : RampRow) : m'.sides g l ↔ m.sides g l := by
  unfold Market.sides; rw [h.bidi]

theorem meets (h : Twin m m' x x') {fs : List LossFn} {op : Op} (hb : op.isBid = false) : op.meets m' fs x' ↔ op.meets m fs x := by
  cases op with
  | volumeBids b => cases hb
  | _ => simp only [Op.meets, h.dispatched, h.flow, h.linkLoss, h.supply, h.netImport, h.chargedLoss, h.setSupply, h.linked, h.lists,
      h.bidsFor, h.hasSupply, h.hasLink, h.hasLinked, h.di, h.dirs, h.netOutput,
      h.sides, h.bidi, h.output, h.sideEnergy, h.position, h.regulation, h.inTrap, h.regEnergy]

theorem misses (h : Twin m m' x x') {os os' : List Op} (hl : lossesOf os' = lossesOf os) {op : Op} (ht : ∀ c, op ≠ .tieBreak c) :
    op.misses m' os' x' = op.misses m os x := by
  unfold Op.misses
  split <;> first | exact absurd rfl (ht _) | simp only [hl, h.output, h.supply, h.netImport, h.chargedLoss, h.setSupply, h.linked, h.di, h.units, h.bidding,
    h.netOutput, h.sides, h.bidi, h.sideEnergy, h.position, h.regulation, h.regEnergy, h.dispatched]

end Twin

end Verif
