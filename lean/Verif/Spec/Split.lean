import Verif.Spec.Comparative

/-!
# Specification: regions that nothing connects
-/

namespace Verif

/-- The named requirement set `s` of the market constraints counts dispatch in the region `g`. -/
def Market.requires (m : Market) (s g : String) : Prop :=
  ∃ k, ∃ r ∈ (m.mktRhs.get? k).getD [], ∃ c ∈ (m.regCon.get? k).getD [], r.set = some s ∧ c.cid = r.cid ∧ c.region = g

/-- Nothing connects the regions in which `G` holds with the other regions: no unit is on both sides, no interconnector joins the two
sides, and every generic constraint and every FCAS requirement is about units, regions and interconnectors of one side. -/
structure Unconnected (m : Market) (G : String → Prop) : Prop where
  units : ∀ u ∈ m.units, ∀ u' ∈ m.units, u.unit = u'.unit → (G u.region ↔ G u'.region)
  links : ∀ d ∈ m.dirs.getD [], ∀ d' ∈ m.dirs.getD [], d.inter = d'.inter → (G d.fromR ↔ G d'.fromR) ∧ (G d.fromR ↔ G d'.toR)
  sets : ∃ side : String → Prop,
    (∀ g ∈ m.gUnit.getD [], ∀ u ∈ m.units, u.unit = g.unit → (G u.region ↔ side g.set)) ∧
    (∀ g ∈ m.gRegion.getD [], (G g.region ↔ side g.set)) ∧
    (∀ g ∈ m.gInter.getD [], ∀ d ∈ m.dirs.getD [], d.inter = g.inter → (G d.fromR ↔ side g.set)) ∧
    (∀ s g, m.requires s g → (G g ↔ side s))

/-- The unit is in a region in which `G` holds. -/
def Market.unitIn (m : Market) (G : String → Prop) (u : String) : Prop := ∃ i ∈ m.units, i.unit = u ∧ G i.region

/-- The interconnector is in the regions in which `G` holds. -/
def Market.interIn (m : Market) (G : String → Prop) (i : String) : Prop := ∃ d ∈ m.dirs.getD [], d.inter = i ∧ G d.fromR

/-- The schedules `x` and `y` agree where `H` holds: on the dispatch of every bid of units there, and on the flows of every
interconnector there. -/
def Market.agreeIn (m : Market) (H : String → Prop) (x y : Nat → ℚ) : Prop :=
  (∀ b ∈ m.bids.getD [], m.unitIn H b.unit → y b.vid = x b.vid) ∧
  (∀ v ∈ m.inters.getD [], m.interIn H v.inter → y v.vid = x v.vid)

end Verif
