import Verif.Spec.RowOrder

/-!
# Specification: other names

The same inputs with other names of units, regions, interconnectors, links and constraint sets, and when two markets dispatch the
same up to names and the order of the rows of the reported tables.
-/

namespace Verif

/-- New names of units, of regions, of interconnectors and links, and of constraint sets; different names stay different. -/
structure Names where
  unit : String → String
  region : String → String
  inter : String → String
  set : String → String
  unit_inj : Function.Injective unit
  region_inj : Function.Injective region
  inter_inj : Function.Injective inter
  set_inj : Function.Injective set

section
variable (ρ : Names)

/-! ### Tables given to the market -/

def UnitInfo.named (u : UnitInfo) : UnitInfo := { u with unit := ρ.unit u.unit, region := ρ.region u.region }
def BidRow.named (b : BidRow) : BidRow := { b with unit := ρ.unit b.unit }
def Lim.named (l : Lim) : Lim := { l with unit := ρ.unit l.unit }
def RampRow.named (r : RampRow) : RampRow := { r with unit := ρ.unit r.unit }
def Scada.named (r : Scada) : Scada := { r with unit := ρ.unit r.unit }
def FsRamp.named (r : FsRamp) : FsRamp := { r with unit := ρ.unit r.unit }
def FsInput.named (r : FsInput) : FsInput := { r with unit := ρ.unit r.unit }
def Trap.named (t : Trap) : Trap := { t with unit := ρ.unit t.unit }
def Demand.named (d : Demand) : Demand := { d with region := ρ.region d.region }
def FcasReq.named (r : FcasReq) : FcasReq := { r with set := ρ.set r.set, region := ρ.region r.region }
def InterDef.named (d : InterDef) : InterDef :=
  { d with inter := ρ.inter d.inter, link := ρ.inter d.link, toR := ρ.region d.toR, fromR := ρ.region d.fromR }
def LossFn.named (f : LossFn) : LossFn := { f with inter := ρ.inter f.inter, link := ρ.inter f.link }
def BreakPt.named (b : BreakPt) : BreakPt := { b with inter := ρ.inter b.inter, link := ρ.inter b.link }
def GenericRow.named (g : GenericRow) : GenericRow := { g with set := ρ.set g.set }
def GUnit.named (g : GUnit) : GUnit := { g with set := ρ.set g.set, unit := ρ.unit g.unit }
def GRegion.named (g : GRegion) : GRegion := { g with set := ρ.set g.set, region := ρ.region g.region }
def GInter.named (g : GInter) : GInter := { g with set := ρ.set g.set, inter := ρ.inter g.inter }

/-- Violation costs by set. -/
def VCost.named : VCost → VCost
  | .num c => .num c
  | .table t => .table (t.map (fun e => (ρ.set e.1, e.2)))

/-- The same call with other names.  Names of bid bands and of the kinds of constraints (`make_constraints_elastic`) stay. -/
def Op.named : Op → Op
  | .volumeBids b => .volumeBids (b.map (BidRow.named ρ))
  | .priceBids b => .priceBids (b.map (BidRow.named ρ))
  | .capacity l vc => .capacity (l.map (Lim.named ρ)) (vc.map (VCost.named ρ))
  | .uigf l vc => .uigf (l.map (Lim.named ρ)) (vc.map (VCost.named ρ))
  | .rampRates r sc ps rt vc => .rampRates (r.map (RampRow.named ρ)) (sc.map (List.map (Scada.named ρ)))
      (ps.map (List.map (FsRamp.named ρ))) rt (vc.map (VCost.named ρ))
  | .fastStart p vc => .fastStart (p.map (FsInput.named ρ)) (vc.map (VCost.named ρ))
  | .removeFastStart => .removeFastStart
  | .demand d vc => .demand (d.map (Demand.named ρ)) (vc.map (VCost.named ρ))
  | .fcasReq r vc => .fcasReq (r.map (FcasReq.named ρ)) (vc.map (VCost.named ρ))
  | .fcasMaxAvail l vc => .fcasMaxAvail (l.map (Lim.named ρ)) (vc.map (VCost.named ρ))
  | .jointRamping r ps rt vc => .jointRamping (r.map (RampRow.named ρ)) (ps.map (List.map (FsRamp.named ρ))) rt (vc.map (VCost.named ρ))
  | .jointCapacity t vc => .jointCapacity (t.map (Trap.named ρ)) (vc.map (VCost.named ρ))
  | .energyReg t vc => .energyReg (t.map (Trap.named ρ)) (vc.map (VCost.named ρ))
  | .interconnectors d => .interconnectors (d.map (InterDef.named ρ))
  | .losses f b => .losses (f.map (LossFn.named ρ)) (b.map (BreakPt.named ρ))
  | .generic g vc => .generic (g.map (GenericRow.named ρ)) (vc.map (VCost.named ρ))
  | .linkUnits g => .linkUnits (g.map (GUnit.named ρ))
  | .linkRegions g => .linkRegions (g.map (GRegion.named ρ))
  | .linkInters g => .linkInters (g.map (GInter.named ρ))
  | .elastic k c => .elastic k (c.named ρ)
  | .tieBreak c => .tieBreak c

/-! ### Tables reported -/

def DispatchRow.named (r : DispatchRow) : DispatchRow := { r with unit := ρ.unit r.unit }
def FlowRow.named (r : FlowRow) : FlowRow := { r with inter := ρ.inter r.inter, link := ρ.inter r.link }
def SummaryRow.named (r : SummaryRow) : SummaryRow := { r with region := ρ.region r.region }

/-- A report with other names. -/
def Report.named (r : Report) : Report :=
  { r with units := r.units.map (List.map (DispatchRow.named ρ)), flows := r.flows.map (List.map (FlowRow.named ρ)),
           regions := r.regions.map (List.map (SummaryRow.named ρ)) }

/-- Energy prices with other names of regions. -/
def energyNamed (t : Except Err (List (String × ℚ))) : Except Err (List (String × ℚ)) := t.map (List.map (fun e => (ρ.region e.1, e.2)))

/-- FCAS prices with other names of regions. -/
def fcasNamed (t : Except Err (List ((String × Service) × ℚ))) : Except Err (List ((String × Service) × ℚ)) :=
  t.map (List.map (fun e => ((ρ.region e.1.1, e.1.2), e.2)))

/-- `m'` dispatches like `m` with other names: a program can be built for both or for neither; any report on a feasible (optimal)
solution of `m`, with the new names, is up to the order of rows the report on a feasible (optimal) solution of `m'`, and the same
prices can go with it; and conversely. -/
structure SameButNames (m m' : Market) : Prop where
  builds : (∃ lp, m.assemble = .ok lp) ↔ ∃ lp, m'.assemble = .ok lp
  feasible : ∀ lp x, m.assemble = .ok lp → Feasible lp x → ∃ lp' x', m'.assemble = .ok lp' ∧ Feasible lp' x' ∧
    ((m.report lp x).named ρ).same (m'.report lp' x')
  feasible_back : ∀ lp' x', m'.assemble = .ok lp' → Feasible lp' x' → ∃ lp x, m.assemble = .ok lp ∧ Feasible lp x ∧
    ((m.report lp x).named ρ).same (m'.report lp' x')
  optimal : ∀ lp x, m.assemble = .ok lp → Optimal lp x → ∃ lp' x', m'.assemble = .ok lp' ∧ Optimal lp' x' ∧
    ((m.report lp x).named ρ).same (m'.report lp' x')
  optimal_back : ∀ lp' x', m'.assemble = .ok lp' → Optimal lp' x' → ∃ lp x, m.assemble = .ok lp ∧ Optimal lp x ∧
    ((m.report lp x).named ρ).same (m'.report lp' x')
  prices : ∀ r energy fcas, m.canPrice r energy fcas → ∃ r' energy' fcas', m'.canPrice r' energy' fcas' ∧ (r.named ρ).same r' ∧
    resSame (energyNamed ρ energy) energy' ∧ resSame (fcasNamed ρ fcas) fcas'
  prices_back : ∀ r' energy' fcas', m'.canPrice r' energy' fcas' → ∃ r energy fcas, m.canPrice r energy fcas ∧ (r.named ρ).same r' ∧
    resSame (energyNamed ρ energy) energy' ∧ resSame (fcasNamed ρ fcas) fcas'

end

/-- The calls considered: no tie-break constraints, and loss functions are given for all links that are defined. -/
def Op.nameFree (m : Market) : Op → Prop
  | .losses f _ => ∀ v ∈ m.inters.getD [], ∃ l ∈ f, l.inter = v.inter ∧ l.link = v.link
  | .tieBreak _ => False
  | _ => True

/-- All calls of a history are of this kind. -/
def NameFree : Market → List Op → Prop
  | _, [] => True
  | m, op :: ops => op.nameFree m ∧ NameFree (m.step op).1 ops

end Verif
