import Verif.Spec.Replace
import Verif.Spec.Order

/-!
# Specification: the order of the rows of tables

When two calls are given the same tables with the rows in another order, and when two markets dispatch the same up to the order
of the rows of the reported tables.
-/

namespace Verif

/-- The same table of violation costs, or the same number. -/
def VCost.sameRows : VCost → VCost → Prop
  | .num c, .num c' => c = c'
  | .table t, .table t' => t.Perm t'
  | _, _ => False

/-- Both arguments are missing or both are given and the same up to `r`. -/
def optSame {α : Type} (r : α → α → Prop) : Option α → Option α → Prop
  | none, none => True
  | some a, some b => r a b
  | _, _ => False

/-- The same call, with the rows of each of its tables in any order. -/
def Op.sameRows : Op → Op → Prop
  | .volumeBids b, .volumeBids b' => b.Perm b'
  | .priceBids b, .priceBids b' => b.Perm b'
  | .capacity l vc, .capacity l' vc' => l.Perm l' ∧ optSame VCost.sameRows vc vc'
  | .uigf l vc, .uigf l' vc' => l.Perm l' ∧ optSame VCost.sameRows vc vc'
  | .rampRates r sc ps rt vc, .rampRates r' sc' ps' rt' vc' =>
      r.Perm r' ∧ optSame List.Perm sc sc' ∧ optSame List.Perm ps ps' ∧ rt = rt' ∧ optSame VCost.sameRows vc vc'
  | .fastStart p vc, .fastStart p' vc' => p.Perm p' ∧ optSame VCost.sameRows vc vc'
  | .removeFastStart, .removeFastStart => True
  | .demand d vc, .demand d' vc' => d.Perm d' ∧ optSame VCost.sameRows vc vc'
  | .fcasReq r vc, .fcasReq r' vc' => r.Perm r' ∧ optSame VCost.sameRows vc vc'
  | .fcasMaxAvail l vc, .fcasMaxAvail l' vc' => l.Perm l' ∧ optSame VCost.sameRows vc vc'
  | .jointRamping r ps rt vc, .jointRamping r' ps' rt' vc' =>
      r.Perm r' ∧ optSame List.Perm ps ps' ∧ rt = rt' ∧ optSame VCost.sameRows vc vc'
  | .jointCapacity t vc, .jointCapacity t' vc' => t.Perm t' ∧ optSame VCost.sameRows vc vc'
  | .energyReg t vc, .energyReg t' vc' => t.Perm t' ∧ optSame VCost.sameRows vc vc'
  | .interconnectors d, .interconnectors d' => d.Perm d'
  | .losses f b, .losses f' b' => f.Perm f' ∧ b.Perm b'
  | .generic g vc, .generic g' vc' => g.Perm g' ∧ optSame VCost.sameRows vc vc'
  | .linkUnits g, .linkUnits g' => g.Perm g'
  | .linkRegions g, .linkRegions g' => g.Perm g'
  | .linkInters g, .linkInters g' => g.Perm g'
  | .elastic k c, .elastic k' c' => k = k' ∧ c.sameRows c'
  | .tieBreak c, .tieBreak c' => c = c'
  | _, _ => False

/-- The calls considered: all rows of an FCAS requirement set have the same volume and type, loss functions are given for all links
that are defined, and tie-break constraints are set for markets without bidirectional units in which no unit has two energy bids in
the same band. -/
def Op.orderFree (m : Market) : Op → Prop
  | .fcasReq r _ => ∀ a ∈ r, ∀ b ∈ r, a.set = b.set → a.volume = b.volume ∧ a.ctype = b.ctype
  | .losses f _ => ∀ v ∈ m.inters.getD [], ∃ l ∈ f, l.inter = v.inter ∧ l.link = v.link
  | .tieBreak _ => (m.units.map UnitInfo.unit).Nodup ∧
      (((m.bidCost.getD []).filter (fun c => decide (c.service = .energy))).map (fun c => (c.unit, c.band))).Nodup
  | _ => True

/-- All calls of a history are of this kind. -/
def OrderFree : Market → List Op → Prop
  | _, [] => True
  | m, op :: ops => op.orderFree m ∧ OrderFree (m.step op).1 ops

/-- The same exception, or tables with the same rows in any order. -/
def resSame {α : Type} : Except Err (List α) → Except Err (List α) → Prop
  | .ok l, .ok l' => l.Perm l'
  | .error e, .error e' => e = e'
  | _, _ => False

/-- The same report up to the order of the rows of its tables. -/
structure Report.same (r r' : Report) : Prop where
  cost : r'.cost = r.cost
  units : resSame r.units r'.units
  flows : resSame r.flows r'.flows
  regions : resSame r.regions r'.regions
  violation : ∀ k, r'.violation k = r.violation k

/-- Whatever the market `m` may report is reported by `m'` up to the order of rows: if the program of `m` can be built then that
of `m'`, any report on a feasible (optimal) solution of the first is the report on a feasible (optimal) solution of the second,
and the same prices can go with it. -/
structure ReportedBy (m m' : Market) : Prop where
  builds : (∃ lp, m.assemble = .ok lp) → ∃ lp, m'.assemble = .ok lp
  feasible : ∀ lp x, m.assemble = .ok lp → Feasible lp x → ∃ lp' x', m'.assemble = .ok lp' ∧ Feasible lp' x' ∧
    (m.report lp x).same (m'.report lp' x')
  optimal : ∀ lp x, m.assemble = .ok lp → Optimal lp x → ∃ lp' x', m'.assemble = .ok lp' ∧ Optimal lp' x' ∧
    (m.report lp x).same (m'.report lp' x')
  prices : ∀ r energy fcas, m.canPrice r energy fcas → ∃ r' energy' fcas', m'.canPrice r' energy' fcas' ∧ r.same r' ∧
    resSame energy energy' ∧ resSame fcas fcas'

/-- Two markets dispatch the same up to the order of the rows of the reported tables. -/
def SameDispatch (m m' : Market) : Prop := ReportedBy m m' ∧ ReportedBy m' m

end Verif
