import Verif.Model.ConstraintData
import Verif.Model.XmlPrices

/-!
# Generic constraint data of an interval, `historical_inputs/constraints.py` with the tables of the NEMDE file

The getters of `RawInputsLoader` pass the tables of `XMLCacheManager` on (`loaders.py:113-136`).
-/

namespace Verif.Cons

open Verif

/-- a row of the coefficients, `xml_cache.py:874-879`, `938-943` -/
def LhsRow.ofXml (r : Xml.LhsRow) : LhsRow := ⟨r.set, r.subject, r.service, r.coefficient⟩

/-- a row of the types, `xml_cache.py:813-816` -/
def TypeRow.ofXml (r : Xml.TypeRow) : TypeRow := ⟨r.set, r.type, r.cost⟩

/-- a row of the right hand sides, `xml_cache.py:760-768` -/
def RhsRow.ofXml (r : String × ℚ) : RhsRow := ⟨r.1, r.2⟩

/-- a row of `get_interconnector_lhs`, `xml_cache.py:995-999` -/
structure InterLhs where
  set : String
  inter : String
  coef : ℚ
  deriving DecidableEq, Repr

/-- `constraints.py:68`, `69`, `78`, `80`, `83`: the tables of the file -/
def tables (float : String → Option ℚ) (cs : List Xml.GenericConstraint) (o : Xml.SpdOutputs) :
    Except Xml.XErr (Raw × List InterLhs) := do
  let rhs ← Xml.constraintRhs float o
  let types ← Xml.constraintTypes float cs
  let units ← Xml.unitLhs float cs
  let regions ← Xml.regionLhs float cs
  let inters ← Xml.interLhs float cs
  return (⟨rhs.map RhsRow.ofXml, types.map TypeRow.ofXml, units.map LhsRow.ofXml, regions.map LhsRow.ofXml⟩,
    inters.map (fun r => ⟨r.set, r.subject, r.coefficient⟩))

end Verif.Cons
