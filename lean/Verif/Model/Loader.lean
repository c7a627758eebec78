import Verif.Model.XmlCache
import Verif.Model.MmsDb

/-!
# The loader of raw inputs, `historical_inputs/loaders.py`

One object in front of the NEMDE files and the historical database.
-/

namespace Verif.Xml

open Verif Verif.Mms

/-- `mms_db.py:120-200` (`DBManager.__init__`): the tables the loader reads.  Ids are the primary key without date and version.
`τ` is the type of dates as text. -/
structure Tables (τ β : Type) where
  /-- `DUDETAILSUMMARY` -/
  units : List (SpanRow τ String β)
  /-- `DISPATCHLOAD` -/
  load : List (DispRow τ String β)
  /-- `DISPATCHREGIONSUM` -/
  regions : List (DispRow τ String β)
  /-- `DISPATCHINTERCONNECTORRES` -/
  flows : List (DispRow τ String β)
  /-- `MNSP_INTERCONNECTOR` -/
  links : List (EffRow τ (String × String) β)
  /-- `INTERCONNECTORCONSTRAINT` -/
  parameters : List (EffRow τ String β)
  /-- `LOSSMODEL` -/
  segments : List (EffRow τ String β)
  /-- `LOSSFACTORMODEL` -/
  factors : List (EffRow τ String β)
  /-- `INTERCONNECTOR` -/
  definitions : List β

/-- `loaders.py:48-51`: the two managers and the interval.  The managers may be used by others between calls of the loader, which
is not modelled. -/
structure Loader (τ β ρ ξ : Type) where
  xml : Manager ρ ξ
  db : Tables τ β
  interval : Option Time

section
variable {τ β ρ ξ : Type}

/-- `loaders.py:48-51` (`RawInputsLoader.__init__`) -/
def newLoader (xml : Manager ρ ξ) (db : Tables τ β) : Loader τ β ρ ξ := ⟨xml, db, none⟩

/-- `loaders.py:53-69` (`set_interval`): the interval is stored before the file is looked for. -/
def setInterval (parse : ρ → Option ξ) (l : Loader τ β ρ ξ) (t : Time) (net : Attempt ρ × Attempt ρ) :
    Loader τ β ρ ξ × Option XErr :=
  ({ l with xml := (load parse l.xml t net).1, interval := some t }, (load parse l.xml t net).2)

/-- Calls of `set_interval`, each with what the network gives at that time.  An exception is caught by the caller, who goes on. -/
def setIntervals (parse : ρ → Option ξ) (l : Loader τ β ρ ξ) (ts : List (Time × (Attempt ρ × Attempt ρ))) : Loader τ β ρ ξ :=
  ts.foldl (fun l t => (setInterval parse l t.1 t.2).1) l

/-- `loaders.py:71-86`, `98-136`, `143-146`, `173-176`: methods that read the NEMDE file (`get_unit_volume_bids`, `get_unit_price_bids`,
`get_constraint_rhs`, ...) hand the question `get` on to the XML manager.  Without a file they raise. -/
def Loader.file {α : Type} (l : Loader τ β ρ ξ) (get : ξ → α) : Option α := l.xml.xml.map get

/-- A query for `self.interval`.  `None`, before the first `set_interval`, makes no query. -/
def Loader.query {α : Type} (text : Time → τ) (l : Loader τ β ρ ξ) (q : Tables τ β → τ → α) : Option α :=
  l.interval.map (fun t => q l.db (text t))

variable [LinearOrder τ]

/-- `loaders.py:88-91` (`get_unit_details`), `mms_db.py:1030-1104` -/
def Loader.unitDetails (text : Time → τ) (sort : List (SpanRow τ String β) → List (SpanRow τ String β))
    (l : Loader τ β ρ ξ) : Option (List (SpanRow τ String β)) :=
  l.query text (fun d t => byStart sort d.units t)

/-- `loaders.py:93-96` (`get_agc_enablement_limits`), `mms_db.py:813-867` -/
def Loader.agcLimits (text : Time → τ) (l : Loader τ β ρ ξ) : Option (List (DispRow τ String β)) :=
  l.query text (fun d t => bySettlementDate d.load t)

/-- `loaders.py:138-141` (`get_market_interconnectors`), `mms_db.py:1330-1433` -/
def Loader.marketInterconnectors (text : Time → τ) (l : Loader τ β ρ ξ) : Option (List (EffRow τ (String × String) β)) :=
  l.query text (fun d t => byEffectiveDate d.links t)

/-- `loaders.py:148-151` (`get_interconnector_constraint_parameters`), `mms_db.py:1205-1321` -/
def Loader.interconnectorParameters (text : Time → τ) (l : Loader τ β ρ ξ) : Option (List (EffRow τ String β)) :=
  l.query text (fun d t => byEffectiveDateAndDispatch d.parameters d.flows t)

/-- `loaders.py:153-156` (`get_interconnector_definitions`), `mms_db.py:1442-1490` (`InputsNoFilter.get_data`): all rows -/
def Loader.interconnectorDefinitions (l : Loader τ β ρ ξ) : List β := l.db.definitions

/-- `loaders.py:158-161` (`get_regional_loads`), `mms_db.py:813-867` -/
def Loader.regionalLoads (text : Time → τ) (l : Loader τ β ρ ξ) : Option (List (DispRow τ String β)) :=
  l.query text (fun d t => bySettlementDate d.regions t)

/-- `loaders.py:163-166` (`get_interconnector_loss_segments`), `mms_db.py:1205-1321` -/
def Loader.lossSegments (text : Time → τ) (l : Loader τ β ρ ξ) : Option (List (EffRow τ String β)) :=
  l.query text (fun d t => byEffectiveDateAndDispatch d.segments d.flows t)

/-- `loaders.py:168-171` (`get_interconnector_loss_parameters`), `mms_db.py:1205-1321` -/
def Loader.lossParameters (text : Time → τ) (l : Loader τ β ρ ξ) : Option (List (EffRow τ String β)) :=
  l.query text (fun d t => byEffectiveDateAndDispatch d.factors d.flows t)

end

end Verif.Xml
