import Verif.Model.Loader
import Verif.Props.XmlCache
import Verif.Props.MmsDays

/-!
# The loader of raw inputs

* **C111** after `set_interval` has returned, all inputs are those of that interval.
-/

namespace Verif.Xml

open Verif Verif.Mms

variable {τ β ρ ξ : Type}

theorem setIntervals_db (parse : ρ → Option ξ) (l : Loader τ β ρ ξ) (ts : List (Time × (Attempt ρ × Attempt ρ))) :
    (setIntervals parse l ts).db = l.db := by
  unfold setIntervals
  induction ts generalizing l with
  | nil => rfl
  | cons t ts ih => exact ih _

/-- **C111** Whatever intervals were asked for before, with or without exceptions: once `set_interval` returns, every method that
reads the NEMDE file answers from the file of that interval in the folder.  (Not so after an exception, see
`C111_exception_negation`.) -/
theorem C111_file_partial (parse : ρ → Option ξ) (l l' : Loader τ β ρ ξ) (ts : List (Time × (Attempt ρ × Attempt ρ))) (t : Time)
    (net : Attempt ρ × Attempt ρ) (h : setInterval parse (setIntervals parse l ts) t net = (l', none)) :
    ∃ raw x, Available l'.xml.cache t raw ∧ parse raw = some x ∧
      ∀ (α : Type) (get : ξ → α), l'.file get = some (get x) := by
  unfold setInterval at h
  obtain ⟨h1, h2⟩ := Prod.mk.inj h
  obtain ⟨h3, raw, h4, h5, h6⟩ := C71_loaded parse (setIntervals parse l ts).xml _ t net (Prod.ext rfl h2)
  subst h1
  obtain ⟨x, hx⟩ := Option.isSome_iff_exists.1 h6
  refine ⟨raw, x, h4, by rw [← h5, hx], fun α get => ?_⟩
  unfold Loader.file
  dsimp only
  rw [hx]
  rfl

/-- **C111** And every method that reads the database answers for that interval: units as last started, dispatch results of the
time, versions in effect at the time, of the interconnectors that were dispatched then. -/
theorem C111_database_partial [LinearOrder τ] (parse : ρ → Option ξ) (text : Time → τ)
    (sort : List (SpanRow τ String β) → List (SpanRow τ String β))
    (hs : ∀ l, (sort l).Perm l ∧ (sort l).Pairwise (fun a b => a.start ≤ b.start))
    (l l' : Loader τ β ρ ξ) (ts : List (Time × (Attempt ρ × Attempt ρ))) (t : Time) (net : Attempt ρ × Attempt ρ)
    (hn : (l.db.units.map (fun r => (r.id, r.start))).Nodup) (hf : (l.db.flows.map DispRow.key).Nodup)
    (h : setInterval parse (setIntervals parse l ts) t net = (l', none)) :
    (∃ rows, l'.unitDetails text sort = some rows ∧
      rows.Perm (l.db.units.filter (fun r => decide (LastStarted l.db.units (text t) r)))) ∧
    l'.agcLimits text = some (l.db.load.filter (fun r => decide (r.time = text t))) ∧
    l'.regionalLoads text = some (l.db.regions.filter (fun r => decide (r.time = text t))) ∧
    l'.marketInterconnectors text = some (l.db.links.filter (fun r => decide (InEffect l.db.links (text t) r))) ∧
    l'.interconnectorParameters text = some (l.db.parameters.filter (fun r =>
      decide (InEffect l.db.parameters (text t) r ∧ ∃ d ∈ l.db.flows, d.time = text t ∧ d.id = r.id))) ∧
    l'.lossSegments text = some (l.db.segments.filter (fun r =>
      decide (InEffect l.db.segments (text t) r ∧ ∃ d ∈ l.db.flows, d.time = text t ∧ d.id = r.id))) ∧
    l'.lossParameters text = some (l.db.factors.filter (fun r =>
      decide (InEffect l.db.factors (text t) r ∧ ∃ d ∈ l.db.flows, d.time = text t ∧ d.id = r.id))) ∧
    l'.interconnectorDefinitions = l.db.definitions := by
  unfold setInterval at h
  obtain ⟨h1, -⟩ := Prod.mk.inj h
  have hd := setIntervals_db parse l ts
  subst h1
  unfold Loader.unitDetails Loader.agcLimits Loader.regionalLoads Loader.marketInterconnectors
    Loader.interconnectorParameters Loader.lossSegments Loader.lossParameters Loader.interconnectorDefinitions Loader.query
  dsimp only
  rw [hd]
  simp only [Option.map_some]
  refine ⟨⟨_, rfl, C67_last_started_partial sort hs _ _ hn⟩, rfl, rfl, ?_, ?_, ?_, ?_, trivial⟩
  · rw [C66_effective]
  · rw [C66_dispatched _ _ _ hf]
  · rw [C66_dispatched _ _ _ hf]
  · rw [C66_dispatched _ _ _ hf]

/-- **C111** A caller who repeats `set_interval` for an interval in the folder gets the same inputs, whatever was asked for in
between. -/
theorem C111_repeat (parse : ρ → Option ξ) (l : Loader τ β ρ ξ) (ts : List (Time × (Attempt ρ × Attempt ρ))) (t : Time)
    (net net' : Attempt ρ × Attempt ρ) (raw : ρ) (x : ξ) (ha : Available (setIntervals parse l ts).xml.cache t raw)
    (hp : parse raw = some x) :
    setInterval parse (setIntervals parse l ts) t net = setInterval parse (setIntervals parse l ts) t net' ∧
    (setInterval parse (setIntervals parse l ts) t net).2 = none ∧
    ∀ (α : Type) (get : ξ → α), (setInterval parse (setIntervals parse l ts) t net).1.file get = some (get x) := by
  obtain ⟨h1, h2, h3⟩ := C71_offline parse (setIntervals parse l ts).xml t net net' raw ha
  have h4 := h3.2 (by rw [hp]; rfl)
  have h5 : (setInterval parse (setIntervals parse l ts) t net).2 = none := h4
  refine ⟨?_, h5, fun α get => ?_⟩
  · unfold setInterval
    rw [h1]
  · obtain ⟨raw', x', h6, h7, h8⟩ := C111_file_partial parse l _ ts t net (Prod.ext rfl h5)
    rw [h8]
    have hc : (setInterval parse (setIntervals parse l ts) t net).1.xml.cache = (setIntervals parse l ts).xml.cache := h2
    rw [hc] at h6
    have he : raw' = raw := by
      rcases h6 with h6 | ⟨h6, h6'⟩ <;> rcases ha with ha | ⟨ha, ha'⟩
      · rw [h6] at ha
        exact Option.some.inj ha
      · rw [h6] at ha
        simp at ha
      · rw [h6] at ha
        simp at ha
      · rw [h6'] at ha'
        exact Option.some.inj ha'
    rw [he, hp] at h7
    rw [Option.some.inj h7]

/-- Two intervals of demand for the examples -/
def demoTables : Tables ℕ ℕ :=
  { units := [⟨"A", 0, 9000, 1⟩, ⟨"A", 700, 9000, 2⟩], load := [⟨605, "A", 3⟩], regions := [⟨605, "NSW1", 50⟩, ⟨610, "NSW1", 60⟩],
    flows := [⟨605, "I", 0⟩], links := [⟨("I", "L"), 0, 1, 4⟩], parameters := [⟨"I", 0, 1, 5⟩, ⟨"J", 0, 1, 6⟩],
    segments := [⟨"I", 0, 1, 7⟩, ⟨"I", 0, 2, 8⟩], factors := [], definitions := [9] }

def demoLoader : Loader ℕ ℕ ℕ ℕ := newLoader demoManager demoTables

example : (setInterval some (setIntervals some demoLoader [(demoTime, .fails, .fails)]) demoTime (.badZip, .files demoFiles)).2 = none ∧
    ((setInterval some demoLoader demoTime (.badZip, .files demoFiles)).1.lossSegments Time.minute).map (·.map EffRow.data) =
      some [8] ∧
    ((setInterval some demoLoader demoTime (.badZip, .files demoFiles)).1.interconnectorParameters Time.minute).map
      (·.map EffRow.data) = some [5] ∧
    (demoLoader.db.units.map (fun r => (r.id, r.start))).Nodup ∧ (demoLoader.db.flows.map DispRow.key).Nodup := by decide +kernel

/-- **C111** After an exception the inputs are of two different intervals: the demand is that of the interval asked for, the bids
are still those of the interval before. -/
theorem C111_exception_negation : ∃ (l : Loader ℕ ℕ ℕ ℕ) (t0 t : Time) (net0 net : Attempt ℕ × Attempt ℕ),
    (setInterval some l t0 net0).2 = none ∧
    (setInterval some (setInterval some l t0 net0).1 t net).2 = some .missing ∧ t ≠ t0 ∧
    (setInterval some (setInterval some l t0 net0).1 t net).1.file id = (setInterval some l t0 net0).1.file id ∧
    ((setInterval some (setInterval some l t0 net0).1 t net).1.file id).isSome = true ∧
    (setInterval some (setInterval some l t0 net0).1 t net).1.regionalLoads Time.minute = some [⟨610, "NSW1", 60⟩] :=
  ⟨demoLoader, demoTime, ⟨⟨2019, 1, 1⟩, 610⟩, (.files [(demoTime.plain, 7)], .fails), (.files [], .fails), by decide +kernel⟩

end Verif.Xml
