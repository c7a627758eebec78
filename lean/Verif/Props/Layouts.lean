import Verif.Spec.Layouts
import Verif.Props.Validator

/-!
# C127: which tables each call takes

`f.Regular` says that the column names are unique and all columns have as many cells as the frame has rows.
-/

namespace Verif.Validator

/-- the schema of a rule -/
def Rule.schema (n : String) : Rule → SeriesSchema
  | .text => strCol n
  | .oneOf names => strCol n (some names)
  | .number => numCol n false
  | .finite => numCol n
  | .amount => numCol n true true
  | .amountOrMissing => numCol n false true
  | .whole => intCol' n false false
  | .count => intCol' n
  | .function => { name := n, kind := .callable }
  | .sign => { name := n, kind := .dtype .int64, allowed := some [.num 1, .num (-1)] }

theorem Rule.ok_iff (n : String) (r : Rule) (s : Series) : ColumnOk (r.schema n) s ↔ r.ok s := by
  cases r with
  | text => exact ⟨fun h => h.kind, fun h => ⟨h, by simp [Rule.schema, strCol], by simp [Rule.schema, strCol], by simp [Rule.schema, strCol]⟩⟩
  | oneOf l =>
    constructor
    · intro h x hx
      have := h.allowed _ rfl x hx
      obtain ⟨t, ht, rfl⟩ := List.mem_map.1 this
      exact ⟨t, ht, rfl⟩
    · intro h
      refine ⟨fun x hx => ?_, ?_, by simp [Rule.schema, strCol], by simp [Rule.schema, strCol]⟩
      · obtain ⟨t, _, e⟩ := h x hx
        exact ⟨t, e⟩
      · intro vs hvs x hx
        simp only [Rule.schema, strCol, Option.map_some, Option.some.injEq] at hvs
        subst hvs
        obtain ⟨t, ht, rfl⟩ := h x hx
        exact List.mem_map_of_mem ht
  | number => exact ⟨fun h => h.kind, fun h => ⟨h, by simp [Rule.schema, numCol], by simp [Rule.schema, numCol], by simp [Rule.schema, numCol]⟩⟩
  | finite => exact ⟨fun h => ⟨h.kind, h.real rfl⟩, fun h => ⟨h.1, by simp [Rule.schema, numCol], fun _ => h.2, by simp [Rule.schema, numCol]⟩⟩
  | amount => exact ⟨fun h => ⟨h.kind, fun x hx => ⟨h.real rfl x hx, h.notNeg rfl x hx⟩⟩,
      fun h => ⟨h.1, by simp [Rule.schema, numCol], fun _ x hx => (h.2 x hx).1, fun _ x hx => (h.2 x hx).2⟩⟩
  | amountOrMissing => exact ⟨fun h => ⟨h.kind, h.notNeg rfl⟩, fun h => ⟨h.1, by simp [Rule.schema, numCol], by simp [Rule.schema, numCol], fun _ => h.2⟩⟩
  | whole => exact ⟨fun h => h.kind, fun h => ⟨h, by simp [Rule.schema, intCol'], by simp [Rule.schema, intCol'], by simp [Rule.schema, intCol']⟩⟩
  | count => exact ⟨fun h => ⟨h.kind, fun x hx => ⟨h.real rfl x hx, h.notNeg rfl x hx⟩⟩,
      fun h => ⟨h.1, by simp [Rule.schema, intCol'], fun _ x hx => (h.2 x hx).1, fun _ x hx => (h.2 x hx).2⟩⟩
  | function => exact ⟨fun h => h.kind, fun h => ⟨h, by simp [Rule.schema], by simp [Rule.schema], by simp [Rule.schema]⟩⟩
  | sign =>
    constructor
    · intro h
      exact ⟨h.kind, fun x hx => by simpa using h.allowed _ rfl x hx⟩
    · intro h
      refine ⟨h.1, ?_, by simp [Rule.schema], by simp [Rule.schema]⟩
      intro vs hvs x hx
      simp only [Rule.schema, Option.some.injEq] at hvs
      subst hvs
      simpa using h.2 x hx

/-- the schema has the columns of the layout -/
structure Layout.Is (l : Layout) (s : Schema) : Prop where
  keys : s.keys = some l.keys
  columns : s.columns = l.columns.map (fun k => (k.name, k.rule.schema k.name))
  required : s.required = (l.columns.filter (fun k => !k.canBeLeftOut)).map Column.name

theorem Layout.Is.accepts {l : Layout} {s : Schema} (h : l.Is s) {f : Frame} (hf : f.Regular) : s.validate f = none ↔ l.Fits f := by
  rw [C35_accepts_iff_partial s f hf]
  constructor
  · intro w
    refine ⟨fun c hc => ?_, fun k hk hn => ?_, fun k hk c hc e => ?_, w.keys _ h.keys⟩
    · obtain ⟨d, hd, e⟩ := w.known c hc
      rw [h.columns] at hd
      obtain ⟨k, hk, rfl⟩ := List.mem_map.1 hd
      exact ⟨k, hk, e⟩
    · refine w.required k.name ?_
      rw [h.required]
      exact List.mem_map_of_mem (List.mem_filter.2 ⟨hk, by simp [hn]⟩)
    · refine (Rule.ok_iff k.name k.rule c.2).1 (w.columns (k.name, k.rule.schema k.name) ?_ c hc e)
      rw [h.columns]
      exact List.mem_map.2 ⟨k, hk, rfl⟩
  · intro w
    refine ⟨fun c hc => ?_, fun n hn => ?_, fun d hd c hc e => ?_, fun ks hks => ?_⟩
    · obtain ⟨k, hk, e⟩ := w.known c hc
      refine ⟨(k.name, k.rule.schema k.name), ?_, e⟩
      rw [h.columns]
      exact List.mem_map.2 ⟨k, hk, rfl⟩
    · rw [h.required] at hn
      obtain ⟨k, hk, rfl⟩ := List.mem_map.1 hn
      obtain ⟨hk, hb⟩ := List.mem_filter.1 hk
      exact w.present k hk (by simpa using hb)
    · rw [h.columns] at hd
      obtain ⟨k, hk, rfl⟩ := List.mem_map.1 hd
      exact (Rule.ok_iff k.name k.rule c.2).2 (w.follow k hk c hc e)
    · rw [h.keys] at hks
      injection hks with hks
      subst hks
      exact w.apart

/-- **C127** The table of units passes exactly if it has this layout. -/
theorem C127_unit_info (regions : List String) {f : Frame} (hf : f.Regular) :
    (unitInfoSchema regions).validate f = none ↔ (unitInfoLayout regions).Fits f :=
  Layout.Is.accepts ⟨rfl, rfl, rfl⟩ hf

/-- **C127** Volume bids. -/
theorem C127_volume_bids (units : List String) (dispatch : Bool) {f : Frame} (hf : f.Regular) :
    (volumeBidsSchema units dispatch).validate f = none ↔ (volumeBidsLayout units dispatch).Fits f := by
  cases dispatch <;> exact Layout.Is.accepts ⟨rfl, rfl, rfl⟩ hf

/-- **C127** Price bids. -/
theorem C127_price_bids (units : List String) (dispatch : Bool) {f : Frame} (hf : f.Regular) :
    (priceBidsSchema units dispatch).validate f = none ↔ (priceBidsLayout units dispatch).Fits f := by
  cases dispatch <;> exact Layout.Is.accepts ⟨rfl, rfl, rfl⟩ hf

/-- **C127** Capacities. -/
theorem C127_capacities (units : List String) (dispatch : Bool) {f : Frame} (hf : f.Regular) :
    (unitLimitsSchema units dispatch).validate f = none ↔ (capacitiesLayout units dispatch).Fits f := by
  cases dispatch <;> exact Layout.Is.accepts ⟨rfl, rfl, rfl⟩ hf

/-- **C127** Intermittent generation forecasts. -/
theorem C127_forecasts (units : List String) {f : Frame} (hf : f.Regular) :
    (uigfSchema units).validate f = none ↔ (forecastsLayout units).Fits f :=
  Layout.Is.accepts ⟨rfl, rfl, rfl⟩ hf

/-- **C127** Ramp rates. -/
theorem C127_ramp_rates (units : List String) (dispatch : Bool) {f : Frame} (hf : f.Regular) :
    (rampSchema units dispatch).validate f = none ↔ (rampRatesLayout units dispatch).Fits f := by
  cases dispatch <;> exact Layout.Is.accepts ⟨rfl, rfl, rfl⟩ hf

/-- **C127** Demand. -/
theorem C127_demand (regions : List String) {f : Frame} (hf : f.Regular) :
    (demandSchema regions).validate f = none ↔ (demandLayout regions).Fits f :=
  Layout.Is.accepts ⟨rfl, rfl, rfl⟩ hf

/-- **C127** FCAS requirements. -/
theorem C127_fcas_requirements (regions : List String) {f : Frame} (hf : f.Regular) :
    (fcasSchema regions).validate f = none ↔ (fcasLayout regions).Fits f :=
  Layout.Is.accepts ⟨rfl, rfl, rfl⟩ hf

/-- **C127** Generic constraints. -/
theorem C127_generic_constraints {f : Frame} (hf : f.Regular) : genericSchema.validate f = none ↔ genericLayout.Fits f :=
  Layout.Is.accepts ⟨rfl, rfl, rfl⟩ hf

/-- **C127** Interconnectors. -/
theorem C127_interconnectors (regions : List String) {f : Frame} (hf : f.Regular) :
    (interSchema regions).validate f = none ↔ (interconnectorsLayout regions).Fits f :=
  Layout.Is.accepts ⟨rfl, rfl, rfl⟩ hf

/-- **C127** Loss functions. -/
theorem C127_loss_functions {f : Frame} (hf : f.Regular) : lossSchema.validate f = none ↔ lossFunctionsLayout.Fits f :=
  Layout.Is.accepts ⟨rfl, rfl, rfl⟩ hf

/-- **C127** Violation costs. -/
theorem C127_violation_costs {f : Frame} (hf : f.Regular) : costSchema.validate f = none ↔ violationCostsLayout.Fits f :=
  Layout.Is.accepts ⟨rfl, rfl, rfl⟩ hf

/-- **C127** Ramp rates from SCADA. -/
theorem C127_scada_rates (units : List String) {f : Frame} (hf : f.Regular) :
    (scadaSchema units).validate f = none ↔ (scadaRatesLayout units).Fits f :=
  Layout.Is.accepts ⟨rfl, rfl, rfl⟩ hf

/-- **C127** Fast start profiles for ramp rates. -/
theorem C127_started_units (units : List String) (run : Run) {f : Frame} (hf : f.Regular) :
    (fsRampSchema units run).validate f = none ↔ (startedUnitsLayout units run).Fits f :=
  by cases run <;> exact Layout.Is.accepts ⟨rfl, rfl, rfl⟩ hf

/-- **C127** Fast start profiles. -/
theorem C127_fast_start_profiles (units : List String) {f : Frame} (hf : f.Regular) :
    (fsSchema units).validate f = none ↔ (fastStartLayout units).Fits f :=
  Layout.Is.accepts ⟨rfl, rfl, rfl⟩ hf

/-- **C127** FCAS availabilities. -/
theorem C127_availabilities (units : List String) {f : Frame} (hf : f.Regular) :
    (fcasMaxSchema units).validate f = none ↔ (availabilitiesLayout units).Fits f :=
  Layout.Is.accepts ⟨rfl, rfl, rfl⟩ hf

/-- **C127** Rates for joint ramping. -/
theorem C127_joint_ramping (units : List String) {f : Frame} (hf : f.Regular) :
    (scadaRegSchema units).validate f = none ↔ (jointRampingLayout units).Fits f :=
  Layout.Is.accepts ⟨rfl, rfl, rfl⟩ hf

/-- **C127** Trapeziums of contingency services. -/
theorem C127_contingency_trapeziums (units : List String) {f : Frame} (hf : f.Regular) :
    (contingencySchema units).validate f = none ↔ (trapeziumsLayout units contingencyNames).Fits f :=
  Layout.Is.accepts ⟨rfl, rfl, rfl⟩ hf

/-- **C127** Trapeziums of regulation services. -/
theorem C127_regulation_trapeziums (units : List String) {f : Frame} (hf : f.Regular) :
    (regulationSchema units).validate f = none ↔ (trapeziumsLayout units ["raise_reg", "lower_reg"]).Fits f :=
  Layout.Is.accepts ⟨rfl, rfl, rfl⟩ hf

/-- **C127** Break points. -/
theorem C127_break_points {f : Frame} (hf : f.Regular) :
    (breakPointSchema).validate f = none ↔ (breakPointsLayout).Fits f :=
  Layout.Is.accepts ⟨rfl, rfl, rfl⟩ hf

/-- **C127** Units of generic constraints. -/
theorem C127_unit_coefficients (units : List String) {f : Frame} (hf : f.Regular) :
    (unitCoefSchema units).validate f = none ↔ (unitCoefficientsLayout units).Fits f :=
  Layout.Is.accepts ⟨rfl, rfl, rfl⟩ hf

/-- **C127** Regions of generic constraints. -/
theorem C127_region_coefficients (regions : List String) {f : Frame} (hf : f.Regular) :
    (regionCoefSchema regions).validate f = none ↔ (regionCoefficientsLayout regions).Fits f :=
  Layout.Is.accepts ⟨rfl, rfl, rfl⟩ hf

/-- **C127** Interconnectors of generic constraints. -/
theorem C127_interconnector_coefficients {f : Frame} (hf : f.Regular) :
    (interCoefSchema).validate f = none ↔ (interconnectorCoefficientsLayout).Fits f :=
  Layout.Is.accepts ⟨rfl, rfl, rfl⟩ hf

/-- a table of capacities -/
def capacityFrame (c : Cell) : Frame where
  size := 2
  cols := [("unit", ⟨.object, [.str "A", .str "B"]⟩), ("capacity", ⟨.float64, [.num 20, c]⟩)]

/-- a table of volume bids -/
def volumeFrame (c : Cell) : Frame where
  size := 2
  cols := [("unit", ⟨.object, [.str "A", .str "B"]⟩), ("1", ⟨.float64, [.num 20, c]⟩)]

/-- instances: a missing capacity passes, a missing or negative volume does not -/
example : (capacityFrame .nan).Regular ∧ (forecastsLayout ["A", "B"]).Fits (capacityFrame .nan) ∧
    (capacitiesLayout ["A", "B"] false).Fits (capacityFrame .nan) ∧ ¬ (capacitiesLayout ["A", "B"] true).Fits (capacityFrame .nan) ∧
    (volumeFrame .nan).Regular ∧ (volumeFrame (.num (-1))).Regular ∧ (volumeBidsLayout ["A", "B"] false).Fits (volumeFrame (.num 5)) ∧
    ¬ (volumeBidsLayout ["A", "B"] false).Fits (volumeFrame .nan) ∧ ¬ (volumeBidsLayout ["A", "B"] false).Fits (volumeFrame (.num (-1))) := by
  have r1 : (capacityFrame .nan).Regular := ⟨by decide +kernel, by decide +kernel⟩
  have r2 : ∀ c, (volumeFrame c).Regular := fun c => ⟨by show ["unit", "1"].Nodup; decide, by simp [volumeFrame]⟩
  refine ⟨r1, ?_, ?_, ?_, r2 _, r2 _, ?_, ?_, ?_⟩
  · rw [← C127_forecasts _ r1]; decide +kernel
  · rw [← C127_capacities _ _ r1]; decide +kernel
  · rw [← C127_capacities _ _ r1]; decide +kernel
  · rw [← C127_volume_bids _ _ (r2 _)]; decide +kernel
  · rw [← C127_volume_bids _ _ (r2 _)]; decide +kernel
  · rw [← C127_volume_bids _ _ (r2 _)]; decide +kernel


/-- fast start profiles for the second run -/
def startedFrame (c : Cell) : Frame where
  size := 2
  cols := [("unit", ⟨.object, [.str "A", .str "B"]⟩), ("end_mode", ⟨.int64, [.num 2, .num 3]⟩), ("min_loading", ⟨.float64, [.num 20, .num 5]⟩),
    ("time_since_end_of_mode_two", ⟨.float64, [.num 20, c]⟩)]

/-- a trapezium -/
def trapeziumFrame (service : String) : Frame where
  size := 1
  cols := [("unit", ⟨.object, [.str "A"]⟩), ("service", ⟨.object, [.str service]⟩), ("max_availability", ⟨.float64, [.num 10]⟩),
    ("enablement_min", ⟨.float64, [.num (-5)]⟩), ("low_break_point", ⟨.float64, [.num 0]⟩), ("high_break_point", ⟨.float64, [.num 50]⟩),
    ("enablement_max", ⟨.float64, [.num 60]⟩)]

/-- instances: a missing time passes, a negative one does not, and the columns depend on the run; a service of the other kind is rejected -/
example : (startedUnitsLayout ["A", "B"] .second).Fits (startedFrame .nan) ∧ ¬ (startedUnitsLayout ["A", "B"] .second).Fits (startedFrame (.num (-1))) ∧
    ¬ (startedUnitsLayout ["A", "B"] .first).Fits (startedFrame .nan) ∧
    (trapeziumsLayout ["A"] contingencyNames).Fits (trapeziumFrame "raise_6s") ∧
    ¬ (trapeziumsLayout ["A"] contingencyNames).Fits (trapeziumFrame "raise_reg") ∧
    (trapeziumsLayout ["A"] ["raise_reg", "lower_reg"]).Fits (trapeziumFrame "raise_reg") := by
  have r1 : ∀ c, (startedFrame c).Regular := fun c =>
    ⟨by show ["unit", "end_mode", "min_loading", "time_since_end_of_mode_two"].Nodup; decide, by simp [startedFrame]⟩
  have r2 : ∀ s, (trapeziumFrame s).Regular := fun s =>
    ⟨by show ["unit", "service", "max_availability", "enablement_min", "low_break_point", "high_break_point", "enablement_max"].Nodup; decide,
      by simp [trapeziumFrame]⟩
  refine ⟨?_, ?_, ?_, ?_, ?_, ?_⟩
  · rw [← C127_started_units _ _ (r1 _)]; decide +kernel
  · rw [← C127_started_units _ _ (r1 _)]; decide +kernel
  · rw [← C127_started_units _ _ (r1 _)]; decide +kernel
  · rw [← C127_contingency_trapeziums _ (r2 _)]; decide +kernel
  · rw [← C127_contingency_trapeziums _ (r2 _)]; decide +kernel
  · rw [← C127_regulation_trapeziums _ (r2 _)]; decide +kernel

end Verif.Validator
