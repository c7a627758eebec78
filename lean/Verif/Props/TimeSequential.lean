import Verif.Model.TimeSequential
import Verif.Props.Outputs
import Verif.Props.Ramp
import Verif.Proofs.Elastic

/-! # C40, C41: updating right hand sides and chains of intervals -/

namespace Verif

theorem flatMap_one_hit {α β : Type} {f : α → List β} {g : α → β} {l : List α} (h : ∀ a ∈ l, f a = [g a]) : l.flatMap f = l.map g := by
  induction l with
  | nil => rfl
  | cons a l ih =>
    rw [List.flatMap_cons, h a (by simp), ih (fun b hb => h b (by simp [hb]))]
    rfl

theorem filter_fst_unique {β : Type} {l : List (String × β)} (hn : (l.map (·.1)).Nodup) (k : String) :
    (∃ v, l.filter (fun n => decide (n.1 = k)) = [(k, v)] ∧ (k, v) ∈ l) ∨ (l.filter (fun n => decide (n.1 = k)) = [] ∧ ∀ v, (k, v) ∉ l) := by
  by_cases h : ∃ v, (k, v) ∈ l
  · obtain ⟨v, hv⟩ := h
    left
    refine ⟨v, ?_, hv⟩
    exact filter_key_unique (key := fun n : String × β => n.1) hn hv
  · right
    push Not at h
    refine ⟨filter_nil_of ?_, h⟩
    intro a ha
    rw [decide_eq_false_iff_not]
    rintro rfl
    exact h a.2 ha

/-- **C40** `update_rhs_values` keeps the number and order of rows; a row whose set has a new value gets it, in the column
`volume` if the table has one and in `rhs` otherwise, and keeps everything else; every other row is unchanged. -/
theorem C40_update_rhs {hasVolume : Bool} {rows : List RhsRow} {new : List (String × Option ℚ)} (hn : (new.map (·.1)).Nodup) :
    (updateRhsValues hasVolume rows new).length = rows.length ∧
    ∀ (i : Nat) (r : RhsRow), rows[i]? = some r → ∃ r' : RhsRow, (updateRhsValues hasVolume rows new)[i]? = some r' ∧
      (∀ v, (r.set, some v) ∈ new → r' = if hasVolume then { r with volume := some v } else { r with rhs := some v }) ∧
      ((∀ v, (r.set, some v) ∉ new) → r' = r) := by
  have h : updateRhsValues hasVolume rows new = rows.map (fun r =>
      r.update hasVolume (((new.filter (fun n => decide (n.1 = r.set))).head?.map (·.2)).getD none)) := by
    apply flatMap_one_hit
    intro r _
    rcases filter_fst_unique hn r.set with ⟨v, h, _⟩ | ⟨h, _⟩ <;> rw [h] <;> rfl
  rw [h]
  refine ⟨by simp, ?_⟩
  intro i r hr
  refine ⟨_, by rw [List.getElem?_map, hr]; rfl, ?_, ?_⟩ <;> dsimp only
  · intro v hv
    rcases filter_fst_unique hn r.set with ⟨w, h, hw⟩ | ⟨h, hw⟩
    · rw [h]
      have := List.inj_on_of_nodup_map hn hv hw rfl
      simp only [Prod.mk.injEq, true_and] at this
      rw [← this]; rfl
    · exact absurd hv (hw _)
  · intro hv
    rcases filter_fst_unique hn r.set with ⟨w, h, hw⟩ | ⟨h, hw⟩
    · rw [h]
      cases w with
      | none => rfl
      | some w => exact absurd hw (hv w)
    · rw [h]; rfl

/-- instance of C40 -/
example : updateRhsValues true [⟨"F", some 10, none, [("type", ">=")]⟩, ⟨"G", some 20, none, []⟩, ⟨"H", some 5, none, []⟩, ⟨"F", some 10, none, []⟩]
    [("F", some 12), ("H", none), ("Z", some 1)] =
    [⟨"F", some 12, none, [("type", ">=")]⟩, ⟨"G", some 20, none, []⟩, ⟨"H", some 5, none, []⟩, ⟨"F", some 12, none, []⟩] := by decide +kernel

/-- **C41** If the last dispatch has at most one energy row per unit, `construct_ramp_rate_parameters` gives exactly one
row for every ramp rate row, in order, with the energy dispatch of the unit as initial output, 0 if it has none, and the
rates of that row, 0 where missing.  Missing: units with two energy rows, see `C41_bidirectional_negation`. -/
theorem C41_ramp_rate_parameters_partial {last : List DispatchRow} {rates : List RampRates}
    (hn : ((last.filter (fun d => decide (d.service = .energy))).map DispatchRow.unit).Nodup) :
    (constructRampRates last rates).length = rates.length ∧
    ∀ (i : Nat) (r : RampRates), rates[i]? = some r → ∃ p : RampRow, (constructRampRates last rates)[i]? = some p ∧ p.unit = r.unit ∧ p.dtype = r.dtype ∧
      (∀ d ∈ last, d.unit = r.unit → d.service = .energy → p.init = d.dispatch) ∧
      ((∀ d ∈ last, d.unit = r.unit → d.service ≠ .energy) → p.init = 0) ∧
      p.up = r.up.getD 0 ∧ p.down = r.down.getD 0 := by
  have key : ∀ u, (∃ d ∈ last, d.unit = u ∧ d.service = .energy ∧
        (last.filter (fun d => decide (d.service = .energy))).filter (fun d => decide (d.unit = u)) = [d]) ∨
      ((∀ d ∈ last, d.unit = u → d.service ≠ .energy) ∧
        (last.filter (fun d => decide (d.service = .energy))).filter (fun d => decide (d.unit = u)) = []) := by
    intro u
    by_cases h : ∃ d ∈ last, d.unit = u ∧ d.service = .energy
    · obtain ⟨d, hd, h1, h2⟩ := h
      left
      refine ⟨d, hd, h1, h2, ?_⟩
      have := filter_key_unique (key := DispatchRow.unit) hn (List.mem_filter.2 ⟨hd, decide_eq_true h2⟩)
      rw [h1] at this
      exact this
    · push Not at h
      right
      refine ⟨h, filter_nil_of ?_⟩
      intro d hd
      have hd := List.mem_filter.1 hd
      rw [decide_eq_false_iff_not]
      intro hu
      exact h d hd.1 hu (of_decide_eq_true hd.2)
  have h : constructRampRates last rates = rates.map (fun r => (⟨r.unit, r.dtype,
      ((((last.filter (fun d => decide (d.service = .energy))).filter (fun d => decide (d.unit = r.unit))).head?).map DispatchRow.dispatch).getD 0,
      r.up.getD 0, r.down.getD 0⟩ : RampRow)) := by
    apply flatMap_one_hit
    intro r _
    rcases key r.unit with ⟨d, _, _, _, h⟩ | ⟨_, h⟩ <;> rw [h] <;> rfl
  rw [h]
  refine ⟨by simp, ?_⟩
  intro i r hr
  refine ⟨_, by rw [List.getElem?_map, hr]; rfl, rfl, rfl, ?_, ?_, rfl, rfl⟩
  · intro d hd h1 h2
    rcases key r.unit with ⟨d', hd', e1, e2, h⟩ | ⟨h, _⟩
    · have := List.inj_on_of_nodup_map hn (List.mem_filter.2 ⟨hd, decide_eq_true h2⟩) (List.mem_filter.2 ⟨hd', decide_eq_true e2⟩) (h1.trans e1.symm)
      simp only [h]
      rw [this]; rfl
    · exact absurd h2 (h d hd h1)
  · intro h0
    rcases key r.unit with ⟨d', hd', e1, e2, h⟩ | ⟨_, h⟩
    · exact absurd e2 (h0 d' hd' e1)
    · simp only [h]; rfl

/-- **C41** Chaining two intervals: if the dispatch table of the first market gives the initial outputs of the second, no unit
that is not bidirectional moves further than its ramp rates from one interval to the next, in any feasible solution of the second. -/
theorem C41_chained {m₁ : Market} {x₁ : Nat → ℚ} {last : List DispatchRow} (h₁ : m₁.unitDispatch x₁ = .ok last)
    {rates : List RampRates} {m : Market} (h : InForce (.rampRates (constructRampRates last rates) none none .noFastStart none) m)
    (hdi : m.di ≠ 0) {lp : Lp} (hl : m.assemble = .ok lp) {x : Nat → ℚ} (hx : Feasible lp x)
    {u : String} {d : DType} {up down : ℚ} (hr : (⟨u, d, some up, some down⟩ : RampRates) ∈ rates) (hb : u ∉ m.bidi)
    (hu : m.lists u d) (hv : m.bidsFor u .energy d) (hv1 : m₁.bidsFor u .energy d) :
    m.dispatched x u .energy d ≤ m₁.dispatched x₁ u .energy d + up * (m.di / 60) ∧
    m₁.dispatched x₁ u .energy d - down * (m.di / 60) ≤ m.dispatched x u .energy d := by
  obtain ⟨c1, c2, c3⟩ := C29_unit_dispatch h₁
  obtain ⟨q, hq, q1, q2, q3⟩ := (c2 u d .energy).2 hv1
  have hqd := c3 q hq
  rw [q1, q2, q3] at hqd
  have hmem : (⟨u, d, q.dispatch, up, down⟩ : RampRow) ∈ constructRampRates last rates := by
    refine List.mem_flatMap.2 ⟨_, hr, ?_⟩
    have hqm : q ∈ (last.filter (fun d => decide (d.service = .energy))).filter (fun d => decide (d.unit = u)) :=
      List.mem_filter.2 ⟨List.mem_filter.2 ⟨hq, decide_eq_true q3⟩, decide_eq_true q1⟩
    dsimp only
    split
    · rename_i he; rw [he] at hqm; simp at hqm
    · exact List.mem_map.2 ⟨q, hqm, rfl⟩
  have := C08_ramp_limits h hdi hl hx hmem hb hu hv
  simp only [scadaRate, tighter, hqd] at this
  exact this

/-- **C41** `create_seed_ramp_rate_parameters` combines exactly the ramp rates and initial outputs of equal units; units with
no historical dispatch are left out. -/
theorem C41_seed {hist : List (String × ℚ)} {rates : List RampRow} {p : RampRow} :
    p ∈ seedRampRates hist rates ↔ ∃ r ∈ rates, ∃ v, (r.unit, v) ∈ hist ∧ p = { r with init := v } := by
  unfold seedRampRates
  simp only [List.mem_flatMap, List.mem_map, List.mem_filter, decide_eq_true_eq]
  constructor
  · rintro ⟨⟨u, v⟩, hh, r, ⟨hr, rfl⟩, rfl⟩
    exact ⟨r, hr, v, hh, rfl⟩
  · rintro ⟨r, hr, v, hh, rfl⟩
    exact ⟨(r.unit, v), hh, r, ⟨hr, rfl⟩, rfl⟩

/-- the market of the first interval -/
def firstInterval : Case where
  regions := ["NSW"]
  units := [{ unit := "A", region := "NSW" }, { unit := "B", region := "NSW" }]
  hist := [.volumeBids [{ unit := "A", bands := [("1", 100)] }, { unit := "B", bands := [("1", 100)] },
      { unit := "A", service := .raiseReg, bands := [("1", 50)] }],
    .demand [{ region := "NSW", demand := 133 }] none]
  sol := [45, 50, 88]

/-- the dispatch table of the first interval -/
def firstTable : List DispatchRow := [⟨"A", .generator, .energy, 45⟩, ⟨"A", .generator, .raiseReg, 50⟩, ⟨"B", .generator, .energy, 88⟩]

/-- the market of the second interval -/
def secondInterval : Case where
  regions := ["NSW"]
  units := [{ unit := "A", region := "NSW" }, { unit := "B", region := "NSW" }, { unit := "C", region := "NSW" }]
  hist := [.volumeBids [{ unit := "A", bands := [("1", 100)] }, { unit := "B", bands := [("1", 100)] }, { unit := "C", bands := [("1", 100)] }],
    .rampRates (constructRampRates firstTable [⟨"A", .generator, some 600, some 600⟩, ⟨"B", .generator, some 1200, some 1200⟩,
      ⟨"C", .generator, some 700, some 700⟩]) none none .noFastStart none]
  sol := [70, 20, 30]

/-- instance of C41: the example of the documentation, and a second interval that uses it -/
example : constructRampRates firstTable [⟨"A", .generator, some 600, some 600⟩, ⟨"B", .generator, some 1200, some 1200⟩, ⟨"C", .generator, some 700, none⟩] =
    [⟨"A", .generator, 45, 600, 600⟩, ⟨"B", .generator, 88, 1200, 1200⟩, ⟨"C", .generator, 0, 700, 0⟩] ∧
    firstInterval.ok (fun m => decide ((m.unitDispatch firstInterval.x).toOption = some firstTable)) = true ∧
    secondInterval.ok (fun m => decide (m.lists "A" .generator ∧ m.bidsFor "A" .energy .generator ∧ "A" ∉ m.bidi ∧ m.di = 5)) = true := by
  refine ⟨?_, ?_, ?_⟩ <;> decide +kernel

/-- **C41** is false of bidirectional units: the dispatch table has an energy row for each side and both are merged with
every ramp rate row of the unit. -/
theorem C41_bidirectional_negation : ∃ (last : List DispatchRow) (rates : List RampRates),
    (last.map (fun d => (d.unit, d.dtype, d.service))).Nodup ∧ (rates.map (fun r => (r.unit, r.dtype))).Nodup ∧
    rates.length = 2 ∧ (constructRampRates last rates).length = 4 ∧
    (⟨"B", .generator, 30, 600, 600⟩ : RampRow) ∈ constructRampRates last rates ∧
    (⟨"B", .load, 30, 600, 600⟩ : RampRow) ∉ last.map (fun d => (⟨d.unit, d.dtype, d.dispatch, 600, 600⟩ : RampRow)) ∧
    (⟨"B", .load, 30, 600, 600⟩ : RampRow) ∈ constructRampRates last rates :=
  ⟨[⟨"B", .generator, .energy, 30⟩, ⟨"B", .load, .energy, 0⟩], [⟨"B", .generator, some 600, some 600⟩, ⟨"B", .load, some 600, some 600⟩],
    by decide +kernel⟩

end Verif
