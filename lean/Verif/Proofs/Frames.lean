import Verif.Spec.Frames
import Verif.Props.Layouts
import Mathlib.Data.List.Pairwise

/-! # Lemmas: data frames of typed rows and their layouts -/

set_option linter.unusedSimpArgs false
set_option linter.unusedTactic false
set_option linter.unreachableTactic false

namespace Verif

theorem Service.text_inj {a b : Service} : a.text = b.text ↔ a = b := by
  constructor
  · intro h; cases a <;> cases b <;> first | rfl | exact absurd h (by decide)
  · rintro rfl; rfl

theorem DType.text_inj {a b : DType} : a.text = b.text ↔ a = b := by
  constructor
  · intro h; cases a <;> cases b <;> first | rfl | exact absurd h (by decide)
  · rintro rfl; rfl

namespace Validator

theorem Service.text_mem (s : Service) : s.text ∈ serviceNames := by cases s <;> decide

theorem DType.text_mem (d : DType) : d.text ∈ ["generator", "load"] := by cases d <;> decide

theorem DType.text_or (d : DType) : (d.text = "generator" ∨ d.text = "load") ↔ True := by cases d <;> decide

theorem CType.text_or (c : CType) : (c.text = "<=" ∨ c.text = "=" ∨ c.text = ">=") ↔ ¬ c = .other := by cases c <;> decide

theorem Service.text_fcas (s : Service) : (s.text = "raise_reg" ∨ s.text = "lower_reg" ∨ s.text ∈ contingencyNames) ↔ ¬ s = .energy := by
  cases s <;> decide

theorem Service.text_contingency (s : Service) : s.text ∈ contingencyNames ↔ s.isContingency = true := by cases s <;> decide

theorem Service.text_regulation (s : Service) : (s.text = "raise_reg" ∨ s.text = "lower_reg") ↔ s.isRegulation = true := by cases s <;> decide

/-- the entry of a column with gaps -/
theorem gap_iff (q : Option ℚ) : (¬ (match (match q with | some q => Cell.num q | none => Cell.nan) with
    | Cell.num q => q < 0 | Cell.negInf => True | _ => False)) ↔ 0 ≤ q.getD 0 := by
  cases q with
  | none => simp
  | some q => simp

variable {α : Type}

theorem frameOf_regular {rows : List α} {fields : List (Field α)} (h : (fields.map Field.name).Nodup) : (frameOf rows fields).Regular := by
  refine ⟨by simpa [frameOf, List.map_map, Function.comp_def] using h, fun c hc => ?_⟩
  obtain ⟨f, _, rfl⟩ := List.mem_map.1 hc
  simp [frameOf]

theorem frameOf_fits {l : Layout} {rows : List α} {fields : List (Field α)} (hk : ∀ c ∈ fields, ∃ k ∈ l.columns, k.name = c.name)
    (hp : ∀ k ∈ l.columns, k.canBeLeftOut = false → ∃ c ∈ fields, c.name = k.name) :
    l.Fits (frameOf rows fields) ↔ (∀ k ∈ l.columns, ∀ c ∈ fields, c.name = k.name → k.rule.ok ⟨c.dtype, rows.map c.cell⟩) ∧
      (rows.map (fun r => (fields.filter (fun c => decide (c.name ∈ l.keys))).map (fun c => c.cell r))).Nodup := by
  have ha : (∀ i j, i < (frameOf rows fields).size → j < (frameOf rows fields).size →
      (∀ k ∈ l.keys, ∀ c ∈ (frameOf rows fields).cols, c.1 = k → c.2.cells[i]? = c.2.cells[j]?) → i = j) ↔
      (rows.map (fun r => (fields.filter (fun c => decide (c.name ∈ l.keys))).map (fun c => c.cell r))).Nodup := by
    have same : ∀ i j (hi : i < rows.length) (hj : j < rows.length),
        (∀ k ∈ l.keys, ∀ c ∈ (frameOf rows fields).cols, c.1 = k → c.2.cells[i]? = c.2.cells[j]?) ↔
        (fields.filter (fun c => decide (c.name ∈ l.keys))).map (fun c => c.cell rows[i]) =
          (fields.filter (fun c => decide (c.name ∈ l.keys))).map (fun c => c.cell rows[j]) := by
      intro i j hi hj
      rw [List.map_inj_left]
      constructor
      · intro h c hc
        obtain ⟨hc, hn⟩ := List.mem_filter.1 hc
        have := h c.name (of_decide_eq_true hn) _ (List.mem_map.2 ⟨c, hc, rfl⟩) rfl
        simpa [hi, hj] using this
      · rintro h k hk' c hc rfl
        obtain ⟨f, hf, rfl⟩ := List.mem_map.1 hc
        have := h f (List.mem_filter.2 ⟨hf, decide_eq_true hk'⟩)
        simpa [hi, hj] using this
    rw [List.nodup_iff_injective_getElem]
    constructor
    · rintro h ⟨i, hi⟩ ⟨j, hj⟩ e
      simp only [List.length_map] at hi hj
      simp only [List.getElem_map] at e
      exact Fin.ext (h i j hi hj ((same i j hi hj).2 e))
    · intro h i j hi hj e
      have hi' : i < rows.length := hi
      have hj' : j < rows.length := hj
      have := @h ⟨i, by simpa using hi'⟩ ⟨j, by simpa using hj'⟩ (by
        simp only [List.getElem_map]
        exact (same i j hi' hj').1 e)
      exact congrArg Fin.val this
  constructor
  · intro h
    exact ⟨fun k hk' c hc e => h.follow k hk' _ (List.mem_map.2 ⟨c, hc, rfl⟩) e, ha.1 h.apart⟩
  · rintro ⟨h1, h2⟩
    refine ⟨fun c hc => ?_, fun k hk' hn => ?_, fun k hk' c hc e => ?_, ha.2 h2⟩
    · obtain ⟨f, hf, rfl⟩ := List.mem_map.1 hc
      exact hk f hf
    · obtain ⟨f, hf, e⟩ := hp k hk' hn
      exact ⟨_, List.mem_map.2 ⟨f, hf, rfl⟩, e⟩
    · obtain ⟨f, hf, rfl⟩ := List.mem_map.1 hc
      exact h1 k hk' f hf e

theorem nodup_map_congr {β γ : Type} {l : List α} {f : α → β} {g : α → γ} (h : ∀ a b, f a = f b ↔ g a = g b) : (l.map f).Nodup ↔ (l.map g).Nodup := by
  unfold List.Nodup
  rw [List.pairwise_map, List.pairwise_map]
  simp only [ne_eq, h]

theorem accepts_iff {l : Layout} {s : Schema} {rows : List α} {fields : List (Field α)} (hs : ∀ {f : Frame}, f.Regular → (s.validate f = none ↔ l.Fits f))
    (hn : (fields.map Field.name).Nodup) (hk : ∀ c ∈ fields, ∃ k ∈ l.columns, k.name = c.name)
    (hp : ∀ k ∈ l.columns, k.canBeLeftOut = false → ∃ c ∈ fields, c.name = k.name) :
    s.validate (frameOf rows fields) = none ↔ (∀ k ∈ l.columns, ∀ c ∈ fields, c.name = k.name → k.rule.ok ⟨c.dtype, rows.map c.cell⟩) ∧
      (rows.map (fun r => (fields.filter (fun c => decide (c.name ∈ l.keys))).map (fun c => c.cell r))).Nodup := by
  rw [hs (frameOf_regular hn), frameOf_fits hk hp]

theorem demand_accepts (regions : List String) (ds : List Demand) : (demandSchema regions).validate (demandFrame ds) = none ↔
    (∀ d ∈ ds, d.region ∈ regions) ∧ (ds.map (·.region)).Nodup := by
  unfold demandFrame
  rw [accepts_iff (C127_demand regions) (by decide) (by simp [demandLayout, must, textField, numField])
    (by simp [demandLayout, must, textField, numField])]
  refine and_congr ?_ (nodup_map_congr (fun a b => ?_))
  · simp [demandLayout, must, textField, numField, Rule.ok, Cell.Real]
  · simp [demandLayout, textField, numField]

theorem unitInfo_accepts (regions : List String) (us : List UnitInfo) : (unitInfoSchema regions).validate (unitInfoFrame us) = none ↔
    (∀ u ∈ us, u.region ∈ regions ∧ 0 ≤ u.lf) ∧ (us.map (fun u => (u.unit, u.dtype))).Nodup := by
  unfold unitInfoFrame
  rw [accepts_iff (C127_unit_info regions) (by decide) (by simp [unitInfoLayout, must, may, textField, numField, gapField, intField, typeField, dispatchColumn])
    (by simp [unitInfoLayout, must, may, textField, numField, gapField, intField, typeField, dispatchColumn])]
  refine and_congr ?_ (nodup_map_congr (fun a b => ?_))
  · simp [unitInfoLayout, must, may, textField, numField, gapField, intField, typeField, dispatchColumn, Rule.ok, Cell.Real, Cell.Negative, Service.text_mem, DType.text_mem, DType.text_or, CType.text_or, Service.text_fcas,
      Service.text_contingency, Service.text_regulation, imp_and, forall_and, gap_iff] <;> try tauto
  · simp [unitInfoLayout, must, may, textField, numField, gapField, intField, typeField, dispatchColumn, Service.text_inj, DType.text_inj] <;> try tauto

theorem forecasts_accepts (units : List String) (ls : List Lim) : (uigfSchema units).validate (forecastsFrame ls) = none ↔
    (∀ l ∈ ls, l.unit ∈ units) ∧ (ls.map (·.unit)).Nodup := by
  unfold forecastsFrame
  rw [accepts_iff (C127_forecasts units) (by decide) (by simp [forecastsLayout, must, may, textField, numField, gapField, intField, typeField, dispatchColumn])
    (by simp [forecastsLayout, must, may, textField, numField, gapField, intField, typeField, dispatchColumn])]
  refine and_congr ?_ (nodup_map_congr (fun a b => ?_))
  · simp [forecastsLayout, must, may, textField, numField, gapField, intField, typeField, dispatchColumn, Rule.ok, Cell.Real, Cell.Negative, Service.text_mem, DType.text_mem, DType.text_or, CType.text_or, Service.text_fcas,
      Service.text_contingency, Service.text_regulation, imp_and, forall_and, gap_iff] <;> try tauto
  · simp [forecastsLayout, must, may, textField, numField, gapField, intField, typeField, dispatchColumn, Service.text_inj, DType.text_inj] <;> try tauto

theorem scada_accepts (units : List String) (rs : List Scada) : (scadaSchema units).validate (scadaFrame rs) = none ↔
    (∀ l ∈ rs, l.unit ∈ units) ∧ (rs.map (·.unit)).Nodup := by
  unfold scadaFrame
  rw [accepts_iff (C127_scada_rates units) (by decide) (by simp [scadaRatesLayout, must, may, textField, numField, gapField, intField, typeField, dispatchColumn])
    (by simp [scadaRatesLayout, must, may, textField, numField, gapField, intField, typeField, dispatchColumn])]
  refine and_congr ?_ (nodup_map_congr (fun a b => ?_))
  · simp [scadaRatesLayout, must, may, textField, numField, gapField, intField, typeField, dispatchColumn, Rule.ok, Cell.Real, Cell.Negative, Service.text_mem, DType.text_mem, DType.text_or, CType.text_or, Service.text_fcas,
      Service.text_contingency, Service.text_regulation, imp_and, forall_and, gap_iff] <;> try tauto
  · simp [scadaRatesLayout, must, may, textField, numField, gapField, intField, typeField, dispatchColumn, Service.text_inj, DType.text_inj] <;> try tauto

theorem currentModes_accepts (units : List String) (ps : List FsRamp) : (fsRampSchema units .first).validate (currentModesFrame ps) = none ↔
    (∀ p ∈ ps, p.unit ∈ units) ∧ (ps.map (·.unit)).Nodup := by
  unfold currentModesFrame
  rw [accepts_iff (C127_started_units units .first) (by decide) (by simp [startedUnitsLayout, must, may, textField, numField, gapField, intField, typeField, dispatchColumn])
    (by simp [startedUnitsLayout, must, may, textField, numField, gapField, intField, typeField, dispatchColumn])]
  refine and_congr ?_ (nodup_map_congr (fun a b => ?_))
  · simp [startedUnitsLayout, must, may, textField, numField, gapField, intField, typeField, dispatchColumn, Rule.ok, Cell.Real, Cell.Negative, Service.text_mem, DType.text_mem, DType.text_or, CType.text_or, Service.text_fcas,
      Service.text_contingency, Service.text_regulation, imp_and, forall_and, gap_iff] <;> try tauto
  · simp [startedUnitsLayout, must, may, textField, numField, gapField, intField, typeField, dispatchColumn, Service.text_inj, DType.text_inj] <;> try tauto

theorem endModes_accepts (units : List String) (ps : List FsRamp) : (fsRampSchema units .second).validate (endModesFrame ps) = none ↔
    (∀ p ∈ ps, p.unit ∈ units ∧ 0 ≤ p.minLoading ∧ 0 ≤ p.since.getD 0) ∧ (ps.map (·.unit)).Nodup := by
  unfold endModesFrame
  rw [accepts_iff (C127_started_units units .second) (by decide) (by simp [startedUnitsLayout, must, may, textField, numField, gapField, intField, typeField, dispatchColumn])
    (by simp [startedUnitsLayout, must, may, textField, numField, gapField, intField, typeField, dispatchColumn])]
  refine and_congr ?_ (nodup_map_congr (fun a b => ?_))
  · simp [startedUnitsLayout, must, may, textField, numField, gapField, intField, typeField, dispatchColumn, Rule.ok, Cell.Real, Cell.Negative, Service.text_mem, DType.text_mem, DType.text_or, CType.text_or, Service.text_fcas,
      Service.text_contingency, Service.text_regulation, imp_and, forall_and, gap_iff]
    intro _ _
    exact forall₂_congr (fun a _ => by cases a.since <;> simp)
  · simp [startedUnitsLayout, must, may, textField, numField, gapField, intField, typeField, dispatchColumn, Service.text_inj, DType.text_inj] <;> try tauto

theorem fastStart_accepts (units : List String) (ps : List FsInput) : (fsSchema units).validate (fastStartFrame ps) = none ↔
    (∀ p ∈ ps, p.unit ∈ units ∧ 0 ≤ p.time ∧ 0 ≤ p.len2 ∧ 0 ≤ p.len4 ∧ 0 ≤ p.minLoading) ∧ (ps.map (·.unit)).Nodup := by
  unfold fastStartFrame
  rw [accepts_iff (C127_fast_start_profiles units) (by decide) (by simp [fastStartLayout, must, may, textField, numField, gapField, intField, typeField, dispatchColumn])
    (by simp [fastStartLayout, must, may, textField, numField, gapField, intField, typeField, dispatchColumn])]
  refine and_congr ?_ (nodup_map_congr (fun a b => ?_))
  · simp [fastStartLayout, must, may, textField, numField, gapField, intField, typeField, dispatchColumn, Rule.ok, Cell.Real, Cell.Negative, Service.text_mem, DType.text_mem, DType.text_or, CType.text_or, Service.text_fcas,
      Service.text_contingency, Service.text_regulation, imp_and, forall_and, gap_iff] <;> try tauto
  · simp [fastStartLayout, must, may, textField, numField, gapField, intField, typeField, dispatchColumn, Service.text_inj, DType.text_inj] <;> try tauto

theorem fcas_accepts (regions : List String) (rs : List FcasReq) : (fcasSchema regions).validate (fcasFrame rs) = none ↔
    (∀ r ∈ rs, r.region ∈ regions ∧ r.ctype ≠ .other) ∧ (rs.map (fun r => (r.set, r.region, r.service))).Nodup := by
  unfold fcasFrame
  rw [accepts_iff (C127_fcas_requirements regions) (by decide) (by simp [fcasLayout, must, may, textField, numField, gapField, intField, typeField, dispatchColumn])
    (by simp [fcasLayout, must, may, textField, numField, gapField, intField, typeField, dispatchColumn])]
  refine and_congr ?_ (nodup_map_congr (fun a b => ?_))
  · simp [fcasLayout, must, may, textField, numField, gapField, intField, typeField, dispatchColumn, Rule.ok, Cell.Real, Cell.Negative, Service.text_mem, DType.text_mem, DType.text_or, CType.text_or, Service.text_fcas,
      Service.text_contingency, Service.text_regulation, imp_and, forall_and, gap_iff] <;> try tauto
  · simp [fcasLayout, must, may, textField, numField, gapField, intField, typeField, dispatchColumn, Service.text_inj, DType.text_inj] <;> try tauto

theorem availabilities_accepts (units : List String) (ls : List Lim) : (fcasMaxSchema units).validate (availabilitiesFrame ls) = none ↔
    (∀ l ∈ ls, l.unit ∈ units ∧ l.service ≠ .energy ∧ 0 ≤ l.val) ∧ (ls.map (fun l => (l.unit, l.service, l.dtype))).Nodup := by
  unfold availabilitiesFrame
  rw [accepts_iff (C127_availabilities units) (by decide) (by simp [availabilitiesLayout, must, may, textField, numField, gapField, intField, typeField, dispatchColumn])
    (by simp [availabilitiesLayout, must, may, textField, numField, gapField, intField, typeField, dispatchColumn])]
  refine and_congr ?_ (nodup_map_congr (fun a b => ?_))
  · simp [availabilitiesLayout, must, may, textField, numField, gapField, intField, typeField, dispatchColumn, Rule.ok, Cell.Real, Cell.Negative, Service.text_mem, DType.text_mem, DType.text_or, CType.text_or, Service.text_fcas,
      Service.text_contingency, Service.text_regulation, imp_and, forall_and, gap_iff]
    intro _ _
    exact forall₂_congr (fun a _ => by generalize a.service = s; cases s <;> decide)
  · simp [availabilitiesLayout, must, may, textField, numField, gapField, intField, typeField, dispatchColumn, Service.text_inj, DType.text_inj] <;> try tauto

theorem jointRamping_accepts (units : List String) (rs : List RampRow) : (scadaRegSchema units).validate (jointRampingFrame rs) = none ↔
    (∀ l ∈ rs, l.unit ∈ units) ∧ (rs.map (·.unit)).Nodup := by
  unfold jointRampingFrame
  rw [accepts_iff (C127_joint_ramping units) (by decide) (by simp [jointRampingLayout, must, may, textField, numField, gapField, intField, typeField, dispatchColumn])
    (by simp [jointRampingLayout, must, may, textField, numField, gapField, intField, typeField, dispatchColumn])]
  refine and_congr ?_ (nodup_map_congr (fun a b => ?_))
  · simp [jointRampingLayout, must, may, textField, numField, gapField, intField, typeField, dispatchColumn, Rule.ok, Cell.Real, Cell.Negative, Service.text_mem, DType.text_mem, DType.text_or, CType.text_or, Service.text_fcas,
      Service.text_contingency, Service.text_regulation, imp_and, forall_and, gap_iff] <;> try tauto
  · simp [jointRampingLayout, must, may, textField, numField, gapField, intField, typeField, dispatchColumn, Service.text_inj, DType.text_inj] <;> try tauto

theorem contingency_accepts (units : List String) (ts : List Trap) : (contingencySchema units).validate (trapeziumsFrame ts) = none ↔
    (∀ t ∈ ts, t.unit ∈ units ∧ t.service.isContingency = true ∧ 0 ≤ t.maxAvail) ∧ (ts.map (fun t => (t.unit, t.service, t.dtype))).Nodup := by
  unfold trapeziumsFrame
  rw [accepts_iff (C127_contingency_trapeziums units) (by decide) (by simp [trapeziumsLayout, must, may, textField, numField, gapField, intField, typeField, dispatchColumn])
    (by simp [trapeziumsLayout, must, may, textField, numField, gapField, intField, typeField, dispatchColumn])]
  refine and_congr ?_ (nodup_map_congr (fun a b => ?_))
  · simp [trapeziumsLayout, must, may, textField, numField, gapField, intField, typeField, dispatchColumn, Rule.ok, Cell.Real, Cell.Negative, Service.text_mem, DType.text_mem, DType.text_or, CType.text_or, Service.text_fcas,
      Service.text_contingency, Service.text_regulation, imp_and, forall_and, gap_iff] <;> try tauto
  · simp [trapeziumsLayout, must, may, textField, numField, gapField, intField, typeField, dispatchColumn, Service.text_inj, DType.text_inj] <;> try tauto

theorem regulation_accepts (units : List String) (ts : List Trap) : (regulationSchema units).validate (trapeziumsFrame ts) = none ↔
    (∀ t ∈ ts, t.unit ∈ units ∧ t.service.isRegulation = true ∧ 0 ≤ t.maxAvail) ∧ (ts.map (fun t => (t.unit, t.service, t.dtype))).Nodup := by
  unfold trapeziumsFrame
  rw [accepts_iff (C127_regulation_trapeziums units) (by decide) (by simp [trapeziumsLayout, must, may, textField, numField, gapField, intField, typeField, dispatchColumn])
    (by simp [trapeziumsLayout, must, may, textField, numField, gapField, intField, typeField, dispatchColumn])]
  refine and_congr ?_ (nodup_map_congr (fun a b => ?_))
  · simp [trapeziumsLayout, must, may, textField, numField, gapField, intField, typeField, dispatchColumn, Rule.ok, Cell.Real, Cell.Negative, Service.text_mem, DType.text_mem, DType.text_or, CType.text_or, Service.text_fcas,
      Service.text_contingency, Service.text_regulation, imp_and, forall_and, gap_iff] <;> try tauto
  · simp [trapeziumsLayout, must, may, textField, numField, gapField, intField, typeField, dispatchColumn, Service.text_inj, DType.text_inj] <;> try tauto

theorem interconnectors_accepts (regions : List String) (ds : List InterDef) : (interSchema regions).validate (interconnectorsFrame ds) = none ↔
    (∀ d ∈ ds, d.toR ∈ regions ∧ d.fromR ∈ regions ∧ (d.gcf = 1 ∨ d.gcf = -1) ∧ 0 ≤ d.fromLf ∧ 0 ≤ d.toLf) ∧ (ds.map (fun d => (d.inter, d.link))).Nodup := by
  unfold interconnectorsFrame
  rw [accepts_iff (C127_interconnectors regions) (by decide) (by simp [interconnectorsLayout, must, may, textField, numField, gapField, intField, typeField, dispatchColumn])
    (by simp [interconnectorsLayout, must, may, textField, numField, gapField, intField, typeField, dispatchColumn])]
  refine and_congr ?_ (nodup_map_congr (fun a b => ?_))
  · simp [interconnectorsLayout, must, may, textField, numField, gapField, intField, typeField, dispatchColumn, Rule.ok, Cell.Real, Cell.Negative, Service.text_mem, DType.text_mem, DType.text_or, CType.text_or, Service.text_fcas,
      Service.text_contingency, Service.text_regulation, imp_and, forall_and, gap_iff] <;> try tauto
  · simp [interconnectorsLayout, must, may, textField, numField, gapField, intField, typeField, dispatchColumn, Service.text_inj, DType.text_inj] <;> try tauto

theorem lossFunctions_accepts (fs : List LossFn) : lossSchema.validate (lossFunctionsFrame fs) = none ↔
    (∀ f ∈ fs, 0 ≤ f.share) ∧ (fs.map (fun f => (f.inter, f.link))).Nodup := by
  unfold lossFunctionsFrame
  rw [accepts_iff (C127_loss_functions) (by decide) (by simp [lossFunctionsLayout, must, may, textField, numField, gapField, intField, typeField, dispatchColumn])
    (by simp [lossFunctionsLayout, must, may, textField, numField, gapField, intField, typeField, dispatchColumn])]
  refine and_congr ?_ (nodup_map_congr (fun a b => ?_))
  · simp [lossFunctionsLayout, must, may, textField, numField, gapField, intField, typeField, dispatchColumn, Rule.ok, Cell.Real, Cell.Negative, Service.text_mem, DType.text_mem, DType.text_or, CType.text_or, Service.text_fcas,
      Service.text_contingency, Service.text_regulation, imp_and, forall_and, gap_iff] <;> try tauto
  · simp [lossFunctionsLayout, must, may, textField, numField, gapField, intField, typeField, dispatchColumn, Service.text_inj, DType.text_inj] <;> try tauto

theorem breakPoints_accepts (bs : List BreakPt) : breakPointSchema.validate (breakPointsFrame bs) = none ↔
    True ∧ (bs.map (fun b => (b.inter, b.link, b.seg))).Nodup := by
  unfold breakPointsFrame
  rw [accepts_iff (C127_break_points) (by decide) (by simp [breakPointsLayout, must, may, textField, numField, gapField, intField, typeField, dispatchColumn])
    (by simp [breakPointsLayout, must, may, textField, numField, gapField, intField, typeField, dispatchColumn])]
  refine and_congr ?_ (nodup_map_congr (fun a b => ?_))
  · simp [breakPointsLayout, must, may, textField, numField, gapField, intField, typeField, dispatchColumn, Rule.ok, Cell.Real, Cell.Negative, Service.text_mem, DType.text_mem, DType.text_or, CType.text_or, Service.text_fcas,
      Service.text_contingency, Service.text_regulation, imp_and, forall_and, gap_iff] <;> try tauto
  · simp [breakPointsLayout, must, may, textField, numField, gapField, intField, typeField, dispatchColumn, Service.text_inj, DType.text_inj] <;> try tauto

theorem generic_accepts (gs : List GenericRow) : genericSchema.validate (genericFrame gs) = none ↔
    True ∧ (gs.map (·.set)).Nodup := by
  unfold genericFrame
  rw [accepts_iff (C127_generic_constraints) (by decide) (by simp [genericLayout, must, may, textField, numField, gapField, intField, typeField, dispatchColumn])
    (by simp [genericLayout, must, may, textField, numField, gapField, intField, typeField, dispatchColumn])]
  refine and_congr ?_ (nodup_map_congr (fun a b => ?_))
  · simp [genericLayout, must, may, textField, numField, gapField, intField, typeField, dispatchColumn, Rule.ok, Cell.Real, Cell.Negative, Service.text_mem, DType.text_mem, DType.text_or, CType.text_or, Service.text_fcas,
      Service.text_contingency, Service.text_regulation, imp_and, forall_and, gap_iff] <;> try tauto
  · simp [genericLayout, must, may, textField, numField, gapField, intField, typeField, dispatchColumn, Service.text_inj, DType.text_inj] <;> try tauto

theorem unitCoefficients_accepts (units : List String) (gs : List GUnit) : (unitCoefSchema units).validate (unitCoefficientsFrame gs) = none ↔
    (∀ g ∈ gs, g.unit ∈ units) ∧ (gs.map (fun g => (g.set, g.unit, g.service))).Nodup := by
  unfold unitCoefficientsFrame
  rw [accepts_iff (C127_unit_coefficients units) (by decide) (by simp [unitCoefficientsLayout, must, may, textField, numField, gapField, intField, typeField, dispatchColumn])
    (by simp [unitCoefficientsLayout, must, may, textField, numField, gapField, intField, typeField, dispatchColumn])]
  refine and_congr ?_ (nodup_map_congr (fun a b => ?_))
  · simp [unitCoefficientsLayout, must, may, textField, numField, gapField, intField, typeField, dispatchColumn, Rule.ok, Cell.Real, Cell.Negative, Service.text_mem, DType.text_mem, DType.text_or, CType.text_or, Service.text_fcas,
      Service.text_contingency, Service.text_regulation, imp_and, forall_and, gap_iff] <;> try tauto
  · simp [unitCoefficientsLayout, must, may, textField, numField, gapField, intField, typeField, dispatchColumn, Service.text_inj, DType.text_inj] <;> try tauto

theorem regionCoefficients_accepts (regions : List String) (gs : List GRegion) : (regionCoefSchema regions).validate (regionCoefficientsFrame gs) = none ↔
    (∀ g ∈ gs, g.region ∈ regions) ∧ (gs.map (fun g => (g.set, g.region, g.service))).Nodup := by
  unfold regionCoefficientsFrame
  rw [accepts_iff (C127_region_coefficients regions) (by decide) (by simp [regionCoefficientsLayout, must, may, textField, numField, gapField, intField, typeField, dispatchColumn])
    (by simp [regionCoefficientsLayout, must, may, textField, numField, gapField, intField, typeField, dispatchColumn])]
  refine and_congr ?_ (nodup_map_congr (fun a b => ?_))
  · simp [regionCoefficientsLayout, must, may, textField, numField, gapField, intField, typeField, dispatchColumn, Rule.ok, Cell.Real, Cell.Negative, Service.text_mem, DType.text_mem, DType.text_or, CType.text_or, Service.text_fcas,
      Service.text_contingency, Service.text_regulation, imp_and, forall_and, gap_iff] <;> try tauto
  · simp [regionCoefficientsLayout, must, may, textField, numField, gapField, intField, typeField, dispatchColumn, Service.text_inj, DType.text_inj] <;> try tauto

theorem interconnectorCoefficients_accepts (gs : List GInter) : interCoefSchema.validate (interconnectorCoefficientsFrame gs) = none ↔
    True ∧ (gs.map (fun g => (g.set, g.inter))).Nodup := by
  unfold interconnectorCoefficientsFrame
  rw [accepts_iff (C127_interconnector_coefficients) (by decide) (by simp [interconnectorCoefficientsLayout, must, may, textField, numField, gapField, intField, typeField, dispatchColumn])
    (by simp [interconnectorCoefficientsLayout, must, may, textField, numField, gapField, intField, typeField, dispatchColumn])]
  refine and_congr ?_ (nodup_map_congr (fun a b => ?_))
  · simp [interconnectorCoefficientsLayout, must, may, textField, numField, gapField, intField, typeField, dispatchColumn, Rule.ok, Cell.Real, Cell.Negative, Service.text_mem, DType.text_mem, DType.text_or, CType.text_or, Service.text_fcas,
      Service.text_contingency, Service.text_regulation, imp_and, forall_and, gap_iff] <;> try tauto
  · simp [interconnectorCoefficientsLayout, must, may, textField, numField, gapField, intField, typeField, dispatchColumn, Service.text_inj, DType.text_inj] <;> try tauto

theorem violationCosts_accepts (t : List (String × ℚ)) : costSchema.validate (violationCostsFrame t) = none ↔
    True ∧ (t.map id).Nodup := by
  unfold violationCostsFrame
  rw [accepts_iff (C127_violation_costs) (by decide) (by simp [violationCostsLayout, must, may, textField, numField, gapField, intField, typeField, dispatchColumn])
    (by simp [violationCostsLayout, must, may, textField, numField, gapField, intField, typeField, dispatchColumn])]
  refine and_congr ?_ (nodup_map_congr (fun a b => ?_))
  · simp [violationCostsLayout, must, may, textField, numField, gapField, intField, typeField, dispatchColumn, Rule.ok, Cell.Real, Cell.Negative, Service.text_mem, DType.text_mem, DType.text_or, CType.text_or, Service.text_fcas,
      Service.text_contingency, Service.text_regulation, imp_and, forall_and, gap_iff]
    refine ⟨?_, ?_, ?_, ?_, ?_⟩ <;> rintro _ _ _ _ rfl <;> simp
  · simp [violationCostsLayout, must, may, textField, numField, gapField, intField, typeField, dispatchColumn, Service.text_inj, DType.text_inj]
    exact Prod.ext_iff.symm

theorem capacities_accepts (units : List String) (dispatch : Bool) (ls : List Lim) : (unitLimitsSchema units dispatch).validate (capacitiesFrame dispatch ls) = none ↔
    (∀ l ∈ ls, l.unit ∈ units) ∧ (ls.map (fun l => (l.unit, if dispatch then l.dtype else .generator))).Nodup := by
  unfold capacitiesFrame
  cases dispatch
  all_goals
    rw [accepts_iff (C127_capacities units _) (by decide) (by simp [capacitiesLayout, must, may, textField, numField, gapField, intField, typeField, dispatchColumn])
      (by simp [capacitiesLayout, must, may, textField, numField, gapField, intField, typeField, dispatchColumn])]
    refine and_congr ?_ (nodup_map_congr (fun a b => ?_))
    · simp [capacitiesLayout, must, may, textField, numField, gapField, intField, typeField, dispatchColumn, Rule.ok, Cell.Real, Cell.Negative, Service.text_mem, DType.text_mem, DType.text_or, CType.text_or, Service.text_fcas,
        Service.text_contingency, Service.text_regulation, imp_and, forall_and, gap_iff] <;> try tauto
    · simp [capacitiesLayout, must, may, textField, numField, gapField, intField, typeField, dispatchColumn, Service.text_inj, DType.text_inj] <;> try tauto

theorem rampRates_accepts (units : List String) (dispatch : Bool) (rs : List RampRow) : (rampSchema units dispatch).validate (rampRatesFrame dispatch rs) = none ↔
    (∀ l ∈ rs, l.unit ∈ units) ∧ (rs.map (fun l => (l.unit, if dispatch then l.dtype else .generator))).Nodup := by
  unfold rampRatesFrame
  cases dispatch
  all_goals
    rw [accepts_iff (C127_ramp_rates units _) (by decide) (by simp [rampRatesLayout, must, may, textField, numField, gapField, intField, typeField, dispatchColumn])
      (by simp [rampRatesLayout, must, may, textField, numField, gapField, intField, typeField, dispatchColumn])]
    refine and_congr ?_ (nodup_map_congr (fun a b => ?_))
    · simp [rampRatesLayout, must, may, textField, numField, gapField, intField, typeField, dispatchColumn, Rule.ok, Cell.Real, Cell.Negative, Service.text_mem, DType.text_mem, DType.text_or, CType.text_or, Service.text_fcas,
        Service.text_contingency, Service.text_regulation, imp_and, forall_and, gap_iff] <;> try tauto
    · simp [rampRatesLayout, must, may, textField, numField, gapField, intField, typeField, dispatchColumn, Service.text_inj, DType.text_inj] <;> try tauto

/-- the names of the bands -/
def bandNames : List String := ["1", "2", "3", "4", "5", "6", "7", "8", "9", "10"]

theorem bandColumns_name {r : Rule} {k : Column} (h : k ∈ bandColumns r) : k.name ∈ bandNames ∧ k.rule = r := by
  simp [bandColumns, must, may] at h
  rcases h with h | h | h | h | h | h | h | h | h | h <;> subst h <;> simp [bandNames]

theorem bandColumns_mem {r : Rule} {b : String} (h : b ∈ bandNames) : ∃ k ∈ bandColumns r, k.name = b := by
  simp [bandNames] at h
  rcases h with rfl | rfl | rfl | rfl | rfl | rfl | rfl | rfl | rfl | rfl <;> simp [bandColumns, must, may]

/-- the columns of a bid table other than the bands -/
def bidFields (dispatch : Bool) : List (Field BidRow) :=
  textField "unit" (·.unit) :: textField "service" (fun b => b.service.text) :: typeField dispatch (·.dtype)

theorem bids_accepts {l : Layout} {s : Schema} {dispatch : Bool} {bands : List String} {bs : List BidRow} {r : Rule} {cs : List Column}
    {units : List String} (hs : ∀ {f : Frame}, f.Regular → (s.validate f = none ↔ l.Fits f))
    (hl : ∀ k, k ∈ l.columns ↔ k ∈ cs ∨ k ∈ bandColumns r) (hkeys : ∀ k, k ∈ l.keys ↔ k ∈ ["unit", "service", "dispatch_type"])
    (hcs : ∀ k, k ∈ cs ↔ k = must "unit" (.oneOf units) ∨ k = may "service" (.oneOf serviceNames) ∨ k ∈ dispatchColumn dispatch)
    (hb : bands.Nodup) (hin : ∀ b ∈ bands, b ∈ bandNames) (h1 : "1" ∈ bands) :
    s.validate (bidsFrame dispatch bands bs) = none ↔
      ((∀ b ∈ bs, b.unit ∈ units) ∧ ∀ n ∈ bands, r.ok ⟨.float64, bs.map (fun b => .num (bandOf n b))⟩) ∧
      (bs.map (fun b => (b.unit, b.service, if dispatch then b.dtype else .generator))).Nodup := by
  have hne : ∀ b ∈ bands, b ≠ "unit" ∧ b ≠ "service" ∧ b ≠ "dispatch_type" := by
    intro b h
    have := hin b h
    simp [bandNames] at this
    rcases this with rfl | rfl | rfl | rfl | rfl | rfl | rfl | rfl | rfl | rfl <;> decide
  have hcsn : ∀ k ∈ cs, k.name ∈ ["unit", "service", "dispatch_type"] := by
    intro k hk
    rcases (hcs k).1 hk with rfl | rfl | h
    · simp [must]
    · simp [may]
    · cases dispatch <;> simp [dispatchColumn, must, may] at h <;> subst h <;> decide
  have hff : bidsFrame dispatch bands bs = frameOf bs (bidFields dispatch ++ bands.map (fun b => numField b (bandOf b))) := rfl
  rw [hff, accepts_iff hs]
  · refine and_congr ?_ ?_
    · constructor
      · intro h
        refine ⟨fun b hb' => ?_, fun n hn => ?_⟩
        · have := h (must "unit" (.oneOf units)) ((hl _).2 (Or.inl ((hcs _).2 (Or.inl rfl)))) (textField "unit" (·.unit))
            (by simp [bidFields]) rfl
          simp [must, Rule.ok, textField] at this
          exact this b hb'
        · obtain ⟨k, hk, e⟩ := bandColumns_mem (r := r) (hin n hn)
          have := h k ((hl _).2 (Or.inr hk)) (numField n (bandOf n)) (List.mem_append_right _ (List.mem_map.2 ⟨n, hn, rfl⟩)) e.symm
          rwa [(bandColumns_name hk).2] at this
      · rintro ⟨hu, hr⟩ k hk c hc e
        rcases List.mem_append.1 hc with hc | hc
        · rcases (hl k).1 hk with hk | hk
          · rcases (hcs k).1 hk with rfl | rfl | hk
            · cases dispatch <;> simp [bidFields, typeField] at hc
              · rcases hc with rfl | rfl
                · simpa [must, Rule.ok, textField] using hu
                · exact absurd e (by simp [textField, must])
              · rcases hc with rfl | rfl | rfl
                · simpa [must, Rule.ok, textField] using hu
                · exact absurd e (by simp [textField, must])
                · exact absurd e (by simp [textField, must])
            · cases dispatch <;> simp [bidFields, typeField] at hc
              · rcases hc with rfl | rfl
                · exact absurd e (by simp [textField, may])
                · simp [may, Rule.ok, textField, Service.text_mem]
              · rcases hc with rfl | rfl | rfl
                · exact absurd e (by simp [textField, may])
                · simp [may, Rule.ok, textField, Service.text_mem]
                · exact absurd e (by simp [textField, may])
            · cases dispatch <;> simp [bidFields, typeField] at hc <;> simp [dispatchColumn, must, may] at hk
              subst hk
              rcases hc with rfl | rfl | rfl
              · exact absurd e (by simp [textField])
              · exact absurd e (by simp [textField])
              · simp [Rule.ok, textField, DType.text_or]
          · have := (bandColumns_name hk).1
            rw [← e] at this
            exfalso
            cases dispatch <;> simp [bidFields, typeField] at hc
            · rcases hc with rfl | rfl <;> exact absurd this (by simp [textField, bandNames])
            · rcases hc with rfl | rfl | rfl <;> exact absurd this (by simp [textField, bandNames])
        · obtain ⟨n, hn, rfl⟩ := List.mem_map.1 hc
          rcases (hl k).1 hk with hk | hk
          · have h3 := hcsn k hk
            rw [← e] at h3
            have h4 := hne n hn
            simp [numField] at h3
            rcases h3 with h3 | h3 | h3
            · exact absurd h3 h4.1
            · exact absurd h3 h4.2.1
            · exact absurd h3 h4.2.2
          · rw [(bandColumns_name hk).2]
            exact hr n hn
    · have hf : (bidFields dispatch ++ bands.map (fun b => numField b (bandOf b))).filter (fun c => decide (c.name ∈ l.keys)) = bidFields dispatch := by
        rw [List.filter_append]
        rw [List.filter_eq_self.2, List.filter_eq_nil_iff.2, List.append_nil]
        · intro c hc
          obtain ⟨n, hn, rfl⟩ := List.mem_map.1 hc
          have h4 := hne n hn
          simp [hkeys, numField, h4]
        · intro c hc
          cases dispatch <;> simp [bidFields, typeField] at hc
          · rcases hc with rfl | rfl <;> simp [hkeys, textField]
          · rcases hc with rfl | rfl | rfl <;> simp [hkeys, textField]
      rw [hf]
      refine nodup_map_congr (fun a b => ?_)
      cases dispatch <;> simp [bidFields, typeField, textField, Service.text_inj, DType.text_inj]
  · rw [List.map_append, List.nodup_append']
    have hm : (bands.map (fun b => numField b (bandOf b))).map Field.name = bands := by
      simp [List.map_map, Function.comp_def, numField]
    rw [hm]
    refine ⟨by cases dispatch <;> simp [bidFields, typeField, textField], hb, fun x hx hx' => ?_⟩
    have h4 := hne x hx'
    cases dispatch <;> simp [bidFields, typeField, textField, h4] at hx
  · intro c hc
    rcases List.mem_append.1 hc with hc | hc
    · cases dispatch <;> simp [bidFields, typeField] at hc
      · rcases hc with rfl | rfl
        · exact ⟨_, (hl _).2 (Or.inl ((hcs _).2 (Or.inl rfl))), rfl⟩
        · exact ⟨_, (hl _).2 (Or.inl ((hcs _).2 (Or.inr (Or.inl rfl)))), rfl⟩
      · rcases hc with rfl | rfl | rfl
        · exact ⟨_, (hl _).2 (Or.inl ((hcs _).2 (Or.inl rfl))), rfl⟩
        · exact ⟨_, (hl _).2 (Or.inl ((hcs _).2 (Or.inr (Or.inl rfl)))), rfl⟩
        · exact ⟨_, (hl _).2 (Or.inl ((hcs _).2 (Or.inr (Or.inr (List.mem_singleton.2 rfl))))), rfl⟩
    · obtain ⟨n, hn, rfl⟩ := List.mem_map.1 hc
      obtain ⟨k, hk, e⟩ := bandColumns_mem (r := r) (hin n hn)
      exact ⟨k, (hl k).2 (Or.inr hk), e⟩
  · intro k hk hout
    rcases (hl k).1 hk with hk | hk
    · rcases (hcs k).1 hk with rfl | rfl | hk
      · exact ⟨textField "unit" (·.unit), by simp [bidFields], rfl⟩
      · cases hout
      · cases dispatch <;> simp [dispatchColumn, must, may] at hk
        subst hk
        exact ⟨textField "dispatch_type" (fun b => b.dtype.text), by simp [bidFields, typeField], rfl⟩
    · refine ⟨numField "1" (bandOf "1"), List.mem_append_right _ (List.mem_map.2 ⟨_, h1, rfl⟩), ?_⟩
      simp [bandColumns, must, may] at hk
      rcases hk with rfl | rfl | rfl | rfl | rfl | rfl | rfl | rfl | rfl | rfl <;> first | rfl | cases hout

theorem volumeBids_accepts (units : List String) (dispatch : Bool) {bands : List String} (bs : List BidRow)
    (hb : bands.Nodup) (hin : ∀ b ∈ bands, b ∈ bandNames) (h1 : "1" ∈ bands) :
    (volumeBidsSchema units dispatch).validate (bidsFrame dispatch bands bs) = none ↔
      (∀ b ∈ bs, b.unit ∈ units ∧ ∀ n ∈ bands, 0 ≤ bandOf n b) ∧
      (bs.map (fun b => (b.unit, b.service, if dispatch then b.dtype else .generator))).Nodup := by
  rw [bids_accepts (l := volumeBidsLayout units dispatch) (r := .amount) (units := units)
    (cs := must "unit" (.oneOf units) :: (dispatchColumn dispatch ++ [may "service" (.oneOf serviceNames)])) (C127_volume_bids units dispatch)
    (by simp [volumeBidsLayout, or_assoc]) (by simp [volumeBidsLayout]) (by simp; tauto) hb hin h1]
  refine and_congr_left' ?_
  simp [Rule.ok, Cell.Real, Cell.Negative]
  exact ⟨fun h b hb' => ⟨h.1 b hb', fun n hn => h.2 n hn b hb'⟩, fun h => ⟨fun b hb' => (h b hb').1, fun n hn b hb' => (h b hb').2 n hn⟩⟩

theorem priceBids_accepts (units : List String) (dispatch : Bool) {bands : List String} (bs : List BidRow)
    (hb : bands.Nodup) (hin : ∀ b ∈ bands, b ∈ bandNames) (h1 : "1" ∈ bands) :
    (priceBidsSchema units dispatch).validate (bidsFrame dispatch bands bs) = none ↔
      (∀ b ∈ bs, b.unit ∈ units) ∧
      (bs.map (fun b => (b.unit, b.service, if dispatch then b.dtype else .generator))).Nodup := by
  rw [bids_accepts (l := priceBidsLayout units dispatch) (r := .finite) (units := units)
    (cs := must "unit" (.oneOf units) :: may "service" (.oneOf serviceNames) :: dispatchColumn dispatch) (C127_price_bids units dispatch)
    (by simp [priceBidsLayout, or_assoc]) (by simp [priceBidsLayout]) (by simp) hb hin h1]
  refine and_congr_left' ?_
  simp [Rule.ok, Cell.Real]

end Validator

end Verif
