import Verif.Proofs.Ramp
import Verif.Proofs.Demo
import Mathlib.Algebra.Order.Field.Basic

/-!
# C08, C09, C10, C12: ramp rate constraints

`upLimit`, `downLimit`, `tighter`, `scadaRate`, `reachUp` and `reachDown` are in `Verif/Spec/Ramp.lean`.
-/

namespace Verif

/-- **C08, C12** The ramp constraints of units that are not bidirectional, exactly, for all run types:
they say that the energy dispatch of every listed unit with an energy bid is within its limits. -/
theorem C12_ramp_limits_exact {rs : List RampRow} {sc : Option (List Scada)} {ps : Option (List FsRamp)} {rt : RunType}
    {m : Market} (h : InForce (.rampRates rs sc ps rt none) m) (hdi : m.di ≠ 0) {lp : Lp} (hl : m.assemble = .ok lp)
    {x : Nat → ℚ} :
    (m.obeys lp x .rampUp ↔ ∀ r ∈ rs, r.unit ∉ m.bidi → m.lists r.unit r.dtype → m.bidsFor r.unit .energy r.dtype →
      ∀ L, upLimit rt (ps.getD []) m.di r.init (tighter r.up (scadaRate sc Scada.up r.unit)) r.unit = some L →
        m.dispatched x r.unit .energy r.dtype ≤ L) ∧
    (m.obeys lp x .rampDown ↔ ∀ r ∈ rs, r.unit ∉ m.bidi → m.lists r.unit r.dtype → m.bidsFor r.unit .energy r.dtype →
      ∀ L, downLimit rt (ps.getD []) m.di r.init (tighter r.down (scadaRate sc Scada.down r.unit)) r.unit = some L →
        L ≤ m.dispatched x r.unit .energy r.dtype) := by
  obtain ⟨_, hsc, hps, ord, n1, n2, ho, hup, hdn, _⟩ := ramp_imposed h
  rw [scadaOpt_ord hsc] at ho
  have hord : ∀ q ∈ ord, q.unit ∉ m.bidi := by
    have := (mem_ord hps hdi ho (fun u _ _ => u ∉ m.bidi)).1.2 ?_
    · exact this
    · intro r hr L _
      obtain ⟨r', hr', rfl⟩ := List.mem_map.1 hr
      simp only [compositeRampRates, List.mem_filter, decide_eq_true_eq] at hr'
      exact hr'.2
  have conv : ∀ (P : String → DType → ℚ → Prop) (f : RampRow → Option ℚ) ,
      (∀ r ∈ (compositeRampRates rs m.di m.bidi).1.map (fun r =>
        { r with down := tighter r.down (scadaRate sc Scada.down r.unit), up := tighter r.up (scadaRate sc Scada.up r.unit) }),
        ∀ L, f r = some L → P r.unit r.dtype L) ↔
      (∀ r ∈ rs, r.unit ∉ m.bidi → ∀ L, f { r with down := tighter r.down (scadaRate sc Scada.down r.unit), up := tighter r.up (scadaRate sc Scada.up r.unit) } = some L →
        P r.unit r.dtype L) := by
    intro P f
    simp only [compositeRampRates, List.mem_map, List.mem_filter, decide_eq_true_eq]
    constructor
    · intro h r hr hb L hL
      exact h _ ⟨r, ⟨hr, hb⟩, rfl⟩ L hL
    · rintro h _ ⟨r, ⟨hr, hb⟩, rfl⟩ L hL
      exact h r hr hb L hL
  constructor
  · rw [rampUpConstraints] at hup
    rw [limits_iff hup hl]
    have := ((mem_ord hps hdi ho (fun u d L => u ∉ m.bidi → m.lists u d → m.bidsFor u .energy d →
      m.dispatched x u .energy d ≤ L)).1).trans (conv (fun u d L => u ∉ m.bidi → m.lists u d → m.bidsFor u .energy d →
      m.dispatched x u .energy d ≤ L) (fun r => upLimit rt (ps.getD []) m.di r.init r.up r.unit))
    constructor
    · intro ha r hr hb h1 h2 L hL
      refine this.1 ?_ r hr hb L hL hb h1 h2
      intro q hq hqb h1 h2
      have := ha _ (List.mem_map.2 ⟨q, hq, rfl⟩) h1 h2
      simpa [side_of_not_bidi hqb, CType.holds] using this
    · intro ha l hm h1 h2
      obtain ⟨q, hq, rfl⟩ := List.mem_map.1 hm
      dsimp only at h1 h2 ⊢
      have := this.2 (fun r hr hb L hL _ h1 h2 => ha r hr hb h1 h2 L hL) q hq (hord q hq) h1 h2
      simpa [side_of_not_bidi (hord q hq), CType.holds] using this
  · rw [rampDownConstraints] at hdn
    rw [limits_iff hdn hl]
    have := ((mem_ord hps hdi ho (fun u d L => u ∉ m.bidi → m.lists u d → m.bidsFor u .energy d →
      L ≤ m.dispatched x u .energy d)).2).trans (conv (fun u d L => u ∉ m.bidi → m.lists u d → m.bidsFor u .energy d →
      L ≤ m.dispatched x u .energy d) (fun r => downLimit rt (ps.getD []) m.di r.init r.down r.unit))
    constructor
    · intro ha r hr hb h1 h2 L hL
      refine this.1 ?_ r hr hb L hL hb h1 h2
      intro q hq hqb h1 h2
      have := ha _ (List.mem_map.2 ⟨q, hq, rfl⟩) h1 h2
      simpa [side_of_not_bidi hqb, CType.holds] using this
    · intro ha l hm h1 h2
      obtain ⟨q, hq, rfl⟩ := List.mem_map.1 hm
      dsimp only at h1 h2 ⊢
      have := this.2 (fun r hr hb L hL _ h1 h2 => ha r hr hb h1 h2 L hL) q hq (hord q hq) h1 h2
      simpa [side_of_not_bidi (hord q hq), CType.holds] using this

/-- **C08** Without fast start profiles: in every feasible solution the energy dispatch differs from the
initial output by at most the smaller of bid and SCADA rate times the interval. -/
theorem C08_ramp_limits {rs : List RampRow} {sc : Option (List Scada)} {ps : Option (List FsRamp)} {m : Market}
    (h : InForce (.rampRates rs sc ps .noFastStart none) m) (hdi : m.di ≠ 0) {lp : Lp} (hl : m.assemble = .ok lp)
    {x : Nat → ℚ} (hx : Feasible lp x) {r : RampRow} (hr : r ∈ rs) (hb : r.unit ∉ m.bidi)
    (hu : m.lists r.unit r.dtype) (hv : m.bidsFor r.unit .energy r.dtype) :
    m.dispatched x r.unit .energy r.dtype ≤ r.init + tighter r.up (scadaRate sc Scada.up r.unit) * (m.di / 60) ∧
    r.init - tighter r.down (scadaRate sc Scada.down r.unit) * (m.di / 60) ≤ m.dispatched x r.unit .energy r.dtype := by
  obtain ⟨h1, h2⟩ := C12_ramp_limits_exact h hdi hl (x := x)
  exact ⟨h1.1 (hx.obeys m _) r hr hb hu hv _ rfl, h2.1 (hx.obeys m _) r hr hb hu hv _ rfl⟩

/-- **C12** A run type that is not known is rejected with a ValueError and changes nothing. -/
theorem C12_unknown_run_type {m : Market} (hm : m.nanCon = false) {rs : List RampRow} {sc : Option (List Scada)}
    {ps : Option (List FsRamp)} {vc : Option VCost} (h1 : m.rampsOk rs = true)
    (h2 : biInputsOk m.bidi (rs.map (·.unit)) = true) (h3 : m.fsProfilesOk .other ps = true)
    (h4 : m.scadaOptOk sc = true) :
    m.step (.rampRates rs sc ps .other vc) = (m, some .valueError) := by
  simp [Market.step, hm, Market.setRampRates, h1, h2, h3, h4, adjustForFastStart]

/-- the bound on net output that the composite rate stands for is the physical trajectory -/
theorem C09_composite_rate_is_trajectory {di init : ℚ} (hdi : 0 < di) {gUp gDown lUp lDown : ℚ}
    (h3 : 0 ≤ lDown) (h4 : 0 ≤ gDown) :
    init + compositeUp di init gUp lDown * (di / 60) = reachUp init (di / 60) gUp lDown ∧
    init - compositeDown di init lUp gDown * (di / 60) = reachDown init (di / 60) gDown lUp := by
  have ht : 0 < di / 60 := div_pos hdi (by norm_num)
  constructor
  · unfold compositeUp reachUp
    dsimp only
    by_cases h0 : 0 ≤ init
    · rw [if_pos h0, if_pos h0]
    · rw [if_neg (by simpa using h0), if_neg h0]
      have hi : init < 0 := not_le.1 h0
      by_cases hz : lDown = 0
      · subst hz
        rw [if_pos rfl, if_pos (by linarith)]
      · have hp : 0 < lDown := lt_of_le_of_ne h3 (Ne.symm hz)
        rw [if_neg hz]
        have habs : |init / lDown| = -init / lDown := by
          rw [abs_of_neg (div_neg_of_neg_of_pos hi hp), neg_div]
        rw [habs]
        by_cases hc : init + lDown * (di / 60) ≤ 0
        · rw [if_pos hc, if_pos]
          rw [ge_iff_le, le_div_iff₀ hp]; linarith
        · rw [if_neg hc, if_neg]
          · rw [div_mul_cancel₀ _ (ne_of_gt ht)]; ring
          · rw [ge_iff_le, le_div_iff₀ hp]; intro h; apply hc; linarith
  · unfold compositeDown reachDown
    dsimp only
    by_cases h0 : init ≤ 0
    · rw [if_pos h0, if_pos h0]
    · rw [if_neg h0, if_neg h0]
      have hi : 0 < init := not_le.1 h0
      by_cases hz : gDown = 0
      · subst hz
        rw [if_pos rfl, if_pos (by linarith)]
      · have hp : 0 < gDown := lt_of_le_of_ne h4 (Ne.symm hz)
        rw [if_neg hz]
        have habs : |init / gDown| = init / gDown := abs_of_pos (div_pos hi hp)
        rw [habs]
        by_cases hc : 0 ≤ init - gDown * (di / 60)
        · rw [if_pos hc, if_pos]
          rw [ge_iff_le, le_div_iff₀ hp]; linarith
        · rw [if_neg hc, if_neg]
          · rw [div_mul_cancel₀ _ (ne_of_gt ht)]; ring
          · rw [ge_iff_le, le_div_iff₀ hp]; intro h; apply hc; linarith

/-- what the constraints of bidirectional units say, with the SCADA rates -/
theorem bidirectional_exact {rs : List RampRow} {sc : Option (List Scada)} {ps : Option (List FsRamp)} {rt : RunType}
    {m : Market} (h : InForce (.rampRates rs sc ps rt none) m)
    (hne : ∃ g ∈ rs, ∃ l ∈ rs, g.unit ∈ m.bidi ∧ g.unit = l.unit ∧ g.dtype = .generator ∧ l.dtype = .load)
    {lp : Lp} (hl : m.assemble = .ok lp) {x : Nat → ℚ} :
    (m.obeys lp x .biRampUp ↔ ∀ g ∈ rs, ∀ l ∈ rs, g.unit ∈ m.bidi → g.unit = l.unit → g.dtype = .generator → l.dtype = .load →
      (∃ d, m.bidsFor l.unit .energy d) →
      m.netOutput x l.unit ≤ l.init + tighter (compositeUp m.di l.init g.up l.down) (scadaRate sc Scada.up l.unit) * (m.di / 60)) ∧
    (m.obeys lp x .biRampDown ↔ ∀ g ∈ rs, ∀ l ∈ rs, g.unit ∈ m.bidi → g.unit = l.unit → g.dtype = .generator → l.dtype = .load →
      (∃ d, m.bidsFor l.unit .energy d) →
      l.init - tighter (compositeDown m.di g.init l.up g.down) (scadaRate sc Scada.down l.unit) * (m.di / 60) ≤ m.netOutput x l.unit) := by
  obtain ⟨hn, hsc, hps, ord, n1, n2, ho, hup, hdn, hbi⟩ := ramp_imposed h
  rw [scadaOpt_bi hsc] at hbi
  have hnd : (((compositeRampRates rs m.di m.bidi).2.map (fun r =>
      { r with down := tighter r.down (scadaRate sc Scada.down r.unit), up := tighter r.up (scadaRate sc Scada.up r.unit) })).map BiRamp.unit).Nodup := by
    rw [List.map_map]; exact composite_nodup hn
  have hmem := @mem_composite rs m.di m.bidi hn
  have hin : ∀ r ∈ (compositeRampRates rs m.di m.bidi).2.map (fun r =>
      ({ r with down := tighter r.down (scadaRate sc Scada.down r.unit), up := tighter r.up (scadaRate sc Scada.up r.unit) } : BiRamp)),
      r.unit ∈ m.bidi := by
    intro r hr
    obtain ⟨b, hb, rfl⟩ := List.mem_map.1 hr
    obtain ⟨g, hg, l, hl, hgb, he, _, _, rfl⟩ := hmem.1 hb
    dsimp only
    rw [← he]; exact hgb
  obtain ⟨n3, n4, hu, hd⟩ := hbi (by
    obtain ⟨g, hg, l, hl, hgb, he, h1, h2⟩ := hne
    have := hmem.2 ⟨g, hg, l, hl, hgb, he, h1, h2, rfl⟩
    intro hnil
    rw [List.map_eq_nil_iff] at hnil
    rw [hnil] at this
    simp at this)
  constructor
  · rw [biRamp_iff hu hnd hin hl]
    constructor
    · intro ha g hg l hl hgb he h1 h2 hb
      have := ha _ (List.mem_map.2 ⟨_, hmem.2 ⟨g, hg, l, hl, hgb, he, h1, h2, rfl⟩, rfl⟩) hb
      simpa using this
    · intro ha r hr hb
      obtain ⟨b, hbm, rfl⟩ := List.mem_map.1 hr
      obtain ⟨g, hg, l, hl, hgb, he, h1, h2, rfl⟩ := hmem.1 hbm
      have := ha g hg l hl hgb he h1 h2 hb
      simpa using this
  · rw [biRamp_iff hd hnd hin hl]
    constructor
    · intro ha g hg l hl hgb he h1 h2 hb
      have := ha _ (List.mem_map.2 ⟨_, hmem.2 ⟨g, hg, l, hl, hgb, he, h1, h2, rfl⟩, rfl⟩) hb
      simpa using this
    · intro ha r hr hb
      obtain ⟨b, hbm, rfl⟩ := List.mem_map.1 hr
      obtain ⟨g, hg, l, hl, hgb, he, h1, h2, rfl⟩ := hmem.1 hbm
      have := ha g hg l hl hgb he h1 h2 hb
      simpa using this

theorem tighter_up {init a t n : ℚ} (ht : 0 ≤ t) (b : Option ℚ) :
    n ≤ init + tighter a b * t ↔ n ≤ init + a * t ∧ ∀ v, b = some v → n ≤ init + v * t := by
  cases b with
  | none => simp [tighter]
  | some v =>
    simp only [tighter, Option.some.injEq, forall_eq']
    split
    · rename_i h
      have := mul_le_mul_of_nonneg_right h ht
      exact ⟨fun h => ⟨by linarith, h⟩, fun h => h.2⟩
    · rename_i h
      have := mul_le_mul_of_nonneg_right (le_of_lt (not_le.1 h)) ht
      exact ⟨fun h => ⟨h, by linarith⟩, fun h => h.1⟩

theorem tighter_down {init a t n : ℚ} (ht : 0 ≤ t) (b : Option ℚ) :
    init - tighter a b * t ≤ n ↔ init - a * t ≤ n ∧ ∀ v, b = some v → init - v * t ≤ n := by
  have := @tighter_up (-init) a t (-n) ht b
  constructor
  · intro h
    have h' := this.1 (by linarith)
    exact ⟨by linarith [h'.1], fun v hv => by linarith [h'.2 v hv]⟩
  · rintro ⟨h1, h2⟩
    have h' := this.2 ⟨by linarith, fun v hv => by linarith [h2 v hv]⟩
    linarith

/-- **C09** The ramp constraints of bidirectional units say exactly that net output stays between the
outputs reached by ramping down and up for the whole interval, and, where SCADA rates are given, between the outputs reached
at these. -/
theorem C09_net_output_follows_trajectory {rs : List RampRow} {sc : Option (List Scada)} {ps : Option (List FsRamp)} {rt : RunType}
    {m : Market} (h : InForce (.rampRates rs sc ps rt none) m) (hdi : 0 < m.di)
    (hr : ∀ r ∈ rs, r.unit ∈ m.bidi → 0 ≤ r.up ∧ 0 ≤ r.down)
    (hi : ∀ g ∈ rs, ∀ l ∈ rs, g.unit ∈ m.bidi → g.unit = l.unit → g.init = l.init)
    (hne : ∃ g ∈ rs, ∃ l ∈ rs, g.unit ∈ m.bidi ∧ g.unit = l.unit ∧ g.dtype = .generator ∧ l.dtype = .load)
    {lp : Lp} (hl : m.assemble = .ok lp) {x : Nat → ℚ} :
    (m.obeys lp x .biRampUp ∧ m.obeys lp x .biRampDown) ↔
    ∀ g ∈ rs, ∀ l ∈ rs, g.unit ∈ m.bidi → g.unit = l.unit → g.dtype = .generator → l.dtype = .load →
      (∃ d, m.bidsFor g.unit .energy d) →
      (reachDown g.init (m.di / 60) g.down l.up ≤ m.netOutput x g.unit ∧
        m.netOutput x g.unit ≤ reachUp g.init (m.di / 60) g.up l.down) ∧
      (∀ v, scadaRate sc Scada.down g.unit = some v → g.init - v * (m.di / 60) ≤ m.netOutput x g.unit) ∧
      (∀ v, scadaRate sc Scada.up g.unit = some v → m.netOutput x g.unit ≤ g.init + v * (m.di / 60)) := by
  obtain ⟨h1, h2⟩ := bidirectional_exact h hne hl (x := x)
  have ht : (0:ℚ) ≤ m.di / 60 := div_nonneg (le_of_lt hdi) (by norm_num)
  rw [h1, h2]
  simp only [tighter_up ht, tighter_down ht]
  constructor
  · rintro ⟨ha, hb⟩ g hg l hl hgb he hgd hld hd
    have e := C09_composite_rate_is_trajectory (init := g.init) hdi (gUp := g.up) (gDown := g.down) (lUp := l.up) (lDown := l.down) (hr l hl (he ▸ hgb)).2 (hr g hg hgb).2
    have ei := hi g hg l hl hgb he
    rw [← e.1, ← e.2, he]
    rw [he] at hd
    have a := ha g hg l hl hgb he hgd hld hd
    have b := hb g hg l hl hgb he hgd hld hd
    rw [ei] at b ⊢
    exact ⟨⟨b.1, a.1⟩, b.2, a.2⟩
  · intro ha
    constructor
    · intro g hg l hl hgb he hgd hld hd
      have e := C09_composite_rate_is_trajectory (init := g.init) hdi (gUp := g.up) (gDown := g.down) (lUp := l.up) (lDown := l.down) (hr l hl (he ▸ hgb)).2 (hr g hg hgb).2
      have ei := hi g hg l hl hgb he
      obtain ⟨⟨_, h3⟩, _, h4⟩ := ha g hg l hl hgb he hgd hld (by rw [he]; exact hd)
      rw [← e.1, he, ei] at h3
      rw [he, ei] at h4
      exact ⟨h3, h4⟩
    · intro g hg l hl hgb he hgd hld hd
      have e := C09_composite_rate_is_trajectory (init := g.init) hdi (gUp := g.up) (gDown := g.down) (lUp := l.up) (lDown := l.down) (hr l hl (he ▸ hgb)).2 (hr g hg hgb).2
      have ei := hi g hg l hl hgb he
      obtain ⟨⟨h3, _⟩, h4, _⟩ := ha g hg l hl hgb he hgd hld (by rw [he]; exact hd)
      rw [← e.2, he, ei] at h3
      rw [he, ei] at h4
      rw [ei]
      exact ⟨h3, h4⟩

theorem tighter_le (a : ℚ) (b : Option ℚ) : tighter a b ≤ a := by
  cases b with
  | none => exact le_refl _
  | some v => simp only [tighter]; split
              · assumption
              · exact le_refl _

theorem upLimit_mono {rt : RunType} {ps : List FsRamp} {di init up up' : ℚ} {u : String} (hdi : 0 ≤ di)
    (hps : ∀ p ∈ ps, 0 ≤ p.since.getD 0) (h : up' ≤ up) {L : ℚ} (hL : upLimit rt ps di init up u = some L) :
    ∃ L', upLimit rt ps di init up' u = some L' ∧ L' ≤ L := by
  have k : init + up' * (di / 60) ≤ init + up * (di / 60) := by
    have := mul_le_mul_of_nonneg_right h (div_nonneg hdi (show (0:ℚ) ≤ 60 by norm_num)); linarith
  cases rt with
  | noFastStart => simp only [upLimit, Option.some.injEq] at hL ⊢; subst hL; exact ⟨_, rfl, k⟩
  | other => simp [upLimit] at hL
  | first =>
    unfold upLimit at hL ⊢
    cases hf : ps.find? (fun p => decide (p.unit = u)) with
    | none => simp only [hf, Option.some.injEq] at hL ⊢; subst hL; exact ⟨_, rfl, k⟩
    | some p =>
      simp only [hf] at hL ⊢
      split at hL
      · cases hL
      · rename_i hc
        rw [if_neg hc]; injection hL with hL; subst hL; exact ⟨_, rfl, k⟩
  | second =>
    unfold upLimit at hL ⊢
    cases hf : ps.find? (fun p => decide (p.unit = u)) with
    | none => simp only [hf, Option.some.injEq] at hL ⊢; subst hL; exact ⟨_, rfl, k⟩
    | some p =>
      simp only [hf] at hL ⊢
      split at hL
      · cases hL
      · rename_i hc
        rw [if_neg hc]
        have hs0 := hps p (List.mem_of_find?_eq_some hf)
        cases hs : p.since with
        | none => simp only [hs, Option.some.injEq] at hL ⊢; subst hL; exact ⟨_, rfl, k⟩
        | some s =>
          rw [hs] at hs0
          simp only [hs, Option.some.injEq] at hL ⊢; subst hL
          refine ⟨_, rfl, ?_⟩
          have := mul_le_mul_of_nonneg_right h (div_nonneg hs0 (show (0:ℚ) ≤ 60 by norm_num))
          simp only [Option.getD_some] at this
          linarith

theorem downLimit_mono {rt : RunType} {ps : List FsRamp} {di init down down' : ℚ} {u : String} (hdi : 0 ≤ di)
    (h : down' ≤ down) {L : ℚ} (hL : downLimit rt ps di init down u = some L) :
    ∃ L', downLimit rt ps di init down' u = some L' ∧ L ≤ L' := by
  have k : init - down * (di / 60) ≤ init - down' * (di / 60) := by
    have := mul_le_mul_of_nonneg_right h (div_nonneg hdi (show (0:ℚ) ≤ 60 by norm_num)); linarith
  cases rt with
  | noFastStart => simp only [downLimit, Option.some.injEq] at hL ⊢; subst hL; exact ⟨_, rfl, k⟩
  | other => simp [downLimit] at hL
  | first =>
    unfold downLimit at hL ⊢
    cases hf : ps.find? (fun p => decide (p.unit = u)) with
    | none => simp only [hf, Option.some.injEq] at hL ⊢; subst hL; exact ⟨_, rfl, k⟩
    | some p =>
      simp only [hf] at hL ⊢
      split at hL
      · cases hL
      · rename_i hc
        rw [if_neg hc]; injection hL with hL; subst hL; exact ⟨_, rfl, k⟩
  | second =>
    unfold downLimit at hL ⊢
    cases hf : ps.find? (fun p => decide (p.unit = u)) with
    | none => simp only [hf, Option.some.injEq] at hL ⊢; subst hL; exact ⟨_, rfl, k⟩
    | some p =>
      simp only [hf] at hL ⊢
      split at hL
      · cases hL
      · rename_i hc
        rw [if_neg hc]; injection hL with hL; subst hL; exact ⟨_, rfl, k⟩

/-- **C10** SCADA rates only tighten: take two markets with the same units, bids and interval in which
the ramp constraints were set with and without SCADA rates.  Whatever obeys the ramp constraints of the
first obeys those of the second. -/
theorem C10_scada_only_tightens {rs : List RampRow} {sc : List Scada} {ps : Option (List FsRamp)} {rt : RunType}
    {m m' : Market} (h : InForce (.rampRates rs (some sc) ps rt none) m) (h' : InForce (.rampRates rs none ps rt none) m')
    (hu : m'.units = m.units) (hb : m'.bids = m.bids) (hd : m'.di = m.di) (hdi : 0 < m.di)
    (hps : ∀ p ∈ ps.getD [], 0 ≤ p.since.getD 0) {lp lp' : Lp}
    (hl : m.assemble = .ok lp) (hl' : m'.assemble = .ok lp') {x : Nat → ℚ} :
    (m.obeys lp x .rampUp → m'.obeys lp' x .rampUp) ∧ (m.obeys lp x .rampDown → m'.obeys lp' x .rampDown) ∧
    ((∃ g ∈ rs, ∃ l ∈ rs, g.unit ∈ m.bidi ∧ g.unit = l.unit ∧ g.dtype = .generator ∧ l.dtype = .load) →
      (m.obeys lp x .biRampUp → m'.obeys lp' x .biRampUp) ∧ (m.obeys lp x .biRampDown → m'.obeys lp' x .biRampDown)) := by
  have e1 : ∀ u d, m'.lists u d ↔ m.lists u d := fun u d => by unfold Market.lists; rw [hu]
  have e2 : ∀ u s d, m'.bidsFor u s d ↔ m.bidsFor u s d := fun u s d => by unfold Market.bidsFor; rw [hb]
  have e3 : ∀ u s d, m'.dispatched x u s d = m.dispatched x u s d := fun u s d => by unfold Market.dispatched; rw [hb]
  have e4 : m'.bidi = m.bidi := by unfold Market.bidi; rw [hu]
  have e5 : ∀ u, m'.netOutput x u = m.netOutput x u := fun u => by unfold Market.netOutput; rw [e3, e3]
  obtain ⟨a1, a2⟩ := C12_ramp_limits_exact h (ne_of_gt hdi) hl (x := x)
  obtain ⟨b1, b2⟩ := C12_ramp_limits_exact h' (by rw [hd]; exact ne_of_gt hdi) hl' (x := x)
  have sc0 : ∀ f u, scadaRate none f u = none := fun _ _ => rfl
  simp only [e1, e2, e3, e4, hd, sc0, tighter] at b1 b2
  refine ⟨?_, ?_, ?_⟩
  · rw [a1, b1]
    intro ha r hr hbi h1 h2 L hL
    obtain ⟨L', hL', hle⟩ := upLimit_mono (le_of_lt hdi) hps (tighter_le r.up (scadaRate (some sc) Scada.up r.unit)) hL
    exact le_trans (ha r hr hbi h1 h2 L' hL') hle
  · rw [a2, b2]
    intro ha r hr hbi h1 h2 L hL
    obtain ⟨L', hL', hle⟩ := downLimit_mono (le_of_lt hdi) (tighter_le r.down (scadaRate (some sc) Scada.down r.unit)) hL
    exact le_trans hle (ha r hr hbi h1 h2 L' hL')
  · intro hne
    obtain ⟨c1, c2⟩ := bidirectional_exact h hne hl (x := x)
    obtain ⟨d1, d2⟩ := bidirectional_exact h' (by rw [e4]; exact hne) hl' (x := x)
    simp only [e2, e4, e5, hd, sc0, tighter] at d1 d2
    have hpos : (0:ℚ) ≤ m.di / 60 := div_nonneg (le_of_lt hdi) (by norm_num)
    rw [c1, c2, d1, d2]
    constructor
    · intro ha g hg l hl h1 h2 h3 h4 h5
      have a := ha g hg l hl h1 h2 h3 h4 h5
      have b := mul_le_mul_of_nonneg_right (tighter_le (compositeUp m.di l.init g.up l.down) (scadaRate (some sc) Scada.up l.unit)) hpos
      linarith
    · intro ha g hg l hl h1 h2 h3 h4 h5
      have a := ha g hg l hl h1 h2 h3 h4 h5
      have b := mul_le_mul_of_nonneg_right (tighter_le (compositeDown m.di g.init l.up g.down) (scadaRate (some sc) Scada.down l.unit)) hpos
      linarith

/-- **C10** A SCADA rate that is missing (no row, or NaN) leaves the bid rate as it is. -/
theorem C10_missing_scada_keeps_bid_rate {sc : Option (List Scada)} {f : Scada → Option ℚ} {u : String}
    (h : ∀ s ∈ sc.getD [], s.unit = u → f s = none) (r : ℚ) : tighter r (scadaRate sc f u) = r := by
  unfold scadaRate
  cases hf : (sc.getD []).find? (fun s => decide (s.unit = u)) with
  | none => rfl
  | some s =>
    have h1 := List.mem_of_find?_eq_some hf
    have h2 : s.unit = u := by simpa using List.find?_some hf
    simp only [Option.bind_some, h s h1 h2, tighter]

/-! ### Instances -/

/-- a slow generator `A`, a fast start unit `F` and a battery -/
def rampUnits : List UnitInfo :=
  [{ unit := "A", region := "NSW" }, { unit := "F", region := "NSW" },
   { unit := "BAT", region := "NSW" }, { unit := "BAT", region := "NSW", dtype := .load }]

/-- energy bids -/
def rampBids : List BidRow :=
  [{ unit := "A", bands := [("1", 100)] }, { unit := "F", bands := [("1", 60)] },
   { unit := "BAT", bands := [("1", 50)] }, { unit := "BAT", dtype := .load, bands := [("1", 50)] }]

/-- ramp rates (MW/h); the battery is charging at 10 MW -/
def rampRows : List RampRow :=
  [{ unit := "A", init := 40, up := 240, down := 120 }, { unit := "F", init := 0, up := 360, down := 360 },
   { unit := "BAT", init := -10, up := 480, down := 600 },
   { unit := "BAT", dtype := .load, init := -10, up := 600, down := 240 }]

/-- SCADA rates for `A` -/
def rampScada : List Scada := [{ unit := "A", up := some 180, down := none }]

/-- profile of `F`: left mode two two minutes before the end of the interval -/
def rampProfiles : List FsRamp := [{ unit := "F", curMode := 2, endMode := 3, minLoading := 20, since := some 2 }]

/-- variables: A, BAT generator, BAT load, F -/
def rampScenario (sc : Option (List Scada)) (ps : Option (List FsRamp)) (rt : RunType) : Scenario where
  regions := ["NSW"]
  units := rampUnits
  before := [.volumeBids rampBids]
  op := .rampRates rampRows sc ps rt none
  after := [.capacity [{ unit := "A", val := 90 }] none]
  sol := [55, 15, 0, 30]

example : ∃ m lp, InForce (.rampRates rampRows (some rampScada) none .noFastStart none) m ∧ m.assemble = .ok lp ∧
    Feasible lp (rampScenario (some rampScada) none .noFastStart).x ∧
    (decide (m.di ≠ 0) && decide ("A" ∉ m.bidi) && decide (m.lists "A" .generator) && decide (m.bidsFor "A" .energy .generator) &&
      decide (m.dispatched (rampScenario (some rampScada) none .noFastStart).x "A" .energy .generator = 40 + 180 * (5 / 60)) &&
      decide ("BAT" ∈ m.bidi) && decide (m.netOutput (rampScenario (some rampScada) none .noFastStart).x "BAT" ≤
        reachUp (-10) (5 / 60) 480 240)) = true :=
  Scenario.witness (s := rampScenario (some rampScada) none .noFastStart) (by decide +kernel)

-- without SCADA rates, as in C09 and the second market of C10; the trajectory reaches 20 MW
example : (∃ m lp, InForce (.rampRates rampRows none none .noFastStart none) m ∧ m.assemble = .ok lp ∧
    Feasible lp (rampScenario none none .noFastStart).x ∧
    (decide (0 < m.di) && decide (m.bidsFor "BAT" .energy .load)) = true) ∧
    reachUp (-10) (5 / 60) 480 240 = 20 ∧
    (∃ g ∈ rampRows, ∃ l ∈ rampRows, g.unit = l.unit ∧ g.dtype = .generator ∧ l.dtype = .load) :=
  ⟨Scenario.witness (s := rampScenario none none .noFastStart) (by decide +kernel), by decide +kernel, by decide +kernel⟩

-- second run: `F` may reach its minimum loading plus two minutes of ramping
example : (∃ m lp, InForce (.rampRates rampRows none (some rampProfiles) .second none) m ∧ m.assemble = .ok lp ∧
    Feasible lp (rampScenario none (some rampProfiles) .second).x ∧
    (decide (m.di ≠ 0) && decide ("F" ∉ m.bidi) && decide (m.bidsFor "F" .energy .generator)) = true) ∧
    upLimit .second rampProfiles 5 0 360 "F" = some 32 :=
  ⟨Scenario.witness (s := rampScenario none (some rampProfiles) .second) (by decide +kernel), by decide +kernel⟩

-- an unknown run type in a market with bids
example : ∃ m, Market.init ["NSW"] rampUnits 5 = .ok m ∧
    (m.run [.volumeBids rampBids]).nanCon = false ∧ (m.run [.volumeBids rampBids]).rampsOk rampRows = true ∧
    biInputsOk (m.run [.volumeBids rampBids]).bidi (rampRows.map (·.unit)) = true :=
  ⟨_, rfl, by decide +kernel, by decide +kernel, by decide +kernel⟩

end Verif
