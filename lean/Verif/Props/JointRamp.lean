import Verif.Proofs.JointRamp
import Verif.Proofs.Bids

/-!
# C16: energy and regulation dispatch together can be reached by ramping

`upLimit` and `downLimit` are in `Verif/Spec/Ramp.lean`.  The bids must not be replaced after the call
(`InForceKeeping [.bids]`): the constraints are made for the units that bid for regulation at the time of the call.
-/

namespace Verif

/-- **C16**, exact form for units that are not bidirectional, without fast start profiles.  The hypotheses `h1` and `h2`
say that there is a unit the constraints are about; otherwise the call does not replace the constraints of
an earlier call. -/
theorem C16_joint_ramping_exact {rs : List RampRow} {ps : Option (List FsRamp)} {m : Market}
    (h : InForceKeeping [.bids] (.jointRamping rs ps .noFastStart none) m) {lp : Lp} (hl : m.assemble = .ok lp) {x : Nat → ℚ} :
    ((∃ r ∈ rs, r.unit ∉ m.bidi ∧ ∃ d, m.bidsFor r.unit .raiseReg d) →
      (m.obeys lp x .jrRaise ↔ ∀ r ∈ rs, r.unit ∉ m.bidi →
        (m.lists r.unit .generator → m.bidsFor r.unit .raiseReg .generator →
          m.dispatched x r.unit .energy .generator + m.dispatched x r.unit .raiseReg .generator ≤ r.init + r.up * (m.di / 60)) ∧
        (m.lists r.unit .load → m.bidsFor r.unit .raiseReg .load →
          r.init - r.up * (m.di / 60) ≤ m.dispatched x r.unit .energy .load - m.dispatched x r.unit .raiseReg .load))) ∧
    ((∃ r ∈ rs, r.unit ∉ m.bidi ∧ ∃ d, m.bidsFor r.unit .lowerReg d) →
      (m.obeys lp x .jrLower ↔ ∀ r ∈ rs, r.unit ∉ m.bidi →
        (m.lists r.unit .generator → m.bidsFor r.unit .lowerReg .generator →
          r.init - r.down * (m.di / 60) ≤ m.dispatched x r.unit .energy .generator - m.dispatched x r.unit .lowerReg .generator) ∧
        (m.lists r.unit .load → m.bidsFor r.unit .lowerReg .load →
          m.dispatched x r.unit .energy .load + m.dispatched x r.unit .lowerReg .load ≤ r.init + r.down * (m.di / 60)))) := by
  obtain ⟨hw, _, _, ord, ho, k1, _, k3, _⟩ := jr_imposed h
  simp only [adjustForFastStart, Except.ok.injEq] at ho
  subst ho
  have nonempty : ∀ {s : Service} {rate : RampRow → ℚ}, (∃ r ∈ rs, r.unit ∉ m.bidi ∧ ∃ d, m.bidsFor r.unit s d) →
      ordinary m.bidi (regRates (m.bids.getD []) s rs rate) ≠ [] := by
    rintro s rate ⟨r, hr, hb, d, hd⟩ he
    exact (regRates_iff (P := fun q => False)).1 (by rw [he]; simp) r hr hb d hd
  have props : ∀ {s : Service} {rate : RampRow → ℚ}, (∀ q ∈ ordinary m.bidi (regRates (m.bids.getD []) s rs rate), q.unit ∉ m.bidi) ∧
      (∀ q ∈ ordinary m.bidi (regRates (m.bids.getD []) s rs rate), m.bidsFor q.unit s q.dtype) :=
    ⟨regRates_iff.2 (fun r hr hb d hd => hb), regRates_iff.2 (fun r hr hb d hd => hd)⟩
  constructor
  · intro he
    obtain ⟨n, hi⟩ := k1 (nonempty he)
    rw [jrRaiseReg] at hi
    rw [jr_obeys hi (by simp) (by simp) rfl props.1 props.2 hl, regRates_iff]
    refine forall₃_congr (fun r hr hb => ?_)
    constructor
    · intro ha
      constructor
      · intro h1 h2
        have := (ha .generator h2 h1).1 rfl
        simp only [CType.holds] at this
        linarith
      · intro h1 h2
        have := (ha .load h2 h1).2 rfl
        simp only [CType.holds] at this
        linarith
    · intro ha d h2 h1
      constructor
      · rintro (rfl : d = .generator)
        have := ha.1 h1 h2
        simp only [CType.holds]
        linarith
      · rintro (rfl : d = .load)
        have := ha.2 h1 h2
        simp only [CType.holds]
        linarith
  · intro he
    obtain ⟨n, hi⟩ := k3 (nonempty he)
    rw [jrLowerReg] at hi
    rw [jr_obeys hi (by simp) (by simp) rfl props.1 props.2 hl, regRates_iff]
    refine forall₃_congr (fun r hr hb => ?_)
    constructor
    · intro ha
      constructor
      · intro h1 h2
        have := (ha .generator h2 h1).1 rfl
        simp only [CType.holds] at this
        linarith
      · intro h1 h2
        have := (ha .load h2 h1).2 rfl
        simp only [CType.holds] at this
        linarith
    · intro ha d h2 h1
      constructor
      · rintro (rfl : d = .generator)
        have := ha.1 h1 h2
        simp only [CType.holds]
        linarith
      · rintro (rfl : d = .load)
        have := ha.2 h1 h2
        simp only [CType.holds]
        linarith

/-- **C16** for generators in all run types: energy plus raise regulation is at most the upper ramp limit, and
energy less lower regulation is at least the lower ramp limit. -/
theorem C16_generator {rs : List RampRow} {ps : Option (List FsRamp)} {rt : RunType} {m : Market}
    (h : InForceKeeping [.bids] (.jointRamping rs ps rt none) m) (hdi : m.di ≠ 0) {lp : Lp} (hl : m.assemble = .ok lp)
    {x : Nat → ℚ} (hx : Feasible lp x) {r : RampRow} (hr : r ∈ rs) (hb : r.unit ∉ m.bidi) (hu : m.lists r.unit .generator) :
    (m.bidsFor r.unit .raiseReg .generator → ∀ L, upLimit rt (ps.getD []) m.di r.init r.up r.unit = some L →
      m.dispatched x r.unit .energy .generator + m.dispatched x r.unit .raiseReg .generator ≤ L) ∧
    (m.bidsFor r.unit .lowerReg .generator → ∀ L, downLimit rt (ps.getD []) m.di r.init r.down r.unit = some L →
      L ≤ m.dispatched x r.unit .energy .generator - m.dispatched x r.unit .lowerReg .generator) := by
  obtain ⟨hw, _, hps, ord, ho, k1, _, k3, _⟩ := jr_imposed h
  have nonempty : ∀ {s : Service} {rate : RampRow → ℚ} {q : RampRow}, q ∈ ord → q.unit ∉ m.bidi → m.bidsFor q.unit s .generator →
      ordinary m.bidi (regRates (m.bids.getD []) s ord rate) ≠ [] := by
    intro s rate q hq hb hd he
    exact (regRates_iff (P := fun q => False)).1 (by rw [he]; simp) q hq hb _ hd
  have props : ∀ {s : Service} {rate : RampRow → ℚ}, (∀ q ∈ ordinary m.bidi (regRates (m.bids.getD []) s ord rate), q.unit ∉ m.bidi) ∧
      (∀ q ∈ ordinary m.bidi (regRates (m.bids.getD []) s ord rate), m.bidsFor q.unit s q.dtype) :=
    ⟨regRates_iff.2 (fun r hr hb d hd => hb), regRates_iff.2 (fun r hr hb d hd => hd)⟩
  constructor
  · intro hv L hL
    refine (mem_ord hps hdi ho (fun u _ L => u ∉ m.bidi → m.lists u .generator → m.bidsFor u .raiseReg .generator →
      m.dispatched x u .energy .generator + m.dispatched x u .raiseReg .generator ≤ L)).1.1 ?_ r hr L hL hb hu hv
    intro q hq hb h1 h2
    obtain ⟨n, hi⟩ := k1 (nonempty hq hb h2)
    rw [jrRaiseReg] at hi
    have := (jr_obeys hi (by simp) (by simp) rfl props.1 props.2 hl).1 (hx.obeys m _)
    have := (regRates_iff.1 this q hq hb .generator h2 h1).1 rfl
    simp only [CType.holds] at this
    linarith
  · intro hv L hL
    refine (mem_ord hps hdi ho (fun u _ L => u ∉ m.bidi → m.lists u .generator → m.bidsFor u .lowerReg .generator →
      L ≤ m.dispatched x u .energy .generator - m.dispatched x u .lowerReg .generator)).2.1 ?_ r hr L hL hb hu hv
    intro q hq hb h1 h2
    obtain ⟨n, hi⟩ := k3 (nonempty hq hb h2)
    rw [jrLowerReg] at hi
    have := (jr_obeys hi (by simp) (by simp) rfl props.1 props.2 hl).1 (hx.obeys m _)
    have := (regRates_iff.1 this q hq hb .generator h2 h1).1 rfl
    simp only [CType.holds] at this
    linarith

/-- **C16** for loads that have no fast start profile (or in a run without profiles): consumption less raise
regulation is at least the initial consumption less the ramp at the rate given as raising rate, and consumption plus
lower regulation is at most the initial consumption plus the ramp at the rate given as lowering rate. -/
theorem C16_load {rs : List RampRow} {ps : Option (List FsRamp)} {rt : RunType} {m : Market}
    (h : InForceKeeping [.bids] (.jointRamping rs ps rt none) m) {lp : Lp} (hl : m.assemble = .ok lp)
    {x : Nat → ℚ} (hx : Feasible lp x) {r : RampRow} (hr : r ∈ rs) (hb : r.unit ∉ m.bidi) (hu : m.lists r.unit .load)
    (hp : rt = .noFastStart ∨ ∀ p ∈ ps.getD [], p.unit ≠ r.unit) :
    (m.bidsFor r.unit .raiseReg .load →
      r.init - r.up * (m.di / 60) ≤ m.dispatched x r.unit .energy .load - m.dispatched x r.unit .raiseReg .load) ∧
    (m.bidsFor r.unit .lowerReg .load →
      m.dispatched x r.unit .energy .load + m.dispatched x r.unit .lowerReg .load ≤ r.init + r.down * (m.di / 60)) := by
  obtain ⟨hw, _, hps, ord, ho, k1, _, k3, _⟩ := jr_imposed h
  have hq := ord_keeps ho hr hp
  have nonempty : ∀ {s : Service} {rate : RampRow → ℚ}, m.bidsFor r.unit s .load →
      ordinary m.bidi (regRates (m.bids.getD []) s ord rate) ≠ [] := by
    intro s rate hd he
    exact (regRates_iff (P := fun q => False)).1 (by rw [he]; simp) r hq hb _ hd
  have props : ∀ {s : Service} {rate : RampRow → ℚ}, (∀ q ∈ ordinary m.bidi (regRates (m.bids.getD []) s ord rate), q.unit ∉ m.bidi) ∧
      (∀ q ∈ ordinary m.bidi (regRates (m.bids.getD []) s ord rate), m.bidsFor q.unit s q.dtype) :=
    ⟨regRates_iff.2 (fun r hr hb d hd => hb), regRates_iff.2 (fun r hr hb d hd => hd)⟩
  constructor
  · intro hv
    obtain ⟨n, hi⟩ := k1 (nonempty hv)
    rw [jrRaiseReg] at hi
    have := (jr_obeys hi (by simp) (by simp) rfl props.1 props.2 hl).1 (hx.obeys m _)
    have := (regRates_iff.1 this r hq hb .load hv hu).2 rfl
    simp only [CType.holds] at this
    linarith
  · intro hv
    obtain ⟨n, hi⟩ := k3 (nonempty hv)
    rw [jrLowerReg] at hi
    have := (jr_obeys hi (by simp) (by simp) rfl props.1 props.2 hl).1 (hx.obeys m _)
    have := (regRates_iff.1 this r hq hb .load hv hu).2 rfl
    simp only [CType.holds] at this
    linarith

/-- what the constraints of bidirectional units say: only the energy of the sides that bid for the regulation service is
counted -/
theorem jointRamping_bidirectional_exact {rs : List RampRow} {ps : Option (List FsRamp)} {rt : RunType} {m : Market}
    (h : InForceKeeping [.bids] (.jointRamping rs ps rt none) m) (hdi : m.di ≠ 0) {lp : Lp} (hl : m.assemble = .ok lp)
    {x : Nat → ℚ} :
    ((∃ r ∈ rs, r.unit ∈ m.bidi ∧ (∃ d, m.bidsFor r.unit .raiseReg d) ∧ upLimit rt (ps.getD []) m.di r.init r.up r.unit ≠ none) →
      (m.obeys lp x .jrRaiseBdu ↔ ∀ r ∈ rs, r.unit ∈ m.bidi → (∃ d, m.bidsFor r.unit .raiseReg d) →
        ∀ L, upLimit rt (ps.getD []) m.di r.init r.up r.unit = some L →
          m.biddingEnergy x r.unit .raiseReg + (m.dispatched x r.unit .raiseReg .generator + m.dispatched x r.unit .raiseReg .load) ≤ L)) ∧
    ((∃ r ∈ rs, r.unit ∈ m.bidi ∧ (∃ d, m.bidsFor r.unit .lowerReg d) ∧ downLimit rt (ps.getD []) m.di r.init r.down r.unit ≠ none) →
      (m.obeys lp x .jrLowerBdu ↔ ∀ r ∈ rs, r.unit ∈ m.bidi → (∃ d, m.bidsFor r.unit .lowerReg d) →
        ∀ L, downLimit rt (ps.getD []) m.di r.init r.down r.unit = some L →
          L ≤ m.biddingEnergy x r.unit .lowerReg - (m.dispatched x r.unit .lowerReg .generator + m.dispatched x r.unit .lowerReg .load))) := by
  obtain ⟨hw, hn, hps, ord, ho, _, k2, _, k4⟩ := jr_imposed h
  have hno := ord_nodup hn hps ho
  have nonempty : ∀ {s : Service} {rate : RampRow → ℚ}, (∃ q ∈ ord, q.unit ∈ m.bidi ∧ ∃ d, m.bidsFor q.unit s d) →
      bidirectional m.bidi (regRates (m.bids.getD []) s ord rate) ≠ [] := by
    rintro s rate ⟨q, hq, hb, d, v, hv, hvu, hvs, hvd⟩ he
    have : (⟨q.unit, d, s, q.init, rate q⟩ : RegRate) ∈ bidirectional m.bidi (regRates (m.bids.getD []) s ord rate) := by
      simp only [bidirectional, List.mem_filter, decide_eq_true_eq, mem_regRates]
      exact ⟨⟨v, hv, hvs, q, hq, hvu.symm, by rw [hvu, hvd]⟩, hb⟩
    rw [he] at this; simp at this
  constructor
  · rintro ⟨r, hr, hb, hd, hne⟩
    obtain ⟨L, hL⟩ := Option.ne_none_iff_exists'.1 hne
    obtain ⟨n, hi⟩ := k2 (nonempty (by
      by_contra hc
      push Not at hc
      exact (mem_ord hps hdi ho (fun u _ _ => u ∈ m.bidi → (∃ d, m.bidsFor u .raiseReg d) → False)).1.1
        (fun q hq hb ⟨d, hd⟩ => hc q hq hb d hd) r hr L hL hb hd))
    rw [jrRaiseRegBdu] at hi
    rw [jrBdu_obeys (by simp) (by simp) hno hi hl]
    have := (mem_ord hps hdi ho (fun u _ L => u ∈ m.bidi → (∃ d, m.bidsFor u .raiseReg d) →
      m.biddingEnergy x u .raiseReg + (m.dispatched x u .raiseReg .generator + m.dispatched x u .raiseReg .load) ≤ L)).1
    constructor
    · intro ha r hr hb hd L hL
      refine this.1 ?_ r hr L hL hb hd
      intro q hq hb hd
      have := ha q hq hb hd
      simp only [CType.holds] at this
      linarith
    · intro ha q hq hb hd
      have := this.2 (fun r hr L hL hb hd => ha r hr hb hd L hL) q hq hb hd
      simp only [CType.holds]
      linarith
  · rintro ⟨r, hr, hb, hd, hne⟩
    obtain ⟨L, hL⟩ := Option.ne_none_iff_exists'.1 hne
    obtain ⟨n, hi⟩ := k4 (nonempty (by
      by_contra hc
      push Not at hc
      exact (mem_ord hps hdi ho (fun u _ _ => u ∈ m.bidi → (∃ d, m.bidsFor u .lowerReg d) → False)).2.1
        (fun q hq hb ⟨d, hd⟩ => hc q hq hb d hd) r hr L hL hb hd))
    rw [jrLowerRegBdu] at hi
    rw [jrBdu_obeys (by simp) (by simp) hno hi hl]
    have := (mem_ord hps hdi ho (fun u _ L => u ∈ m.bidi → (∃ d, m.bidsFor u .lowerReg d) →
      L ≤ m.biddingEnergy x u .lowerReg - (m.dispatched x u .lowerReg .generator + m.dispatched x u .lowerReg .load))).2
    constructor
    · intro ha r hr hb hd L hL
      refine this.1 ?_ r hr L hL hb hd
      intro q hq hb hd
      have := ha q hq hb hd
      simp only [CType.holds] at this
      linarith
    · intro ha q hq hb hd
      have := this.2 (fun r hr L hL hb hd => ha r hr hb hd L hL) q hq hb hd
      simp only [CType.holds]
      linarith

/-- **C16** for bidirectional units that bid for the regulation service on both sides: net output plus all raise
regulation is at most the upper limit and net output less all lower regulation is at least the lower limit.
Missing: units that bid for the service on one side only, see below. -/
theorem C16_bidirectional_partial {rs : List RampRow} {ps : Option (List FsRamp)} {rt : RunType} {m : Market}
    (h : InForceKeeping [.bids] (.jointRamping rs ps rt none) m) (hdi : m.di ≠ 0) {lp : Lp} (hl : m.assemble = .ok lp)
    {x : Nat → ℚ} (hx : Feasible lp x) {r : RampRow} (hr : r ∈ rs) (hb : r.unit ∈ m.bidi) :
    ((∀ d, m.bidsFor r.unit .raiseReg d) → ∀ L, upLimit rt (ps.getD []) m.di r.init r.up r.unit = some L →
      m.netOutput x r.unit + (m.dispatched x r.unit .raiseReg .generator + m.dispatched x r.unit .raiseReg .load) ≤ L) ∧
    ((∀ d, m.bidsFor r.unit .lowerReg d) → ∀ L, downLimit rt (ps.getD []) m.di r.init r.down r.unit = some L →
      L ≤ m.netOutput x r.unit - (m.dispatched x r.unit .lowerReg .generator + m.dispatched x r.unit .lowerReg .load)) := by
  obtain ⟨k1, k2⟩ := jointRamping_bidirectional_exact h hdi hl (x := x)
  constructor
  · intro hd L hL
    have := (k1 ⟨r, hr, hb, ⟨_, hd .generator⟩, by rw [hL]; simp⟩).1 (hx.obeys m _) r hr hb ⟨_, hd .generator⟩ L hL
    rwa [Market.biddingEnergy, if_pos (hd _), if_pos (hd _)] at this
  · intro hd L hL
    have := (k2 ⟨r, hr, hb, ⟨_, hd .generator⟩, by rw [hL]; simp⟩).1 (hx.obeys m _) r hr hb ⟨_, hd .generator⟩ L hL
    rwa [Market.biddingEnergy, if_pos (hd _), if_pos (hd _)] at this

/-- **C16** fails for bidirectional units that bid for raise regulation on the load side only: the constraint does not see
the energy of the generator side (`markets.py:1513-1518`, `fcas_constraints.py:6-23`).  A unit at rest that can ramp
by 10 MW is dispatched to 10 MW of generation and enabled for 10 MW of raise regulation as well. -/
theorem C16_bidirectional_fails : ∃ (rs : List RampRow) (r : RampRow) (m : Market) (lp : Lp) (x : Nat → ℚ),
    InForceKeeping [.bids] (.jointRamping rs none .noFastStart none) m ∧ m.assemble = .ok lp ∧ Feasible lp x ∧ r ∈ rs ∧
    r.unit ∈ m.bidi ∧ m.bidsFor r.unit .raiseReg .load ∧
    ¬ m.netOutput x r.unit + (m.dispatched x r.unit .raiseReg .generator + m.dispatched x r.unit .raiseReg .load) ≤
      r.init + r.up * (m.di / 60) := by
  let r : RampRow := { unit := "B", init := 0, up := 120, down := 120 }
  let s : Case := {
    regions := ["NSW"], units := [{ unit := "B", region := "NSW" }, { unit := "B", region := "NSW", dtype := .load }],
    hist := [.volumeBids [{ unit := "B", bands := [("1", 100)] }, { unit := "B", dtype := .load, bands := [("1", 100)] },
      { unit := "B", service := .raiseReg, dtype := .load, bands := [("1", 20)] }],
      .jointRamping [r] none .noFastStart none], sol := [10, 0, 10] }
  have hw : (s.ok (fun m => decide (r.unit ∈ m.bidi) && decide (m.bidsFor r.unit .raiseReg .load) &&
      decide (¬ m.netOutput s.x r.unit + (m.dispatched s.x r.unit .raiseReg .generator + m.dispatched s.x r.unit .raiseReg .load) ≤
        r.init + r.up * (m.di / 60))) && s.holds 1 [.bids] && s.holds 1 []) = true := by
    decide +kernel
  obtain ⟨m, lp, h1, _, h2, h3, h4⟩ := Case.witness2 (i := 1) (j := 1) rfl rfl hw
  simp only [Bool.and_eq_true, decide_eq_true_eq] at h4
  exact ⟨[r], r, m, lp, s.x, h1, h2, h3, by simp, h4.1.1, h4.1.2, h4.2⟩

/-! ### Instances -/

def jrRates : List RampRow := [{ unit := "A", init := 40, up := 240, down := 120 }, { unit := "L", init := 50, up := 120, down := 60 },
  { unit := "B", init := -5, up := 120, down := 120 }]

/-- a generator, a load and a battery, all at their limits -/
def jrCase : Case where
  regions := ["NSW"]
  units := [{ unit := "A", region := "NSW" }, { unit := "L", region := "NSW", dtype := .load }, { unit := "B", region := "NSW" },
    { unit := "B", region := "NSW", dtype := .load }]
  hist := [.volumeBids [{ unit := "A", bands := [("1", 100)] }, { unit := "A", service := .raiseReg, bands := [("1", 10)] },
      { unit := "A", service := .lowerReg, bands := [("1", 10)] }, { unit := "L", dtype := .load, bands := [("1", 100)] },
      { unit := "L", service := .raiseReg, dtype := .load, bands := [("1", 10)] },
      { unit := "L", service := .lowerReg, dtype := .load, bands := [("1", 10)] },
      { unit := "B", bands := [("1", 100)] }, { unit := "B", dtype := .load, bands := [("1", 100)] },
      { unit := "B", service := .raiseReg, bands := [("1", 10)] }, { unit := "B", service := .raiseReg, dtype := .load, bands := [("1", 10)] },
      { unit := "B", service := .lowerReg, bands := [("1", 10)] }, { unit := "B", service := .lowerReg, dtype := .load, bands := [("1", 10)] }],
    .jointRamping jrRates (some [{ unit := "A", curMode := 3 }]) .first none]
  sol := [50, 10, 10, 2, 2, 2, 3, 4, 5, 50, 10, 5]

example : ∃ m lp, InForceKeeping [.bids] (.jointRamping jrRates (some [{ unit := "A", curMode := 3 }]) .first none) m ∧
    InForceKeeping [] (.jointRamping jrRates (some [{ unit := "A", curMode := 3 }]) .first none) m ∧
    m.assemble = .ok lp ∧ Feasible lp jrCase.x ∧
    (decide (m.di ≠ 0 ∧ "A" ∉ m.bidi ∧ "L" ∉ m.bidi ∧ "B" ∈ m.bidi ∧ m.lists "A" .generator ∧ m.lists "L" .load ∧
      m.bidsFor "A" .raiseReg .generator ∧ m.bidsFor "L" .raiseReg .load ∧ m.bidsFor "B" .raiseReg .load ∧ m.bidsFor "B" .raiseReg .generator ∧
      m.bidsFor "B" .lowerReg .load ∧ m.bidsFor "B" .lowerReg .generator)) = true :=
  Case.witness2 (i := 1) (j := 1) rfl rfl (by decide +kernel)

/-- the same call without profiles, for the exact form -/
example : ∃ m lp, InForceKeeping [.bids] (.jointRamping jrRates none .noFastStart none) m ∧
    InForceKeeping [] (.jointRamping jrRates none .noFastStart none) m ∧ m.assemble = .ok lp ∧ Feasible lp jrCase.x ∧
    (decide ((∃ r ∈ jrRates, r.unit ∉ m.bidi ∧ m.bidsFor r.unit .raiseReg .load) ∧
      (∃ r ∈ jrRates, r.unit ∉ m.bidi ∧ m.bidsFor r.unit .lowerReg .load))) = true :=
  Case.witness2 (s := { jrCase with hist := jrCase.hist.take 1 ++ [.jointRamping jrRates none .noFastStart none] })
    (i := 1) (j := 1) rfl rfl (by decide +kernel)

end Verif
