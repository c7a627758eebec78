import Verif.Proofs.UnitDispatch
import Verif.Props.Trap
import Verif.Props.Limits
import Verif.Proofs.MmsDb

/-!
# From the tables of an interval to the limits of dispatch (C89–C92)
-/

namespace Verif.Units

open Verif

/-! ### C89: ramp rates -/

/-- The table of bid ramp rates has the energy bids of the units with initial conditions. -/
theorem C89_bid_rates {i : Inputs} {rs : List RampOut} (h : i.bidRampRates = .ok rs) (r : RampOut) :
    r ∈ rs ↔ ∃ b ∈ i.bids, ∃ c ∈ i.init, c.duid = b.duid ∧ b.service = .energy ∧ b.dir = some r.dtype ∧
      r.unit = b.duid ∧ r.up = b.rampUp ∧ r.down = b.rampDown ∧ r.init = c.initMw := by
  unfold Inputs.bidRampRates at h
  have hf := mapM_ok h
  constructor
  · intro hr
    obtain ⟨q, hq, hqr⟩ := forall₂_right hf hr
    simp only [List.mem_filter, List.mem_flatMap, List.mem_map, decide_eq_true_eq] at hq
    obtain ⟨⟨b, hb, c, ⟨hc, hcd⟩, rfl⟩, he⟩ := hq
    unfold rampOut at hqr
    cases hd : b.dir with
    | none => simp only [hd] at hqr; cases hqr
    | some d =>
      simp only [hd] at hqr
      injection hqr with hqr
      subst hqr
      exact ⟨b, hb, c, hc, hcd, he, hd, rfl, rfl, rfl, rfl⟩
  · rintro ⟨b, hb, c, hc, hcd, he, hd, h1, h2, h3, h4⟩
    have hq : (b, c) ∈ ((i.bids.flatMap (fun b => (i.init.filter (fun c => decide (c.duid = b.duid))).map (fun c => (b, c)))).filter
        (fun q => decide (q.1.service = .energy))) := by
      simp only [List.mem_filter, List.mem_flatMap, List.mem_map, decide_eq_true_eq]
      exact ⟨⟨b, hb, c, ⟨hc, hcd⟩, rfl⟩, he⟩
    obtain ⟨r', hr', hqr⟩ := forall₂_left hf hq
    unfold rampOut at hqr
    simp only [hd] at hqr
    injection hqr with hqr
    have : r = r' := by
      rw [← hqr]
      cases r
      simp_all
    rw [this]
    exact hr'

/-- The table of telemetered ramp rates has the units with at least one rate. -/
theorem C89_scada_rates (i : Inputs) (r : ScadaOut) :
    r ∈ i.scadaRampRates ↔ ∃ c ∈ i.init, r.unit = c.duid ∧ r.up = c.rampUp ∧ r.down = c.rampDown ∧ r.init = c.initMw ∧
      ¬(c.rampUp = none ∧ c.rampDown = none) := by
  unfold Inputs.scadaRampRates
  simp only [List.mem_filter, List.mem_map, Bool.not_eq_true', Bool.and_eq_false_iff, decide_eq_false_iff_not]
  constructor
  · rintro ⟨⟨c, hc, rfl⟩, h⟩
    refine ⟨c, hc, rfl, rfl, rfl, rfl, ?_⟩
    rintro ⟨h1, h2⟩
    rcases h with h | h
    · exact h h1
    · exact h h2
  · rintro ⟨c, hc, h1, h2, h3, h4, hn⟩
    refine ⟨⟨c, hc, ?_⟩, ?_⟩
    · cases r
      simp_all
    · rw [h2, h3]
      by_cases h1 : c.rampUp = none
      · exact Or.inr (fun h2 => hn ⟨h1, h2⟩)
      · exact Or.inl h1

/-- **Ramping from the file to dispatch.**  Take bid and telemetered ramp rates from the historical tables, where initial
outputs are known, and pass them to `set_unit_ramp_rate_constraints` for any kind of run.  In every feasible dispatch the
energy of a unit with one direction is within the limits that follow from its initial output and the smaller of its bid
rate and its telemetered rate. -/
theorem C89_ramp_limits {i : Inputs} {rs : List RampOut} (h : i.bidRampRates = .ok rs) (hc : (i.init.map InitCond.duid).Nodup)
    {rows : List RampRow} (hr : rs.map RampOut.toMarket = rows.map some) {ps : Option (List FsRamp)} {rt : RunType} {m : Market}
    (hm : InForce (.rampRates rows (some (i.scadaRampRates.map ScadaOut.toMarket)) ps rt none) m) (hdi : m.di ≠ 0)
    {lp : Lp} (hl : m.assemble = .ok lp) {x : Nat → ℚ} (hx : Feasible lp x)
    {b : VolBid} (hb : b ∈ i.bids) (he : b.service = .energy) {d : DType} (hd : b.dir = some d)
    {c : InitCond} (hcm : c ∈ i.init) (hcd : c.duid = b.duid) {mw : ℚ} (hmw : c.initMw = some mw)
    (hbi : b.duid ∉ m.bidi) (hu : m.lists b.duid d) (hv : m.bidsFor b.duid .energy d) :
    (∀ L, upLimit rt (ps.getD []) m.di mw (tighter b.rampUp c.rampUp) b.duid = some L →
      m.dispatched x b.duid .energy d ≤ L) ∧
    (∀ L, downLimit rt (ps.getD []) m.di mw (tighter b.rampDown c.rampDown) b.duid = some L →
      L ≤ m.dispatched x b.duid .energy d) := by
  have hrow := mem_toMarket hr ((C89_bid_rates h ⟨b.duid, d, b.rampDown, b.rampUp, some mw⟩).2
    ⟨b, hb, c, hcm, hcd, he, hd, rfl, rfl, rfl, hmw.symm⟩) rfl
  obtain ⟨s1, s2⟩ := scadaRate_of hc hcm
  rw [hcd] at s1 s2
  obtain ⟨g1, g2⟩ := C12_ramp_limits_exact hm hdi hl (x := x)
  have k1 := g1.1 (fun r hr _ => hx.rows r hr) _ hrow hbi hu hv
  have k2 := g2.1 (fun r hr _ => hx.rows r hr) _ hrow hbi hu hv
  dsimp only at k1 k2
  rw [s1] at k1
  rw [s2] at k2
  exact ⟨k1, k2⟩

/-- Without fast start profiles the limits are the initial output plus and minus the smaller rate times the length of the
interval. -/
theorem C89_ramp {i : Inputs} {rs : List RampOut} (h : i.bidRampRates = .ok rs) (hc : (i.init.map InitCond.duid).Nodup)
    {rows : List RampRow} (hr : rs.map RampOut.toMarket = rows.map some) {ps : Option (List FsRamp)} {m : Market}
    (hm : InForce (.rampRates rows (some (i.scadaRampRates.map ScadaOut.toMarket)) ps .noFastStart none) m) (hdi : m.di ≠ 0)
    {lp : Lp} (hl : m.assemble = .ok lp) {x : Nat → ℚ} (hx : Feasible lp x)
    {b : VolBid} (hb : b ∈ i.bids) (he : b.service = .energy) {d : DType} (hd : b.dir = some d)
    {c : InitCond} (hcm : c ∈ i.init) (hcd : c.duid = b.duid) {mw : ℚ} (hmw : c.initMw = some mw)
    (hbi : b.duid ∉ m.bidi) (hu : m.lists b.duid d) (hv : m.bidsFor b.duid .energy d) :
    m.dispatched x b.duid .energy d ≤ mw + tighter b.rampUp c.rampUp * (m.di / 60) ∧
    mw - tighter b.rampDown c.rampDown * (m.di / 60) ≤ m.dispatched x b.duid .energy d := by
  obtain ⟨h1, h2⟩ := C89_ramp_limits h hc hr hm hdi hl hx hb he hd hcm hcd hmw hbi hu hv
  exact ⟨h1 _ rfl, h2 _ rfl⟩

/-- For a bidirectional unit the net output is within what ramping over zero reaches, with the rates of the side it is on,
and within the initial output plus and minus the telemetered rates, where they are given. -/
theorem C89_bidirectional {i : Inputs} {rs : List RampOut} (h : i.bidRampRates = .ok rs) (hc : (i.init.map InitCond.duid).Nodup)
    {rows : List RampRow} (hr : rs.map RampOut.toMarket = rows.map some) {ps : Option (List FsRamp)} {rt : RunType} {m : Market}
    (hm : InForce (.rampRates rows (some (i.scadaRampRates.map ScadaOut.toMarket)) ps rt none) m) (hdi : 0 < m.di)
    {lp : Lp} (hl : m.assemble = .ok lp) {x : Nat → ℚ} (hx : Feasible lp x)
    {g l : VolBid} (hg : g ∈ i.bids) (hlm : l ∈ i.bids) (hge : g.service = .energy) (hle : l.service = .energy)
    (hgd : g.dir = some .generator) (hld : l.dir = some .load) (hgl : g.duid = l.duid)
    {c : InitCond} (hcm : c ∈ i.init) (hcd : c.duid = l.duid) {mw : ℚ} (hmw : c.initMw = some mw)
    (hbi : l.duid ∈ m.bidi) (hv : ∃ d, m.bidsFor l.duid .energy d) (hpos : 0 ≤ l.rampDown ∧ 0 ≤ g.rampDown) :
    m.netOutput x l.duid ≤ reachUp mw (m.di / 60) g.rampUp l.rampDown ∧
    (∀ r, c.rampUp = some r → m.netOutput x l.duid ≤ mw + r * (m.di / 60)) ∧
    reachDown mw (m.di / 60) g.rampDown l.rampUp ≤ m.netOutput x l.duid ∧
    (∀ r, c.rampDown = some r → mw - r * (m.di / 60) ≤ m.netOutput x l.duid) := by
  have rg := mem_toMarket hr ((C89_bid_rates h ⟨g.duid, .generator, g.rampDown, g.rampUp, some mw⟩).2
    ⟨g, hg, c, hcm, hcd.trans hgl.symm, hge, hgd, rfl, rfl, rfl, hmw.symm⟩) rfl
  have rl := mem_toMarket hr ((C89_bid_rates h ⟨l.duid, .load, l.rampDown, l.rampUp, some mw⟩).2
    ⟨l, hlm, c, hcm, hcd, hle, hld, rfl, rfl, rfl, hmw.symm⟩) rfl
  obtain ⟨s1, s2⟩ := scadaRate_of hc hcm
  rw [hcd] at s1 s2
  have hbi' : g.duid ∈ m.bidi := hgl ▸ hbi
  obtain ⟨g1, g2⟩ := bidirectional_exact hm ⟨_, rg, _, rl, hbi', hgl, rfl, rfl⟩ hl (x := x)
  have k1 := g1.1 (fun r hr _ => hx.rows r hr) _ rg _ rl hbi' hgl rfl rfl hv
  have k2 := g2.1 (fun r hr _ => hx.rows r hr) _ rg _ rl hbi' hgl rfl rfl hv
  dsimp only at k1 k2
  rw [s1] at k1
  rw [s2] at k2
  obtain ⟨e1, e2⟩ := C09_composite_rate_is_trajectory hdi (init := mw) (gUp := g.rampUp) (gDown := g.rampDown)
    (lUp := l.rampUp) (lDown := l.rampDown) hpos.1 hpos.2
  have ht : 0 < m.di / 60 := by linarith
  refine ⟨?_, ?_, ?_, ?_⟩
  · rw [← e1]
    have := mul_le_mul_of_nonneg_right (tighter_le (compositeUp m.di mw g.rampUp l.rampDown) c.rampUp) ht.le
    linarith
  · intro r hr
    rw [hr] at k1
    have h3 : tighter (compositeUp m.di mw g.rampUp l.rampDown) (some r) ≤ r := by
      unfold tighter; dsimp only; split <;> linarith
    have := mul_le_mul_of_nonneg_right h3 ht.le
    linarith
  · rw [← e2]
    have := mul_le_mul_of_nonneg_right (tighter_le (compositeDown m.di mw l.rampUp g.rampDown) c.rampDown) ht.le
    linarith
  · intro r hr
    rw [hr] at k2
    have h3 : tighter (compositeDown m.di mw l.rampUp g.rampDown) (some r) ≤ r := by
      unfold tighter; dsimp only; split <;> linarith
    have := mul_le_mul_of_nonneg_right h3 ht.le
    linarith

/-! ### C90, C91: FCAS -/

/-- the tables of trapeziums belong to the bids that are left -/
theorem trap_tables {i : Inputs} {q : List VolBid × List PriceBid} (hq : i.processed = .ok q)
    (hdir : ∀ b ∈ q.1, b.dir ≠ none) {cs : List Call} {tm tr tc : List TrapRow}
    (hmax : (Call.run i .maxAvailability (runCalls i cs)).2 = .ok (.traps tm))
    (hreg : (Call.run i .regulation (runCalls i cs)).2 = .ok (.traps tr))
    (hcon : (Call.run i .contingency (runCalls i cs)).2 = .ok (.traps tc))
    {b : VolBid} (hb : b ∈ q.1) (hs : b.service ≠ .energy) {d : DType} (hd : b.dir = some d) :
    b.trapIn d ∈ tm ∧ (isReg b.service = true → b.trapIn d ∈ tr) ∧ (isReg b.service = false → b.trapIn d ∈ tc) := by
  have hsub : [Call.processedBids, Call.addTrapeziums].Sublist cs := by
    by_contra hn
    have := (C75_call_order i hq (fun b hb _ => hdir b hb) cs).2 hn .maxAvailability (Or.inl rfl)
    rw [hmax] at this
    cases this
  obtain ⟨ts, h1, h2, h3, h4⟩ := C75_trapeziums i hq (fun b hb _ => hdir b hb) hsub
  rw [hmax] at h2
  rw [hreg] at h3
  rw [hcon] at h4
  injection h2 with h2
  injection h3 with h3
  injection h4 with h4
  injection h2 with h2
  injection h3 with h3
  injection h4 with h4
  subst h2 h3 h4
  obtain ⟨t, ht, d', hd', rfl⟩ := forall₂_left h1 (List.mem_filter.2 ⟨hb, by simpa using hs⟩)
  rw [hd] at hd'
  injection hd' with hd'
  subst hd'
  refine ⟨ht, fun hr => List.mem_filter.2 ⟨ht, ?_⟩, fun hr => List.mem_filter.2 ⟨ht, ?_⟩⟩
  · exact decide_eq_true (by simpa [isReg, VolBid.trapIn] using hr)
  · exact decide_eq_true (by simpa [isReg, VolBid.trapIn] using hr)

/-- **Regulation from the file to dispatch.**  Process the bids of an interval, whose tables have one row per unit (and
service and direction), and set up a market with the processed volume bids, the maximum availabilities and the regulation
trapeziums.  In every feasible dispatch the regulation of a unit is zero, or it is inside the trapezium of the bid in the
file at the energy of the unit (consumption of bidirectional units counts as negative).  So the limits of AGC, telemetered
ramp rates and forecasts never allow more than was bid. -/
theorem C90_regulation {i : Inputs} {vs ps : List BidRow} (h : i.processedBids = .ok (vs, ps))
    (hb : (i.bids.map VolBid.key).Nodup) (ha : (i.agc.map AgcLimits.duid).Nodup) (hc : (i.init.map InitCond.duid).Nodup)
    (hu : (i.uigf.map Prod.fst).Nodup) (hin : ∀ d ∈ i.agc.map AgcLimits.duid, d ∈ i.init.map InitCond.duid)
    {cs : List Call} {tm tr tc : List TrapRow}
    (hmax : (Call.run i .maxAvailability (runCalls i cs)).2 = .ok (.traps tm))
    (hreg : (Call.run i .regulation (runCalls i cs)).2 = .ok (.traps tr))
    (hcon : (Call.run i .contingency (runCalls i cs)).2 = .ok (.traps tc))
    {m : Market} (m1 : InForce (.volumeBids (vs.map BidRow.toMarket)) m)
    (m2 : InForce (.fcasMaxAvail (tm.map TrapRow.toLimit) none) m)
    (m3 : InForce (.energyReg (tr.map TrapRow.toMarket) none) m)
    {lp : Lp} (hl : m.assemble = .ok lp) {x : Nat → ℚ} (hx : Feasible lp x)
    {b : VolBid} (hbm : b ∈ i.bids) (hs : b.service = .raiseReg ∨ b.service = .lowerReg) {d : DType} (hd : b.dir = some d)
    (hul : m.lists b.duid d) :
    m.dispatched x b.duid b.service d = 0 ∨
    b.allows (if b.duid ∈ m.bidi ∧ d = .load then - m.dispatched x b.duid .energy d else m.dispatched x b.duid .energy d)
      (m.dispatched x b.duid b.service d) := by
  by_cases hf : m.bidsFor b.duid b.service d
  · right
    obtain ⟨q, hq, hdir, _, hvol⟩ := processed_volume h
    obtain ⟨r, hr, r1, r2, r3⟩ := bid_of_bidsFor m1 hl hf
    obtain ⟨v, hv, rfl⟩ := List.mem_map.1 hr
    obtain ⟨b', hb', e1, e2, e3, _⟩ := hvol v hv
    have hk : b'.key = b.key := by
      unfold VolBid.key
      simp only [BidRow.toMarket] at r1 r2 r3
      rw [← e2, ← e3, e1, r1, r2, r3, hd]
    have hse : b.service ≠ .energy := by rcases hs with e | e <;> rw [e] <;> decide
    obtain ⟨k1, k2, k3⟩ : b'.duid = b.duid ∧ b'.service = b.service ∧ b'.dir = b.dir := by
      simp only [VolBid.key, Prod.mk.injEq] at hk
      exact hk
    obtain ⟨hp, hall⟩ := processed_bid hq hb ha hc hu hin hbm hb' hse hk
    obtain ⟨t1, t2, _⟩ := trap_tables hq hdir hmax hreg hcon hb' (k2 ▸ hse) (k3.trans hd)
    have t2 := t2 (by rw [k2]; rcases hs with e | e <;> rw [e] <;> rfl)
    apply hall
    have := C18_regulation_inside_trapezium m3 m2 hl hx (t := (b'.trapIn d).toMarket) (List.mem_map_of_mem t2)
      (List.mem_map.2 ⟨_, t1, rfl⟩) hp (by simpa [TrapRow.toMarket, VolBid.trapIn, k1] using hul)
      (by simpa [TrapRow.toMarket, VolBid.trapIn, k1, k2] using hf) rfl
    simp only [TrapRow.toMarket, VolBid.trapIn, k1, k2] at this
    exact inside_allows (d := d) (lo := _) (hi := _) (by
      simp only [TrapRow.toMarket, VolBid.trapIn, k1, k2]; exact this) le_rfl le_rfl
  · exact Or.inl (dispatched_zero hf)

/-- **Contingency services from the file to dispatch.**  As `C90_regulation`, with the contingency trapeziums: the
enablement of a unit with one direction is zero, or it is inside the trapezium of the bid in the file for every energy that
regulation can move the unit to.  Missing: bidirectional units, for which the constraint that nempy builds does not imply it
(`C17_bidirectional_left_edge_fails`). -/
theorem C91_contingency_partial {i : Inputs} {vs ps : List BidRow} (h : i.processedBids = .ok (vs, ps))
    (hb : (i.bids.map VolBid.key).Nodup) (ha : (i.agc.map AgcLimits.duid).Nodup) (hc : (i.init.map InitCond.duid).Nodup)
    (hu : (i.uigf.map Prod.fst).Nodup) (hin : ∀ d ∈ i.agc.map AgcLimits.duid, d ∈ i.init.map InitCond.duid)
    {cs : List Call} {tm tr tc : List TrapRow}
    (hmax : (Call.run i .maxAvailability (runCalls i cs)).2 = .ok (.traps tm))
    (hreg : (Call.run i .regulation (runCalls i cs)).2 = .ok (.traps tr))
    (hcon : (Call.run i .contingency (runCalls i cs)).2 = .ok (.traps tc))
    {m : Market} (m1 : InForce (.volumeBids (vs.map BidRow.toMarket)) m)
    (m2 : InForce (.fcasMaxAvail (tm.map TrapRow.toLimit) none) m)
    (m3 : InForce (.jointCapacity (tc.map TrapRow.toMarket) none) m)
    {lp : Lp} (hl : m.assemble = .ok lp) {x : Nat → ℚ} (hx : Feasible lp x)
    {b : VolBid} (hbm : b ∈ i.bids) (hs : b.service ≠ .energy ∧ b.service ≠ .raiseReg ∧ b.service ≠ .lowerReg)
    {d : DType} (hd : b.dir = some d) (hul : m.lists b.duid d) (hbi : b.duid ∉ m.bidi) :
    m.dispatched x b.duid b.service d = 0 ∨
    ∀ e, m.dispatched x b.duid .energy d - m.dispatched x b.duid d.downReg d ≤ e →
      e ≤ m.dispatched x b.duid .energy d + m.dispatched x b.duid d.upReg d →
      b.allows e (m.dispatched x b.duid b.service d) := by
  by_cases hf : m.bidsFor b.duid b.service d
  · right
    obtain ⟨q, hq, hdir, _, hvol⟩ := processed_volume h
    obtain ⟨r, hr, r1, r2, r3⟩ := bid_of_bidsFor m1 hl hf
    obtain ⟨v, hv, rfl⟩ := List.mem_map.1 hr
    obtain ⟨b', hb', e1, e2, e3, _⟩ := hvol v hv
    have hk : b'.key = b.key := by
      unfold VolBid.key
      simp only [BidRow.toMarket] at r1 r2 r3
      rw [← e2, ← e3, e1, r1, r2, r3, hd]
    obtain ⟨k1, k2, k3⟩ : b'.duid = b.duid ∧ b'.service = b.service ∧ b'.dir = b.dir := by
      simp only [VolBid.key, Prod.mk.injEq] at hk
      exact hk
    obtain ⟨hp, hall⟩ := processed_bid hq hb ha hc hu hin hbm hb' hs.1 hk
    obtain ⟨t1, _, t3⟩ := trap_tables hq hdir hmax hreg hcon hb' (k2 ▸ hs.1) (k3.trans hd)
    have t3 := t3 (by rw [k2]; simp [isReg, hs.2])
    intro e he1 he2
    apply hall
    have := C17_contingency_inside_trapezium_partial m3 m2 hl hx (t := (b'.trapIn d).toMarket) (List.mem_map_of_mem t3)
      (List.mem_map.2 ⟨_, t1, rfl⟩) (by simpa [TrapRow.toMarket, VolBid.trapIn, k1] using hbi) hp
      (by simpa [TrapRow.toMarket, VolBid.trapIn, k1] using hul)
      (by simpa [TrapRow.toMarket, VolBid.trapIn, k1, k2] using hf)
    exact inside_allows (d := d) (lo := m.dispatched x b.duid .energy d - m.dispatched x b.duid d.downReg d)
      (hi := m.dispatched x b.duid .energy d + m.dispatched x b.duid d.upReg d) (by
      simpa only [TrapRow.toMarket, VolBid.trapIn, k1, k2] using this) he1 he2
  · exact Or.inl (dispatched_zero hf)

/-! ### C92: volumes and availability -/

/-- The bands of every unit, service and direction are those of the file: in every feasible dispatch of a market with the
processed volume bids, at most the volume of the bands of the bid in the file is dispatched, and nothing if there is no
such bid. -/
theorem C92_volume {i : Inputs} {vs ps : List BidRow} (h : i.processedBids = .ok (vs, ps))
    (hb : (i.bids.map VolBid.key).Nodup) (ha : (i.agc.map AgcLimits.duid).Nodup) (hc : (i.init.map InitCond.duid).Nodup)
    (hu : (i.uigf.map Prod.fst).Nodup) (hin : ∀ d ∈ i.agc.map AgcLimits.duid, d ∈ i.init.map InitCond.duid)
    (hpos : ∀ b ∈ i.bids, ∀ v ∈ b.bands, 0 ≤ v)
    {m : Market} (m1 : InForce (.volumeBids (vs.map BidRow.toMarket)) m)
    {lp : Lp} (hl : m.assemble = .ok lp) {x : Nat → ℚ} (hx : Feasible lp x) (u : String) (s : Service) (d : DType) :
    (∀ b ∈ i.bids, b.duid = u → b.service = s → b.dir = some d → m.dispatched x u s d ≤ b.bands.sum) ∧
    ((∀ b ∈ i.bids, ¬(b.duid = u ∧ b.service = s ∧ b.dir = some d)) → m.dispatched x u s d = 0) := by
  obtain ⟨q, hq, _, hsub, hvol⟩ := processed_volume h
  obtain ⟨hkeys, hsame⟩ := processed_same hq hb ha hc hu hin
  obtain ⟨hge, hle⟩ := C03_dispatch_within_offer m1 hl hx u s d
  -- at most one row is for this unit, service and direction
  have hone : offered (vs.map BidRow.toMarket) u s d = 0 ∨ ∃ b ∈ i.bids, b.key = (u, s, some d) ∧
      offered (vs.map BidRow.toMarket) u s d ≤ b.bands.sum := by
    have hn : ((vs.map BidRow.toMarket).map (fun v => (v.unit, v.service, some v.dtype))).Nodup := by
      rw [List.map_map]
      exact hsub.nodup hkeys
    unfold offered
    rcases Mms.filter_one_or_none hn (fun r => decide (r.unit = u ∧ r.service = s ∧ r.dtype = d)) (u, s, some d) (by
        intro r _ hr
        obtain ⟨h1, h2, h3⟩ := of_decide_eq_true hr
        rw [h1, h2, h3]) with e | ⟨r, hr, e, hp⟩
    · left
      rw [e]
      rfl
    · right
      obtain ⟨v, hv, rfl⟩ := List.mem_map.1 hr
      obtain ⟨h1, h2, h3⟩ := of_decide_eq_true hp
      simp only [BidRow.toMarket] at h1 h2 h3
      obtain ⟨b', hb', e1, e2, e3, e4⟩ := hvol v hv
      obtain ⟨b, hbm, s1, s2, s3, s4, _⟩ := hsame b' hb'
      refine ⟨b, hbm, ?_, ?_⟩
      · unfold VolBid.key
        rw [← s1, ← s2, ← s3, ← e2, ← e3, e1, h1, h2, h3]
      · rw [e]
        simp only [List.map_cons, List.map_nil, List.sum_cons, List.sum_nil, add_zero, BidRow.toMarket]
        rw [e4, s4]
        exact zip_sum_le (hpos b hbm)
  constructor
  · intro b hbm h1 h2 h3
    rcases hone with e | ⟨b0, hb0, hk, hle0⟩
    · rw [e] at hle
      exact hle.trans (List.sum_nonneg (hpos b hbm))
    · have : b0 = b := List.inj_on_of_nodup_map hb hb0 hbm (by rw [hk]; unfold VolBid.key; rw [h1, h2, h3])
      subst this
      exact hle.trans hle0
  · intro hno
    rcases hone with e | ⟨b0, hb0, hk, _⟩
    · rw [e] at hle
      exact le_antisymm hle hge
    · unfold VolBid.key at hk
      simp only [Prod.mk.injEq] at hk
      exact absurd hk (hno b0 hb0)

/-- Pass the bid availabilities and forecasts of the interval to the market.  In every feasible dispatch no unit is
dispatched above the maximum availability of its energy bid, except units with a forecast before 2023/07/07 13:40, and no
unit is dispatched above its forecast. -/
theorem C92_availability {i : Inputs} {as : List (String × DType × ℚ)} (h : i.bidAvailability = .ok as) {m : Market}
    (m1 : InForce (.capacity (as.map capacityLimit) none) m) (m2 : InForce (.uigf (i.uigfLimits.map forecastLimit) none) m)
    {lp : Lp} (hl : m.assemble = .ok lp) {x : Nat → ℚ} (hx : Feasible lp x) :
    (∀ b ∈ i.bids, ∀ d, b.service = .energy → b.dir = some d → 0 ≤ b.maxAvail → m.lists b.duid d →
      ¬(i.before = true ∧ b.duid ∈ i.uigf.map Prod.fst) → m.dispatched x b.duid .energy d ≤ b.maxAvail) ∧
    (∀ u ∈ i.uigf, 0 ≤ u.2 → m.lists u.1 .generator → m.dispatched x u.1 .energy .generator ≤ u.2) := by
  constructor
  · intro b hb d he hd hp hu hn
    unfold Inputs.bidAvailability at h
    have hf := mapM_ok h
    have hm : b ∈ ((i.bids.filter (fun b => decide (b.service = .energy))).filter
        (fun b => !(i.before && decide (b.duid ∈ i.uigf.map Prod.fst)))) := by
      simp only [List.mem_filter, decide_eq_true_eq]
      refine ⟨⟨hb, he⟩, ?_⟩
      rw [Bool.not_eq_true', Bool.and_eq_false_iff, decide_eq_false_iff_not]
      by_cases h1 : i.before = true
      · exact Or.inr (fun h2 => hn ⟨h1, h2⟩)
      · exact Or.inl (by simpa using h1)
    obtain ⟨a, ha, hr⟩ := forall₂_left hf hm
    simp only [hd] at hr
    injection hr with hr
    subst hr
    exact C06_capacity_limit m1 hl hx (List.mem_map_of_mem ha) hu (Or.inl hp)
  · intro u hu hp hlst
    exact C07_uigf_limit m2 hl hx (l := forecastLimit u) (List.mem_map_of_mem hu) hlst (Or.inl hp)

/-! A generator with regulation and contingency bids whose AGC limits and telemetered rates cut the trapezium, a wind farm
with a forecast, and a battery, from the tables to a dispatch in which all these services are used. -/

def udInputs : Inputs where
  before := true
  volume :=
    [⟨"G", .energy, some .generator, [60, 40], 90, 0, 0, 0, 0, 240, 240⟩,
     ⟨"G", .raiseReg, some .generator, [20], 20, 10, 30, 70, 90, 0, 0⟩,
     ⟨"G", .raise6s, some .generator, [20], 20, 10, 30, 70, 90, 0, 0⟩,
     ⟨"W", .energy, none, [50], 50, 0, 0, 0, 0, 600, 600⟩,
     ⟨"B", .energy, some .generator, [30], 30, 0, 0, 0, 0, 600, 600⟩,
     ⟨"B", .energy, some .load, [30], 30, 0, 0, 0, 0, 600, 600⟩]
  price :=
    [⟨"G", .energy, .generator, [20, 50]⟩, ⟨"G", .raiseReg, .generator, [5]⟩, ⟨"G", .raise6s, .generator, [5]⟩,
     ⟨"W", .energy, .generator, [0]⟩, ⟨"B", .energy, .generator, [100]⟩, ⟨"B", .energy, .load, [10]⟩]
  init := [⟨"G", "GENERATOR", some 60, some 120, none, some 1⟩, ⟨"W", "GENERATOR", some 20, none, none, none⟩,
    ⟨"B", "BIDIRECTIONAL", some (-10), none, some 300, none⟩]
  uigf := [("W", 25)]
  details := [⟨"G", "NSW", 1, none, 1⟩, ⟨"W", "NSW", 1, none, 1⟩, ⟨"B", "NSW", 1, none, 1⟩]
  agc := [⟨"G", some 80, some 20, none, none⟩]

def udVolumes : List BidRow := (udInputs.processedBids.toOption.map (·.1)).getD []
def udRamps : List RampOut := udInputs.bidRampRates.toOption.getD []
def udCaps : List (String × DType × ℚ) := udInputs.bidAvailability.toOption.getD []
def udCalls : List Call := [.processedBids, .addTrapeziums]
def udTraps (c : Call) : List TrapRow :=
  match (Call.run udInputs c (runCalls udInputs udCalls)).2 with
  | .ok (.traps ts) => ts
  | _ => []

def udCase : Case where
  regions := ["NSW"]
  units := (unitInfo udInputs.price udInputs.init udInputs.details).map Info.toMarket
  hist := [.volumeBids (udVolumes.map BidRow.toMarket),
    .capacity (udCaps.map capacityLimit) none,
    .uigf (udInputs.uigfLimits.map forecastLimit) none,
    .rampRates (udRamps.filterMap RampOut.toMarket) (some (udInputs.scadaRampRates.map ScadaOut.toMarket)) none .noFastStart none,
    .fcasMaxAvail ((udTraps .maxAvailability).map TrapRow.toLimit) none,
    .energyReg ((udTraps .regulation).map TrapRow.toMarket) none,
    .jointCapacity ((udTraps .contingency).map TrapRow.toMarket) none]
  sol := [0, 10, 50, 10, 5, 5, 25]


example : udInputs.processedBids.toOption.map (·.1) = some udVolumes ∧ udInputs.bidRampRates.toOption = some udRamps ∧
    udInputs.bidAvailability.toOption = some udCaps ∧ udVolumes.length = 6 ∧ udRamps.length = 4 ∧ udCaps.length = 3 ∧
    (udInputs.bids.map VolBid.key).Nodup ∧ (udInputs.agc.map AgcLimits.duid).Nodup ∧
    (udInputs.init.map InitCond.duid).Nodup ∧ (udInputs.uigf.map Prod.fst).Nodup ∧
    (∀ d ∈ udInputs.agc.map AgcLimits.duid, d ∈ udInputs.init.map InitCond.duid) ∧
    (∀ b ∈ udInputs.bids, ∀ v ∈ b.bands, 0 ≤ v) ∧
    udRamps.map RampOut.toMarket = (udRamps.filterMap RampOut.toMarket).map some := by decide +kernel

/-- the processed trapezium for regulation is smaller than the one bid -/
example : udTraps .regulation = [⟨"G", .raiseReg, .generator, 10, 20, 30, 70, 80⟩] ∧
    udTraps .contingency = [⟨"G", .raise6s, .generator, 20, 10, 30, 70, 90⟩] ∧
    udTraps .maxAvailability = udTraps .contingency ++ udTraps .regulation := by decide +kernel

example : ∃ m lp, InForce (.volumeBids (udVolumes.map BidRow.toMarket)) m ∧
    InForce (.capacity (udCaps.map capacityLimit) none) m ∧
    InForce (.uigf (udInputs.uigfLimits.map forecastLimit) none) m ∧
    InForce (.rampRates (udRamps.filterMap RampOut.toMarket) (some (udInputs.scadaRampRates.map ScadaOut.toMarket)) none
      .noFastStart none) m ∧
    InForce (.fcasMaxAvail ((udTraps .maxAvailability).map TrapRow.toLimit) none) m ∧
    InForce (.energyReg ((udTraps .regulation).map TrapRow.toMarket) none) m ∧
    InForce (.jointCapacity ((udTraps .contingency).map TrapRow.toMarket) none) m ∧
    m.assemble = .ok lp ∧ Feasible lp udCase.x ∧
    (decide ("B" ∈ m.bidi ∧ "G" ∉ m.bidi ∧ m.lists "G" .generator ∧ m.lists "W" .generator ∧ m.bidsFor "G" .energy .generator ∧
      m.bidsFor "B" .energy .load ∧ m.dispatched udCase.x "G" .energy .generator = 55 ∧
      m.dispatched udCase.x "G" .raiseReg .generator = 5 ∧ m.dispatched udCase.x "G" .raise6s .generator = 10 ∧
      m.dispatched udCase.x "W" .energy .generator = 25 ∧ m.netOutput udCase.x "B" = -10)) = true := by
  obtain ⟨m, lp, h1, h2, h3, h4⟩ := Case.witness (s := udCase) (P := fun m =>
    decide ("B" ∈ m.bidi ∧ "G" ∉ m.bidi ∧ m.lists "G" .generator ∧ m.lists "W" .generator ∧ m.bidsFor "G" .energy .generator ∧
      m.bidsFor "B" .energy .load ∧ m.dispatched udCase.x "G" .energy .generator = 55 ∧
      m.dispatched udCase.x "G" .raiseReg .generator = 5 ∧ m.dispatched udCase.x "G" .raise6s .generator = 10 ∧
      m.dispatched udCase.x "W" .energy .generator = 25 ∧ m.netOutput udCase.x "B" = -10)) (by decide +kernel)
  exact ⟨m, lp, Case.inForce (i := 0) (keep := []) h1 rfl (by decide +kernel),
    Case.inForce (i := 1) (keep := []) h1 rfl (by decide +kernel), Case.inForce (i := 2) (keep := []) h1 rfl (by decide +kernel),
    Case.inForce (i := 3) (keep := []) h1 rfl (by decide +kernel), Case.inForce (i := 4) (keep := []) h1 rfl (by decide +kernel),
    Case.inForce (i := 5) (keep := []) h1 rfl (by decide +kernel), Case.inForce (i := 6) (keep := []) h1 rfl (by decide +kernel),
    h2, h3, h4⟩

end Verif.Units
