import Verif.Proofs.BidScaling

/-!
# Scaling of FCAS bids to telemetered limits (C57, C58, C59)
-/

namespace Verif.Units

/-! ### C57: AGC enablement limits -/

/-- With at most one row of AGC limits per unit: scaling keeps the bids for services other than regulation and the
regulation bids of units with a row of AGC limits, each once; bids for other services are unchanged; the enablement
limits of regulation bids are replaced by AGC limits exactly where those are given, tighter and positive, the break points
move by the same amount and everything else stays. -/
theorem C57_agc_limits (bs : List VolBid) {ls : List AgcLimits} (hn : (ls.map AgcLimits.duid).Nodup) :
    ∃ f : VolBid → VolBid,
      (agcEnablement bs ls).Perm
        ((bs.filter (fun b => !isReg b.service || decide (b.duid ∈ ls.map AgcLimits.duid))).map f) ∧
      (∀ b ∈ bs, b.service ≠ .raiseReg → b.service ≠ .lowerReg → f b = b) ∧
      (∀ b ∈ bs, ∀ l ∈ ls, l.duid = b.duid → b.service = .raiseReg → AgcScaled l.raiseMin l.raiseMax b (f b)) ∧
      (∀ b ∈ bs, ∀ l ∈ ls, l.duid = b.duid → b.service = .lowerReg → AgcScaled l.lowerMin l.lowerMax b (f b)) := by
  refine ⟨agcOf ls, agcEnablement_perm bs hn, ?_, ?_, ?_⟩
  · intro b _ h1 h2
    exact agcOf_other (by simp [isReg, h1, h2])
  · intro b _ l hl e hs
    rw [agcOf_row hn hl e, hs]
    exact agcScaled _ _ _
  · intro b _ l hl e hs
    rw [agcOf_row hn hl e, hs]
    exact agcScaled _ _ _

/-- an AGC limit that is tighter gives the limits of the scaled bid: no regulation bid has a looser limit afterwards -/
theorem C57_never_looser (lo hi : Option ℚ) {b b' : VolBid} (h : AgcScaled lo hi b b') :
    b.emin ≤ b'.emin ∧ b'.emax ≤ b.emax := by
  obtain ⟨_, _, ⟨h1, h2, _⟩, h3, h4, _⟩ := h
  constructor
  · by_cases g : ∃ l, lo = some l ∧ b.emin < l ∧ 0 < l
    · obtain ⟨l, e, g1, g2⟩ := g
      rw [h1 l e g1 g2]; exact le_of_lt g1
    · rw [h2 (fun l e g' => g ⟨l, e, g'⟩)]
  · by_cases g : ∃ u, hi = some u ∧ u < b.emax ∧ 0 < u
    · obtain ⟨u, e, g1, g2⟩ := g
      rw [h3 u e g1 g2]; exact le_of_lt g1
    · rw [h4 (fun u e g' => g ⟨u, e, g'⟩)]

/-- two units, one with a tighter lower and upper limit, one with a limit that is not positive -/
def agcBids : List VolBid :=
  [⟨"A", .energy, some .generator, [100], 100, 0, 0, 0, 0, 0, 0⟩,
   ⟨"A", .raiseReg, some .generator, [20], 20, 10, 30, 60, 100, 0, 0⟩,
   ⟨"B", .lowerReg, some .generator, [20], 20, 10, 30, 60, 100, 0, 0⟩,
   ⟨"C", .lowerReg, some .generator, [20], 20, 10, 30, 60, 100, 0, 0⟩]

def agcRows : List AgcLimits := [⟨"A", some 90, some 15, none, none⟩, ⟨"B", none, none, some 0, some 5⟩]

example : (agcRows.map AgcLimits.duid).Nodup ∧ agcEnablement agcBids agcRows =
    [⟨"A", .energy, some .generator, [100], 100, 0, 0, 0, 0, 0, 0⟩,
     ⟨"B", .lowerReg, some .generator, [20], 20, 10, 30, 60, 100, 0, 0⟩,
     ⟨"A", .raiseReg, some .generator, [20], 20, 15, 35, 50, 90, 0, 0⟩] := by decide +kernel

/-! ### C58: SCADA ramp rates -/

theorem rampScaled_of {bs out : List VolBid} {cs : List InitCond} (hn : (cs.map InitCond.duid).Nodup)
    (hmem : ∀ b ∈ bs, isReg b.service = true → b.duid ∈ cs.map InitCond.duid) (h : agcRamp bs cs = .ok out) :
    ∀ b ∈ bs, isReg b.service = true → ∀ c ∈ cs, c.duid = b.duid →
      RampScaled (c.rate b.service) b (rampOf cs b) := by
  intro b hb hreg c hc e
  by_cases hr : hasRate (c.rate b.service) = true
  · have hok : ∃ b', b.rampScale (c.rate b.service) = .ok b' := by
      rw [agcRamp_eq hn hmem] at h
      obtain ⟨reg, hreg', hout⟩ := bind_ok h
      have hf := mapM_ok hreg'
      have hin : (b, rateFor cs b) ∈ (bs.filter (fun b => decide (b.service = .lowerReg) &&
            decide (b.duid ∈ ratedUnits InitCond.rampDown cs)) ++ bs.filter (fun b => decide (b.service = .raiseReg) &&
            decide (b.duid ∈ ratedUnits InitCond.rampUp cs))).map (fun b => (b, rateFor cs b)) := by
        refine List.mem_map_of_mem (f := fun b => (b, rateFor cs b)) ?_
        simp only [List.mem_append, List.mem_filter, Bool.and_eq_true, decide_eq_true_eq]
        simp only [isReg, decide_eq_true_eq] at hreg
        rcases hreg with hs | hs
        · right
          exact ⟨hb, hs, mem_rated.2 ⟨c, hc, by rw [hs] at hr; exact hr, e⟩⟩
        · left
          exact ⟨hb, hs, mem_rated.2 ⟨c, hc, by rw [hs] at hr; exact hr, e⟩⟩
      obtain ⟨b', hb'⟩ : ∃ b', VolBid.rampScale (rateFor cs b) b = .ok b' := by
        clear hreg' h hout
        generalize (bs.filter (fun b => decide (b.service = .lowerReg) &&
            decide (b.duid ∈ ratedUnits InitCond.rampDown cs)) ++ bs.filter (fun b => decide (b.service = .raiseReg) &&
            decide (b.duid ∈ ratedUnits InitCond.rampUp cs))).map (fun b => (b, rateFor cs b)) = L at *
        induction hf with
        | nil => simp at hin
        | cons h1 _ ih =>
          rcases List.mem_cons.1 hin with hx | hin
          · subst hx
            exact ⟨_, h1⟩
          · exact ih hin
      rw [rateFor_row hn hc e] at hb'
      exact ⟨b', hb'⟩
    obtain ⟨b', hb'⟩ := hok
    rw [rampOf_rated hn hc e hr hb']
    cases hc' : c.rate b.service with
    | none => rw [hc'] at hr; exact absurd hr (by decide)
    | some r =>
      rw [hc'] at hr hb'
      refine rampScale_ok ?_ hb'
      rintro rfl
      exact absurd hr (by decide)
  · simp only [Bool.not_eq_true] at hr
    rw [rampOf_unrated hn hc e hr]
    refine ⟨fun _ => rfl, ?_⟩
    intro r e' h0 _
    rw [e'] at hr
    simp [hasRate, h0] at hr

/-- With one row of initial conditions for each unit with regulation bids: every bid is kept exactly once; bids for other
services are unchanged; the availability of regulation bids is at most what the telemetered rate allows in five minutes,
with unchanged slopes. -/
theorem C58_ramp_partial {bs out : List VolBid} {cs : List InitCond} (hn : (cs.map InitCond.duid).Nodup)
    (hmem : ∀ b ∈ bs, isReg b.service = true → b.duid ∈ cs.map InitCond.duid) (h : agcRamp bs cs = .ok out) :
    ∃ f : VolBid → VolBid, out.Perm (bs.map f) ∧
      (∀ b ∈ bs, b.service ≠ .raiseReg → b.service ≠ .lowerReg → f b = b) ∧
      (∀ b ∈ bs, ∀ c ∈ cs, c.duid = b.duid → b.service = .raiseReg → RampScaled c.rampUp b (f b)) ∧
      (∀ b ∈ bs, ∀ c ∈ cs, c.duid = b.duid → b.service = .lowerReg → RampScaled c.rampDown b (f b)) := by
  have hrow := rampScaled_of hn hmem h
  refine ⟨rampOf cs, agcRamp_perm hn hmem h, ?_, ?_, ?_⟩
  · intro b _ h1 h2
    exact rampOf_other (by simp [isReg, h1, h2])
  · intro b hb c hc e hs
    have := hrow b hb (by rw [hs]; decide) c hc e
    rw [hs] at this
    exact this
  · intro b hb c hc e hs
    have := hrow b hb (by rw [hs]; decide) c hc e
    rw [hs] at this
    exact this

/-- Scaling never allows more: whatever enablement the scaled bid allows at an energy level, the bid as offered allows
too. -/
theorem C58_never_more {rate : Option ℚ} {b b' : VolBid} (h : RampScaled rate b b') (e q : ℚ) :
    b'.allows e q → b.allows e q := by
  obtain ⟨h1, h2⟩ := h
  by_cases g : ∃ r, rate = some r ∧ r ≠ 0 ∧ r * (5 / 60) < b.maxAvail
  · obtain ⟨r, er, h0, hlt⟩ := g
    obtain ⟨_, a1, a2, a3, a4, a5⟩ := h2 r er h0 hlt
    exact allows_scaled a1 a2 (by rw [a3]; exact hlt) a4 a5 e q
  · rw [h1]
    · exact id
    · intro r er
      by_contra hc
      push Not at hc
      exact g ⟨r, er, hc.1, hc.2⟩

/-- Scaling with telemetered rates that are not negative raises no exception. -/
theorem C58_no_error (bs : List VolBid) {cs : List InitCond}
    (hr : ∀ c ∈ cs, (∀ r, c.rampUp = some r → 0 ≤ r) ∧ ∀ r, c.rampDown = some r → 0 ≤ r) :
    ∃ out, agcRamp bs cs = .ok out := agcRamp_ok bs hr

def rampBids : List VolBid :=
  [⟨"A", .energy, some .generator, [100], 100, 0, 0, 0, 0, 0, 0⟩,
   ⟨"A", .raiseReg, some .generator, [20], 20, 10, 30, 60, 100, 0, 0⟩,
   ⟨"A", .lowerReg, some .generator, [20], 20, 10, 30, 60, 100, 0, 0⟩,
   ⟨"B", .lowerReg, some .generator, [20], 20, 10, 30, 60, 100, 0, 0⟩]

def rampRows : List InitCond :=
  [⟨"A", "GENERATOR", some 50, some 120, some 480, none⟩, ⟨"B", "GENERATOR", some 50, some 120, some 0, none⟩]

example : (rampRows.map InitCond.duid).Nodup ∧
    (∀ b ∈ rampBids, isReg b.service = true → b.duid ∈ rampRows.map InitCond.duid) ∧
    agcRamp rampBids rampRows = .ok
    [⟨"A", .energy, some .generator, [100], 100, 0, 0, 0, 0, 0, 0⟩,
     ⟨"B", .lowerReg, some .generator, [20], 20, 10, 30, 60, 100, 0, 0⟩,
     ⟨"A", .lowerReg, some .generator, [20], 20, 10, 30, 60, 100, 0, 0⟩,
     ⟨"A", .raiseReg, some .generator, [20], 10, 10, 20, 80, 100, 0, 0⟩] := by decide +kernel

/-- The property as stated does not hold for units without initial conditions: their regulation bids are dropped. -/
theorem C58_dropped_negation :
    ∃ (bs out : List VolBid) (cs : List InitCond), (cs.map InitCond.duid).Nodup ∧ agcRamp bs cs = .ok out ∧
      out.length < bs.length :=
  ⟨rampBids, [⟨"A", .energy, some .generator, [100], 100, 0, 0, 0, 0, 0, 0⟩,
     ⟨"A", .lowerReg, some .generator, [20], 20, 10, 30, 60, 100, 0, 0⟩,
     ⟨"A", .raiseReg, some .generator, [20], 10, 10, 20, 80, 100, 0, 0⟩], rampRows.take 1, by decide +kernel,
    by decide +kernel, by decide +kernel⟩

/-! ### C59: forecasts of semi scheduled units -/

/-- With one forecast per unit: every bid is kept exactly once; energy bids and bids of units without a forecast are
unchanged; the upper enablement limit of the FCAS bids of the other units is the smaller of the limit and the forecast with
an unchanged upper slope. -/
theorem C59_forecast (bs : List VolBid) {us : List (String × ℚ)} (hn : (us.map Prod.fst).Nodup) :
    ∃ f : VolBid → VolBid, (uigfScaling bs us).Perm (bs.map f) ∧
      (∀ b ∈ bs, b.service = .energy ∨ b.duid ∉ us.map Prod.fst → f b = b) ∧
      (∀ b ∈ bs, b.service ≠ .energy → ∀ u ∈ us, u.1 = b.duid → UigfScaled u.2 b (f b)) := by
  refine ⟨uigfOf us, uigf_perm bs hn, ?_, ?_⟩
  · rintro b _ (h | h)
    · unfold uigfOf
      rw [if_pos h]
    · unfold uigfOf
      cases hr : rowFor Prod.fst us b.duid with
      | none => simp
      | some u =>
        obtain ⟨hu, e⟩ := rowFor_some hr
        exact absurd (e ▸ List.mem_map_of_mem hu) h
  · intro b _ h u hu e
    unfold uigfOf
    rw [if_neg h, ← e, rowFor_mem hn hu]
    exact uigfScaled _ _

example : uigfScaling rampBids [("B", 80)] =
    [⟨"A", .energy, some .generator, [100], 100, 0, 0, 0, 0, 0, 0⟩,
     ⟨"A", .raiseReg, some .generator, [20], 20, 10, 30, 60, 100, 0, 0⟩,
     ⟨"A", .lowerReg, some .generator, [20], 20, 10, 30, 60, 100, 0, 0⟩,
     ⟨"B", .lowerReg, some .generator, [20], 20, 10, 30, 40, 80, 0, 0⟩] := by decide +kernel

end Verif.Units
