import Verif.Proofs.Replace
import Verif.Proofs.ReplaceTable
import Verif.Proofs.Demo

/-!
# C25: setting a constraint set again replaces it
-/

namespace Verif

/-- **C25** Take any history of calls in which `op` replaces its constraint sets and succeeds.  Leave out all earlier calls
about the same constraint sets (setting them, making them elastic, removing them).  The market then dispatches the same: the
program can be built for both histories or for neither, and the possible reports on dispatches and on optimal dispatches, and the prices that can go with the latter, are
the same.  What is missing: the violation variables of earlier calls are only replaced if `op` has a violation cost itself
(`C25_negation_elastic`), fast start profiles that give no constraints replace nothing (`C25_negation_fast_start`), and ramp
rates of markets with bidirectional units and joint ramping are not covered (`C25_negation_joint_ramping`). -/
theorem C25_last_call_decides_partial {regions : List String} {units : List UnitInfo} {di : ℚ} {m0 : Market}
    {before after : List Op} {op : Op} (h0 : Market.init regions units di = .ok m0) (hb : Benign m0 (before ++ op :: after))
    (hok : ((m0.run before).step op).2 = none) (hr : op.replaces units)
    (hd : op.softens ∨ ∀ o ∈ before, op.about o = true → o.vcost = none) :
    DispatchSame (m0.run (before ++ op :: after)) (m0.run (before.filter (fun o => !op.about o) ++ op :: after)) :=
  replaced h0 hb hok hr hd

/-- The same without violation costs: if no call of the history before `op` asks for elastic constraints, setting a single
constraint set again dispatches as if only the last call had been made. -/
theorem C25_inelastic_partial {regions : List String} {units : List UnitInfo} {di : ℚ} {m0 : Market}
    {before after : List Op} {op : Op} (h0 : Market.init regions units di = .ok m0) (hb : Benign m0 (before ++ op :: after))
    (hok : ((m0.run before).step op).2 = none) (hr : op.replaces units) (hd : ∀ o ∈ before, o.vcost = none) :
    DispatchSame (m0.run (before ++ op :: after)) (m0.run (before.filter (fun o => !op.about o) ++ op :: after)) :=
  replaced h0 hb hok hr (Or.inr (fun o ho _ => hd o ho))

/-- **C25** Setting bids, interconnectors or links of generic constraints again: the market dispatches as if only the last
call had been made, provided no call in between looked at what was set before (price bids look at the volume bids, losses at
the interconnectors; such a call has to be repeated, `C25_negation_stale_prices`). -/
theorem C25_bids_and_links_partial {regions : List String} {units : List UnitInfo} {di : ℚ} {m0 : Market}
    {before after : List Op} {op : Op} (h0 : Market.init regions units di = .ok m0) (hb : Benign m0 (before ++ op :: after))
    (hok : ((m0.run before).step op).2 = none) (hop : op.tabular)
    (hd : ∀ o ∈ before, op.about o = false → ∀ p ∈ op.parts, p ∉ o.needs) :
    DispatchSame (m0.run (before ++ op :: after)) (m0.run (before.filter (fun o => !op.about o) ++ op :: after)) :=
  replacedTable ⟨_, _, _, m0, [], h0, trivial, rfl⟩ hb hok hop hd

/-! ### Where the property fails -/

/-- a generator -/
def replUnits : List UnitInfo := [{ unit := "A", region := "NSW" }]

/-- bids and prices of the generator -/
def replBids : List Op := [.volumeBids [{ unit := "A", bands := [("1", 50)] }, { unit := "A", service := .raiseReg, bands := [("1", 50)] }],
  .priceBids [{ unit := "A", bands := [("1", 20)] }, { unit := "A", service := .raiseReg, bands := [("1", 20)] }]]

/-- what a history leads to, for the generator -/
def replRun (ops : List Op) : Market := Market.run { regions := ["NSW"], units := replUnits, di := 5 } (replBids ++ ops)

/-- the generator can be dispatched for 30 MW of energy and 20 MW of regulation -/
def replCan (ops : List Op) : Bool :=
  match (replRun ops).assemble with
  | .error _ => false
  | .ok lp => decide (Feasible lp (fun i => [30, 20].getD i 0) ∧
      (replRun ops).dispatched (fun i => [30, 20].getD i 0) "A" .energy .generator = 30 ∧
      (replRun ops).dispatched (fun i => [30, 20].getD i 0) "A" .raiseReg .generator = 20)

theorem replCan_spec {ops : List Op} (h : replCan ops = true) : ∃ lp x, (replRun ops).assemble = .ok lp ∧ Feasible lp x ∧
    (replRun ops).dispatched x "A" .energy .generator = 30 ∧ (replRun ops).dispatched x "A" .raiseReg .generator = 20 := by
  unfold replCan at h
  split at h
  · cases h
  rename_i lp hlp
  obtain ⟨h1, h2, h3⟩ := of_decide_eq_true h
  exact ⟨lp, _, hlp, h1, h2, h3⟩

/-- demand of 30 MW -/
def replDemand : List Demand := [{ region := "NSW", demand := 30 }]

/-- **C25** As stated the property fails: after an elastic demand constraint was set, setting it again without a violation
cost leaves the old violation variables behind and no program can be built; without the first call it can. -/
theorem C25_negation_elastic :
    (¬ ∃ lp, (replRun ([.demand [{ region := "NSW", demand := 40 }] (some (.num 1000))] ++ [.demand replDemand none])).assemble = .ok lp) ∧
    ∃ lp x, (replRun [.demand replDemand none]).assemble = .ok lp ∧ Feasible lp x ∧
      (replRun [.demand replDemand none]).dispatched x "A" .energy .generator = 30 ∧
      (replRun [.demand replDemand none]).dispatched x "A" .raiseReg .generator = 20 := by
  refine ⟨?_, replCan_spec (by decide +kernel)⟩
  rintro ⟨lp, h⟩
  have : (match (replRun ([.demand [{ region := "NSW", demand := 40 }] (some (.num 1000))] ++ [.demand replDemand none])).assemble with
    | .ok _ => false | .error _ => true) = true := by decide +kernel
  rw [h] at this
  cases this

/-- a row of the program that keeps the first variable at 0 -/
def zeroRow (lp : Lp) : Bool := decide (∃ r ∈ lp.rows, r.coefs = [(0, 1)] ∧ r.ctype = .le ∧ r.rhs = .const 0)

theorem zeroRow_spec {lp : Lp} (h : zeroRow lp = true) {x : Nat → ℚ} (hx : Feasible lp x) : x 0 ≤ 0 := by
  obtain ⟨r, hr, h1, h2, h3⟩ := of_decide_eq_true h
  have := hx.rows r hr
  unfold LRow.holds at this
  rw [h1, h2, h3] at this
  simpa [CType.holds, linVal, Rhs.eval] using this

/-- fast start profile of the generator in a mode -/
def replFs (mode : Nat) : Op := .fastStart [⟨"A", mode, 0, 0, 0, 0⟩] none

/-- **C25** Setting fast start profiles again does not replace the old ones if the new profiles give no constraints: a unit
that was in mode 0 is kept at 0 MW after its profile was replaced by one in mode 5; without the first call it can be
dispatched for 30 MW. -/
theorem C25_negation_fast_start :
    (∃ lp, (replRun [replFs 0, replFs 5, .capacity [{ unit := "A", val := 50 }] none]).assemble = .ok lp ∧ ∀ x, Feasible lp x →
      (replRun [replFs 0, replFs 5, .capacity [{ unit := "A", val := 50 }] none]).dispatched x "A" .energy .generator ≤ 0) ∧
    ∃ lp x, (replRun [replFs 5, .capacity [{ unit := "A", val := 50 }] none]).assemble = .ok lp ∧ Feasible lp x ∧
      (replRun [replFs 5, .capacity [{ unit := "A", val := 50 }] none]).dispatched x "A" .energy .generator = 30 ∧
      (replRun [replFs 5, .capacity [{ unit := "A", val := 50 }] none]).dispatched x "A" .raiseReg .generator = 20 := by
  refine ⟨?_, replCan_spec (by decide +kernel)⟩
  generalize hm : replRun [replFs 0, replFs 5, .capacity [{ unit := "A", val := 50 }] none] = m
  have hz : (match m.assemble with | .ok lp => zeroRow lp | .error _ => false) = true ∧
      (m.bids.getD []).filter (fun b => decide (b.unit = "A" ∧ b.service = .energy ∧ b.dtype = .generator)) =
        [⟨"A", "1", .energy, .generator, 0, 50⟩] := by
    subst hm; decide +kernel
  obtain ⟨h1, h2⟩ := hz
  split at h1
  · rename_i lp h
    refine ⟨lp, h, fun x hx => ?_⟩
    unfold Market.dispatched
    rw [h2]
    simpa using zeroRow_spec h1 hx
  · cases h1

/-- SCADA ramp rates of 0 for the generator -/
def replJr (rs : List RampRow) : Op := .jointRamping rs none .noFastStart none

/-- a row of the program that keeps the sum of the first two variables at 0 -/
def zeroSum (lp : Lp) : Bool := decide (∃ r ∈ lp.rows, r.coefs = [(1, 1), (0, 1)] ∧ r.ctype = .le ∧ r.rhs = .const 0)

theorem zeroSum_spec {lp : Lp} (h : zeroSum lp = true) {x : Nat → ℚ} (hx : Feasible lp x) : x 0 + x 1 ≤ 0 := by
  obtain ⟨r, hr, h1, h2, h3⟩ := of_decide_eq_true h
  have := hx.rows r hr
  unfold LRow.holds at this
  rw [h1, h2, h3] at this
  simpa [CType.holds, linVal, Rhs.eval, add_comm] using this

/-- **C25** Setting joint ramping constraints again with ramp rates that give no constraints does not replace the old ones:
energy and regulation of a unit that could not ramp are still kept at 0 MW in total; without the first call the unit can be
dispatched for 30 MW and 20 MW. -/
theorem C25_negation_joint_ramping :
    (∃ lp, (replRun [replJr [⟨"A", .generator, 0, 0, 0⟩], replJr [], .capacity [{ unit := "A", val := 50 }] none]).assemble = .ok lp ∧
      ∀ x, Feasible lp x →
      (replRun [replJr [⟨"A", .generator, 0, 0, 0⟩], replJr [], .capacity [{ unit := "A", val := 50 }] none]).dispatched x "A" .energy .generator +
      (replRun [replJr [⟨"A", .generator, 0, 0, 0⟩], replJr [], .capacity [{ unit := "A", val := 50 }] none]).dispatched x "A" .raiseReg .generator ≤ 0) ∧
    ∃ lp x, (replRun [replJr [], .capacity [{ unit := "A", val := 50 }] none]).assemble = .ok lp ∧ Feasible lp x ∧
      (replRun [replJr [], .capacity [{ unit := "A", val := 50 }] none]).dispatched x "A" .energy .generator = 30 ∧
      (replRun [replJr [], .capacity [{ unit := "A", val := 50 }] none]).dispatched x "A" .raiseReg .generator = 20 := by
  refine ⟨?_, replCan_spec (by decide +kernel)⟩
  generalize hm : replRun [replJr [⟨"A", .generator, 0, 0, 0⟩], replJr [], .capacity [{ unit := "A", val := 50 }] none] = m
  have hz : (match m.assemble with | .ok lp => zeroSum lp | .error _ => false) = true ∧
      (m.bids.getD []).filter (fun b => decide (b.unit = "A" ∧ b.service = .energy ∧ b.dtype = .generator)) =
        [⟨"A", "1", .energy, .generator, 0, 50⟩] ∧
      (m.bids.getD []).filter (fun b => decide (b.unit = "A" ∧ b.service = .raiseReg ∧ b.dtype = .generator)) =
        [⟨"A", "1", .raiseReg, .generator, 1, 50⟩] := by
    subst hm; decide +kernel
  obtain ⟨h1, h2, h3⟩ := hz
  split at h1
  · rename_i lp h
    refine ⟨lp, h, fun x hx => ?_⟩
    unfold Market.dispatched
    rw [h2, h3]
    simpa using zeroSum_spec h1 hx
  · cases h1

/-- **C25** Volume bids set again after the price bids do not replace the first ones completely: the price bids still refer
to the first volume bids and no program can be built (`KeyError`), while one can be built without the first call. -/
theorem C25_negation_stale_prices :
    (replRun [.volumeBids [{ unit := "A", bands := [("1", 50)] }], .demand replDemand none]).assemble = .error .keyError ∧
    ∃ lp, (Market.run { regions := ["NSW"], units := replUnits, di := 5 } ([.priceBids [{ unit := "A", bands := [("1", 20)] }],
      .volumeBids [{ unit := "A", bands := [("1", 50)] }], .demand replDemand none])).assemble = .ok lp := by
  have h1 : (match (replRun [.volumeBids [{ unit := "A", bands := [("1", 50)] }], .demand replDemand none]).assemble with
    | .error .keyError => true | _ => false) = true := by decide +kernel
  have h2 : (match (Market.run { regions := ["NSW"], units := replUnits, di := 5 } ([.priceBids [{ unit := "A", bands := [("1", 20)] }],
      .volumeBids [{ unit := "A", bands := [("1", 50)] }], .demand replDemand none])).assemble with
    | .ok _ => true | .error _ => false) = true := by decide +kernel
  constructor
  · split at h1
    · assumption
    · cases h1
  · split at h2
    · exact ⟨_, by assumption⟩
    · cases h2

/-! ### Instances -/

/-- instance of C25: demand set three times, made elastic in between; the last call has a violation cost -/
example : ∃ (m0 : Market) (before after : List Op), Market.init ["NSW"] replUnits 5 = .ok m0 ∧
    Benign m0 (before ++ .demand replDemand (some (.num 100)) :: after) ∧
    ((m0.run before).step (.demand replDemand (some (.num 100)))).2 = none ∧
    (Op.demand replDemand (some (.num 100))).replaces replUnits ∧ (Op.demand replDemand (some (.num 100))).softens ∧
    (∃ lp x, (m0.run (before ++ .demand replDemand (some (.num 100)) :: after)).assemble = .ok lp ∧ Feasible lp x) ∧
    before.filter (fun o => !(Op.demand replDemand (some (.num 100))).about o) = replBids ∧ before.length = 5 := by
  refine ⟨{ regions := ["NSW"], units := replUnits, di := 5 },
    replBids ++ [.demand [] none, .demand [{ region := "NSW", demand := 10 }] none, .elastic .demand (.num 10)],
    [.capacity [{ unit := "A", val := 40 }] none], rfl, benignB_iff.1 (by decide +kernel), by decide +kernel, trivial, rfl, ?_, rfl, rfl⟩
  have hb : (match (Market.run { regions := ["NSW"], units := replUnits, di := 5 } ((replBids ++ [.demand [] none,
        .demand [{ region := "NSW", demand := 10 }] none, .elastic .demand (.num 10)]) ++
        .demand replDemand (some (.num 100)) :: [.capacity [{ unit := "A", val := 40 }] none])).assemble with
      | .ok lp => decide (Feasible lp (fun i => [30, 20].getD i 0)) | .error _ => false) = true := by decide +kernel
  split at hb
  · rename_i lp h
    exact ⟨lp, _, h, of_decide_eq_true hb⟩
  · cases hb

/-- instance of C25: ramp rates set twice -/
example : ∃ (m0 : Market) (before after : List Op), Market.init ["NSW"] replUnits 5 = .ok m0 ∧
    Benign m0 (before ++ .rampRates [⟨"A", .generator, 10, 120, 120⟩] none none .noFastStart none :: after) ∧
    ((m0.run before).step (.rampRates [⟨"A", .generator, 10, 120, 120⟩] none none .noFastStart none)).2 = none ∧
    (Op.rampRates [⟨"A", .generator, 10, 120, 120⟩] none none .noFastStart none).replaces replUnits ∧
    (∀ o ∈ before, o.vcost = none) ∧ before.length = 3 := by
  refine ⟨{ regions := ["NSW"], units := replUnits, di := 5 },
    replBids ++ [.rampRates [⟨"A", .generator, 0, 12, 12⟩] none none .noFastStart none],
    [.demand replDemand none], rfl, benignB_iff.1 (by decide +kernel), by decide +kernel, ?_, ?_, rfl⟩
  · intro u hu v hv _
    simp only [replUnits, List.mem_singleton] at hu hv
    rw [hu, hv]
  · intro o ho
    simp only [replBids, List.cons_append, List.nil_append, List.mem_cons, List.not_mem_nil, or_false] at ho
    rcases ho with rfl | rfl | rfl <;> rfl

/-- instance of `C25_bids_and_links_partial`: volume bids set twice, then prices; the links of a generic constraint set
twice -/
example : ∃ (m0 : Market) (before after : List Op), Market.init ["NSW"] replUnits 5 = .ok m0 ∧
    Benign m0 (before ++ .volumeBids [{ unit := "A", bands := [("1", 50)] }] :: after) ∧
    ((m0.run before).step (.volumeBids [{ unit := "A", bands := [("1", 50)] }])).2 = none ∧
    (Op.volumeBids [{ unit := "A", bands := [("1", 50)] }]).tabular ∧
    (∀ o ∈ before, (Op.volumeBids [{ unit := "A", bands := [("1", 50)] }]).about o = false →
      ∀ p ∈ (Op.volumeBids [{ unit := "A", bands := [("1", 50)] }]).parts, p ∉ o.needs) ∧ before.length = 2 ∧
    (match (m0.run (before ++ .volumeBids [{ unit := "A", bands := [("1", 50)] }] :: after)).assemble with
      | .ok lp => decide (Feasible lp (fun i => [0, 30].getD i 0)) | .error _ => false) = true :=
  ⟨{ regions := ["NSW"], units := replUnits, di := 5 },
    [.demand replDemand none, .volumeBids [{ unit := "A", bands := [("1", 10)] }]],
    [.priceBids [{ unit := "A", bands := [("1", 20)] }]], rfl, benignB_iff.1 (by decide +kernel), by decide +kernel, trivial,
    by decide +kernel, rfl, by decide +kernel⟩

end Verif
