import Verif.Proofs.WholeHard
import Verif.Props.Existence
import Verif.Props.Bids
import Verif.Props.Infeasible

/-!
# C123: the program is the market

The schedules that are feasible for the program `dispatch` hands to the solver are exactly those that do what each call asks, and the
optimal ones are those of least cost.
-/

namespace Verif

/-- **C123**.  A schedule can be completed to a feasible solution of the program exactly if it does what each call asks: no call is
lost, none asks for more than it says, and nothing else constrains the dispatch. -/
theorem C123_schedules {ops : List Op} {m : Market} (h : DefinedBy ops m) {lp : Lp} (hl : m.assemble = .ok lp) (x : Nat → ℚ) :
    (∃ z, SameSchedule m x z ∧ Feasible lp z) ↔ ∀ op ∈ ops, op.meets m (lossesOf ops) x := by
  constructor
  · rintro ⟨z, hs, hz⟩ op ho
    exact hs.symm.meets (h.made.meets_of_feasible hl hz ho (h.plain op ho))
  · intro hm
    obtain ⟨z, hs, hv, h2, h1, hk⟩ := h.made.complete hl (fun op ho _ => hm op ho)
    have hd : m.defVids = [] := by unfold Market.defVids; rw [h.deficits]; rfl
    refine ⟨z, hs, (feasible_iff_obeys h.made.wf.con hl).2 ⟨fun v hv' => hv v hv' (by simp [hd]), h2, h1, fun k => hk k ?_⟩⟩
    rintro ⟨op, ho, hlax, _⟩
    exact firm_not_lax (h.plain op ho) hlax

/-- **C123**.  The objective of the program is the cost of the schedule. -/
theorem C123_cost {ops : List Op} {m : Market} (h : DefinedBy ops m) {ps : List BidRow} (hp : Op.priceBids ps ∈ ops) (hb : BandsUnique ps)
    {lp : Lp} (hl : m.assemble = .ok lp) (x : Nat → ℚ) : lp.cost x = m.costAt ps x := by
  rw [C05_objective_is_cost_of_bids (h.made.priceKeeping hp) hb hl x, h.deficits]
  simp [Market.costAt]

/-- **C123**.  A schedule can be completed to an optimal solution of the program exactly if it does what each call asks at the least
cost. -/
theorem C123_optimal {ops : List Op} {m : Market} (h : DefinedBy ops m) {ps : List BidRow} (hp : Op.priceBids ps ∈ ops) (hb : BandsUnique ps)
    {lp : Lp} (hl : m.assemble = .ok lp) (x : Nat → ℚ) :
    (∃ z, SameSchedule m x z ∧ Optimal lp z) ↔ LeastCost m ops ps x := by
  have hc : ∀ x z, SameSchedule m x z → lp.cost z = m.costAt ps x := by
    intro x z hs
    rw [C123_cost h hp hb hl]
    unfold Market.costAt
    apply sum_map_congr
    intro b hb
    rw [hs.1 b hb]
  constructor
  · rintro ⟨z, hs, hz, ho⟩
    refine ⟨(C123_schedules h hl x).1 ⟨z, hs, hz⟩, fun y hy => ?_⟩
    obtain ⟨w, hw, hf⟩ := (C123_schedules h hl y).2 hy
    rw [← hc x z hs, ← hc y w hw]
    exact ho w hf
  · rintro ⟨hm, ho⟩
    obtain ⟨z, hs, hz⟩ := (C123_schedules h hl x).2 hm
    refine ⟨z, hs, hz, fun w hw => ?_⟩
    rw [hc x z hs, C123_cost h hp hb hl w]
    exact ho w ((C123_schedules h hl w).1 ⟨w, ⟨fun _ _ => rfl, fun _ _ => rfl, fun _ _ => rfl⟩, hw⟩)

/-- **C123**.  With a correct solver `dispatch` finds a schedule that does what each call asks at the least cost and reports its cost,
and raises ValueError exactly if no schedule does what each call asks. -/
theorem C123_dispatch {ops : List Op} {m : Market} (h : DefinedBy ops m) {ps : List BidRow} (hp : Op.priceBids ps ∈ ops) (hb : BandsUnique ps)
    {lp : Lp} (hl : m.assemble = .ok lp) (hpr : ∀ r ∈ m.mktRhs.concat, r.cid ∈ lp.rows.map LRow.cid) {S : Solver} (hS : S.Correct)
    (ocd : Option ReRun) :
    (m.dispatch S ocd = .error .valueError ↔ ¬ ∃ x, ∀ op ∈ ops, op.meets m (lossesOf ops) x) ∧
    ((∃ x, ∀ op ∈ ops, op.meets m (lossesOf ops) x) → ∃ o, m.dispatch S ocd = .ok o ∧ LeastCost m ops ps o.x ∧ o.cost = m.costAt ps o.x) := by
  have he : (∃ x, Optimal lp x) ↔ ∃ x, ∀ op ∈ ops, op.meets m (lossesOf ops) x := by
    constructor
    · rintro ⟨x, hx, _⟩
      exact ⟨x, (C123_schedules h hl x).1 ⟨x, ⟨fun _ _ => rfl, fun _ _ => rfl, fun _ _ => rfl⟩, hx⟩⟩
    · rintro ⟨x, hx⟩
      obtain ⟨z, _, hz⟩ := (C123_schedules h hl x).2 hx
      obtain ⟨b, hb⟩ := linVal_bounded lp.obj (objective_bounded_of h.made.reached.refs (by unfold DefCosts; rw [h.deficits]; nofun) hl)
      exact optimal_exists ⟨z, hz⟩ hb
  obtain ⟨a, b⟩ := C94_dispatch S hS m lp ocd hl hpr
  rw [← he]
  refine ⟨a, fun hx => ?_⟩
  obtain ⟨o, o1, o2, o3⟩ := b hx
  refine ⟨o, o1, (C123_optimal h hp hb hl o.x).1 ⟨o.x, ⟨fun _ _ => rfl, fun _ _ => rfl, fun _ _ => rfl⟩, o2⟩, ?_⟩
  rw [o3, C123_cost h hp hb hl]

/-- **C123**.  The bid bands whose dispatch makes up a schedule are the bands given in the call, with the volumes given there, except
those of less than 0.0001 MW. -/
theorem C123_bands {ops : List Op} {m : Market} (h : DefinedBy ops m) {bs : List BidRow} (hb : Op.volumeBids bs ∈ ops)
    {lp : Lp} (hl : m.assemble = .ok lp) :
    ((m.bids.getD []).map (fun v => (v.unit, v.service, v.dtype, v.band, v.ub))).Perm
      ((bandsOf bs).filter (fun b => decide (1 / 10000 ≤ b.2.2.2.2))) ∧ ((m.bids.getD []).map BidVar.vid).Nodup :=
  have := C04_one_variable_per_band (h.made.inForce hb) hl
  ⟨this.1, this.2.2⟩

/-- **C123**.  The links of the schedule are those given in the call. -/
theorem C123_links {ops : List Op} {m : Market} (h : DefinedBy ops m) {ds : List InterDef} (hd : Op.interconnectors ds ∈ ops) :
    m.dirs = some ds := by
  obtain ⟨n, hi, hdirs, _⟩ := inters_set (h.made.inForce hd)
  exact hdirs

/-! ### Instances -/

instance decAccepted : ∀ (m : Market) (ops : List Op), Decidable (Accepted m ops)
  | _, [] => isTrue trivial
  | m, op :: ops => by unfold Accepted; exact @instDecidableAnd _ _ _ (decAccepted _ ops)

instance (ops : List Op) : Decidable (OncePerPart ops) := by unfold OncePerPart; infer_instance

instance decSuits (m : Market) (op : Op) : Decidable (op.suits m) := by
  cases op with
  | rampRates rs a b c d => exact inferInstanceAs (Decidable (∀ r ∈ rs, r.unit ∈ m.bidi →
      0 < m.di ∧ 0 ≤ r.up ∧ 0 ≤ r.down ∧ ∀ q ∈ rs, q.unit = r.unit → q.init = r.init))
  | fastStart ps a => exact inferInstanceAs (Decidable (∀ p ∈ ps, p.unit ∉ m.bidi))
  | jointRamping rs ps rt c => exact inferInstanceAs (Decidable (∀ r ∈ rs, r.unit ∉ m.bidi → rt = .noFastStart ∨
      ∀ p ∈ ps.getD [], p.unit = r.unit → ∀ b ∈ m.bids.getD [], b.unit = r.unit → b.dtype = .generator))
  | jointCapacity ts a => exact inferInstanceAs (Decidable (∀ t ∈ ts, t.unit ∈ m.bidi → t.dtype = .generator ∧
      ¬ ∃ b ∈ m.bids.getD [], b.unit = t.unit ∧ b.service = .lowerReg ∧ b.dtype = .load))
  | _ => exact isTrue trivial

/-- a case whose calls define its market -/
theorem Case.definedBy {s : Case} {m : Market} (h : s.final = some m)
    (ha : (match Market.init s.regions s.units s.di with | .ok m0 => decide (Accepted m0 s.hist) | .error _ => false) = true)
    (ho : OncePerPart s.hist) (hp : ∀ op ∈ s.hist, op.firm) (hb : ∀ op ∈ s.hist, op.suits m) (hl : m.properLinks (lossesOf s.hist)) :
    DefinedBy s.hist m := by
  refine ⟨?_, ho, hp, hb, hl⟩
  unfold Case.final at h
  cases hm : Market.init s.regions s.units s.di with
  | error e => rw [hm] at h; cases h
  | ok m0 =>
    rw [hm] at h ha
    simp only at h ha
    split at h
    · rename_i hb
      injection h with h
      exact ⟨s.regions, s.units, s.di, m0, hm, benignB_iff.1 hb, of_decide_eq_true ha, h.symm⟩
    · cases h

def wholePrices : List BidRow := [{ unit := "A", bands := [("1", 30)] }, { unit := "A", service := .raiseReg, bands := [("1", 2)] },
  { unit := "V", bands := [("1", 50)] }, { unit := "B", bands := [("1", 60)] }, { unit := "B", dtype := .load, bands := [("1", 20)] }]

/-- the units of the regional examples and a battery in VIC -/
def batteryUnits : List UnitInfo := regUnits ++ [{ unit := "B", region := "VIC" }, { unit := "B", region := "VIC", dtype := .load }]

/-- two regions with a lossy link, a battery, bids for energy and regulation, a capacity, ramp rates, a trapezium, joint ramping
of a unit that left mode 2 four minutes ago, a requirement and a generic constraint on the flow -/
def wholeCase : Case where
  regions := ["NSW", "VIC"]
  units := batteryUnits
  hist := [.volumeBids [{ unit := "A", bands := [("1", 200)] }, { unit := "A", service := .raiseReg, bands := [("1", 20)] },
      { unit := "V", bands := [("1", 100)] }, { unit := "B", bands := [("1", 20)] }, { unit := "B", dtype := .load, bands := [("1", 20)] }],
    .priceBids wholePrices,
    .capacity [{ unit := "V", val := 80 }, { unit := "B", dtype := .load, val := 15 }] none,
    .rampRates [{ unit := "A", init := 150, up := 60, down := 60 }, { unit := "B", init := -4, up := 60, down := 60 },
      { unit := "B", dtype := .load, init := -4, up := 60, down := 60 }] none none .noFastStart none,
    .energyReg [{ unit := "A", service := .raiseReg, maxAvail := 20, emin := 0, lbp := 20, hbp := 180, emax := 200 }] none,
    .jointRamping [{ unit := "A", init := 150, up := 60, down := 60 }]
      (some [{ unit := "A", curMode := 2, endMode := 3, minLoading := 160, since := some 4 }]) .second none,
    .interconnectors [{ inter := "I", link := "I", fromR := "NSW", toR := "VIC", min := -100, max := 100 }],
    .losses regLoss regPoints,
    .fcasReq [{ set := "R", service := .raiseReg, region := "NSW", volume := 10, ctype := .ge }] none,
    .linkInters [{ set := "G", inter := "I", coef := 1 }],
    .generic [{ set := "G", ctype := .le, rhs := 60 }] none,
    .demand regDemand none]
  sol := [305/2, 10, 0, 6, 17/2, 50, 5, 0, 1/2, 1/2]

theorem wholeCase_plain : ∀ op ∈ wholeCase.hist, op.firm := by
  intro op ho
  simp only [wholeCase, List.mem_cons, List.not_mem_nil, or_false] at ho
  rcases ho with rfl | rfl | rfl | rfl | rfl | rfl | rfl | rfl | rfl | rfl | rfl | rfl
  all_goals simp only [Op.firm]
  all_goals first
    | trivial
    | (refine ⟨?_, by decide +kernel⟩
       intro f hf
       simp only [regLoss, List.mem_singleton] at hf
       subst hf
       simp only [Increasing, pointsOf, regPoints]
       decide +kernel)
    | simp

/-- instance of C123: the program of this market has a feasible solution, so the dispatch of 152.5 MW and 8.5 MW, with a battery that
charges at 6 MW, a flow of 50 MW and a loss of 5 MW, does what all twelve calls ask, and a correct solver finds a schedule of least cost -/
example : ∃ m lp S, DefinedBy wholeCase.hist m ∧ Op.priceBids wholePrices ∈ wholeCase.hist ∧ BandsUnique wholePrices ∧ m.assemble = .ok lp ∧
    (∀ r ∈ m.mktRhs.concat, r.cid ∈ lp.rows.map LRow.cid) ∧ Solver.Correct S ∧
    (∃ z, SameSchedule m wholeCase.x z ∧ Feasible lp z) ∧
    m.dispatched wholeCase.x "A" .energy .generator = 305/2 ∧ m.netOutput wholeCase.x "B" = -6 ∧ m.flow wholeCase.x "I" "I" = 50 ∧ m.linkLoss wholeCase.x "I" "I" = 5 := by
  obtain ⟨m, lp, h1, h2, h3, h4⟩ := Case.witness (s := wholeCase) (P := fun m => decide (∀ op ∈ wholeCase.hist, op.suits m) && decide (m.properLinks (lossesOf wholeCase.hist)) &&
    decide (m.dispatched wholeCase.x "A" .energy .generator = 305/2 ∧ m.netOutput wholeCase.x "B" = -6 ∧ m.flow wholeCase.x "I" "I" = 50 ∧ m.linkLoss wholeCase.x "I" "I" = 5) &&
    (match m.assemble with | .ok lp => decide (∀ r ∈ m.mktRhs.concat, r.cid ∈ lp.rows.map LRow.cid) | .error _ => false)) (by decide +kernel)
  simp only [Bool.and_eq_true, decide_eq_true_eq, h2] at h4
  refine ⟨m, lp, perfectSolver, Case.definedBy h1 (by decide +kernel) (by decide +kernel) wholeCase_plain h4.1.1.1 h4.1.1.2, ?_, ?_, h2, h4.2,
    perfectSolver_correct, ⟨_, ⟨fun _ _ => rfl, fun _ _ => rfl, fun _ _ => rfl⟩, h3⟩, h4.1.2⟩
  · simp [wholeCase]
  · unfold BandsUnique; decide +kernel

end Verif
