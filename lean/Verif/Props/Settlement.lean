import Verif.Props.Residue

/-!
# C105: settlement at the reported energy prices balances
-/

namespace Verif

/-- the value of the net supply of the regions is what the units earn -/
theorem revenue_all (m : Market) (energy : List (String × ℚ)) (x : Nat → ℚ) :
    m.energyRevenue energy x (m.units.map UnitInfo.unit) = (energy.map (fun e => e.2 * m.supply x e.1 .energy)).sum := by
  have e1 : (energy.map (fun e => e.2 * m.supply x e.1 .energy)).sum =
      (energy.map (fun e => (m.units.map (fun i => if e.1 = i.region then
        e.2 * (i.sign .energy * m.dispatched x i.unit .energy i.dtype) else 0)).sum)).sum := by
    apply sum_map_congr
    intro e _
    unfold Market.supply
    rw [← sum_map_mul_left, sum_filter_eq_ite]
    apply sum_map_congr
    intro i _
    by_cases hi : i.region = e.1
    · simp only [hi, decide_true, if_true, UnitInfo.sign]
    · simp only [hi, Ne.symm hi, decide_false, if_false, Bool.false_eq_true]
  rw [e1, sum_comm]
  unfold Market.energyRevenue
  rw [List.filter_eq_self.2]
  · apply sum_map_congr
    intro i _
    rw [sum_filter_eq_ite]
    apply sum_map_congr
    intro e _
    by_cases hi : e.1 = i.region <;> simp [hi]
  · intro i hi
    simp only [decide_eq_true_eq]
    exact List.mem_map_of_mem hi

theorem sum_comm' (energy : List (String × ℚ)) (ds : List Demand) :
    (ds.map (fun d => ((energy.filter (fun e => decide (e.1 = d.region))).map (fun e => e.2 * d.demand)).sum)).sum =
      (energy.map (fun e => ((ds.filter (fun d => decide (d.region = e.1))).map (fun d => e.2 * d.demand)).sum)).sum := by
  simp only [sum_filter_eq_ite]
  rw [sum_comm]
  apply sum_map_congr
  intro e _
  apply sum_map_congr
  intro d _
  simp [eq_comm]

/-- **C105**.  After a successful dispatch, in every feasible solution (in particular in the dispatch, and in the solution of the
linear model the prices come from): what the demand of the regions costs at the reported energy prices is what the units and the
interconnectors earn at these prices. -/
theorem C105_settlement {ds : List Demand} {fs : List LossFn} {m : Market} (h : InForce (.demand ds none) m)
    (hf : LossFunctions fs m) (hp : m.properLinks fs) {S : Solver} {ocd : Option ReRun} {o : Outcome} (ho : m.dispatch S ocd = .ok o)
    {lp : Lp} (hl : m.assemble = .ok lp) {energy : List (String × ℚ)} (he : m.energyPrices o.price = .ok energy) {x : Nat → ℚ}
    (hx : ∀ r ∈ lp.rows, r.holds x) :
    energyPayment energy ds = m.energyRevenue energy x (m.units.map UnitInfo.unit) + m.residue energy fs x := by
  obtain ⟨n, hi⟩ := demand_imposed h
  obtain ⟨lp', hl', _, hpr, _⟩ := dispatch_parts ho
  rw [hl] at hl'; injection hl' with hl'; subst hl'
  have hnd := h.demandSet.tables.1
  have he' := he
  unfold Market.energyPrices at he'
  rw [hi.rhs] at he'
  injection he' with he'
  rw [saveIndex_filterMap] at he'
  have hkeys : energy.map Prod.fst = ds.map Demand.region := by
    rw [← he', map_saveIndex, saveIndex_vals]
  have hbal : ∀ d ∈ ds, m.supply x d.region .energy + m.netImport x d.region - m.chargedLoss x fs d.region = d.demand := by
    intro d hd
    obtain ⟨i, hd'⟩ := List.mem_iff_getElem?.1 hd
    obtain ⟨t, ht, e⟩ := List.mem_map.1 (priced_row hpr hi.rhs (energy_mem hd'))
    have hu := unique_row hi.wf.con (lpRow hl ht).2.1 (by rw [e]; exact mktRow_mem hi.rhs (energy_mem hd'))
    have h1 := ((lpRow hl ht).2.2 x).1 (hx t ht)
    rw [hu.1, hu.2, e] at h1
    simp only [CType.holds, Rhs.eval] at h1
    rw [← (demand_row hi hf hp x hd').2]
    exact h1
  rw [revenue_all]
  unfold Market.residue energyPayment
  rw [← sum_map_add, sum_comm']
  apply sum_map_congr
  intro e hem
  have hm : e.1 ∈ ds.map Demand.region := by rw [← hkeys]; exact List.mem_map_of_mem hem
  obtain ⟨d, hd, hde⟩ := List.mem_map.1 hm
  rw [← hde, filter_key_unique (key := Demand.region) hnd hd]
  simp only [List.map_cons, List.map_nil, List.sum_cons, List.sum_nil, add_zero]
  rw [← hbal d hd]
  ring

/-- instance of C105: demand pays 20 $/MWh in NSW and 860/37 $/MWh in VIC; unit A earns 1762.5, the interconnector 108.1 -/
example : ∃ m lp o S, InForce (.demand residueDemand none) m ∧ LossFunctions residueLoss m ∧ m.properLinks residueLoss ∧
    m.dispatch S none = .ok o ∧ m.assemble = .ok lp ∧ m.energyPrices o.price = .ok [("NSW", 20), ("VIC", 860 / 37)] ∧
    (∀ r ∈ lp.rows, r.holds residueCase.x) ∧ energyPayment [("NSW", 20), ("VIC", 860 / 37)] residueDemand = 138425 / 74 ∧
    m.energyRevenue [("NSW", 20), ("VIC", 860 / 37)] residueCase.x ["A"] = 3525 / 2 ∧
    m.residue [("NSW", 20), ("VIC", 860 / 37)] residueLoss residueCase.x = 4000 / 37 := by
  have h : residueCase.shadow residueDuals (fun m => (match m.assemble with
      | .error _ => false
      | .ok lp => decide (∀ r ∈ lp.rows, r.holds residueCase.x)) &&
      decide (m.energyPrices (fun c => residueDuals.getD c 0) = .ok [("NSW", 20), ("VIC", 860 / 37)] ∧ m.dirs.getD [] = [residueLink] ∧
      energyPayment [("NSW", 20), ("VIC", 860 / 37)] residueDemand = 138425 / 74 ∧
      m.energyRevenue [("NSW", 20), ("VIC", 860 / 37)] residueCase.x ["A"] = 3525 / 2 ∧
      m.residue [("NSW", 20), ("VIC", 860 / 37)] residueLoss residueCase.x = 4000 / 37)) = true := by decide +kernel
  obtain ⟨m, lp, o, h0, h1, h2, h3, h4, h5, h6⟩ := Case.shadow_spec h
  rw [h1] at h6
  simp only [Bool.and_eq_true] at h6
  obtain ⟨k1, k2⟩ := h6
  obtain ⟨k2, k3, k4, k5, k6⟩ := of_decide_eq_true k2
  refine ⟨m, lp, o, _, InForceKeeping.inForce (Case.inForce (s := residueCase) (op := .demand residueDemand none) (i := 4) (keep := []) h0 rfl (by decide +kernel)),
    Or.inr ⟨residuePoints, Case.inForce (i := 3) (keep := [.inters]) h0 rfl (by decide +kernel)⟩, ?_, h2, h1, h4 ▸ k2,
    of_decide_eq_true k1, k4, k5, k6⟩
  intro d hd f hf _ _
  rw [k3, List.mem_singleton] at hd
  subst hd
  decide

end Verif
