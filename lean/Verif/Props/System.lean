import Verif.Spec.System
import Verif.Props.Regional

/-!
# C131: energy balance of the whole system
-/

namespace Verif

theorem sum_one_region {rs : List String} {s : String} (c : ℚ) (hs : s ∈ rs) : ((rs.dedup).map (fun r => if s = r then c else 0)).sum = c := by
  have h2 := filter_key_unique (key := fun r : String => r) (l := rs.dedup) (a := s) (by simpa using List.nodup_dedup _) (List.mem_dedup.2 hs)
  have h3 := sum_filter_eq_ite (rs.dedup) (fun r => decide (r = s)) (fun _ => c)
  rw [h2] at h3
  simp only [List.map_cons, List.map_nil, List.sum_cons, List.sum_nil, add_zero, decide_eq_true_eq] at h3
  refine Eq.trans ?_ h3.symm
  apply sum_map_congr
  intro r _
  by_cases e : r = s
  · subst e; rfl
  · rw [if_neg e, if_neg (fun h => e h.symm)]

/-- **C131** In every feasible solution of a market with (firm) demand for every region, the units together produce the demand of all
regions and what is lost on the links. -/
theorem C131_system_balance {ds : List Demand} {fs : List LossFn} {m : Market} (h : InForce (.demand ds none) m)
    (hf : LossFunctions fs m) (hp : m.properLinks fs) {lp : Lp} (hl : m.assemble = .ok lp) {x : Nat → ℚ} (hx : Feasible lp x)
    (hall : (ds.map Demand.region).Perm m.regions.dedup) (hs : ∀ d ∈ ds, m.hasSupply d.region .energy ∨ m.hasLink d.region) :
    m.totalSupply x = (ds.map Demand.demand).sum + m.totalLoss x fs := by
  have hr := h.reached
  have e1 : (ds.map Demand.demand).sum = ((m.regions.dedup).map (fun r => m.supply x r .energy)).sum +
      ((m.regions.dedup).map (m.netImport x)).sum - ((m.regions.dedup).map (m.chargedLoss x fs)).sum := by
    rw [← sum_map_add, ← sum_map_sub, ← sum_perm hall, List.map_map]
    apply sum_map_congr
    intro d hd
    exact (C13_regional_balance h hf hp hl hx hd (hs d hd)).symm
  have e2 := C21_total hr hp x
  obtain ⟨r, u, di, m0, ops, h1, h2, hm⟩ := hr
  have hw := wf_run h1 h2
  rw [← hm] at hw
  have hreg : ∀ d ∈ m.dirs.getD [], d.toR ∈ m.regions ∧ d.fromR ∈ m.regions := by
    rcases hw.inter with ⟨a, _, _⟩ | ⟨ds, n, e1, e2, e3, hok⟩
    · rw [a]; simp
    · rw [e1, Option.getD_some]
      intro d hd
      simp only [Market.interDefsOk, Bool.and_eq_true, List.all_eq_true, decide_eq_true_eq] at hok
      have := hok.1 d hd
      exact ⟨this.1.1.1.1, this.1.1.1.2⟩
  have e3 : ((m.regions.dedup).map (fun r => m.supply x r .energy)).sum = m.totalSupply x := by
    unfold Market.supply Market.totalSupply
    simp only [sum_filter_eq_ite]
    rw [sum_comm]
    apply sum_map_congr
    intro i hi
    simp only [decide_eq_true_eq, and_true]
    exact sum_one_region _ (hw.lfs i hi).1
  have e4 : ((m.regions.dedup).map (m.netImport x)).sum =
      ((m.dirs.getD []).map (fun d => (d.toLf - d.fromLf) * m.flow x d.inter d.link)).sum := by
    unfold Market.netImport
    rw [sum_comm]
    apply sum_map_congr
    intro d hd
    rw [sum_map_sub, sum_one_region _ (hreg d hd).1, sum_one_region _ (hreg d hd).2]
    ring
  have e5 : m.totalLoss x fs = ((m.dirs.getD []).map (fun d =>
      ((fs.filter (fun f => decide (f.inter = d.inter ∧ f.link = d.link))).map (fun _ => m.linkLoss x d.inter d.link)).sum)).sum -
      ((m.dirs.getD []).map (fun d => (d.toLf - d.fromLf) * m.flow x d.inter d.link)).sum := by
    unfold Market.totalLoss
    rw [← sum_map_sub]
    apply sum_map_congr
    intro d _
    ring
  rw [e3, e2, e4] at e1
  rw [e5]
  linarith

/-- instance of C131: the units produce 155 MW, the demand is 150 MW and the link loses 5 MW -/
example : ∃ m lp, InForceKeeping [.inters] (.losses regLoss regPoints) m ∧ InForceKeeping [] (.demand regDemand none) m ∧
    m.assemble = .ok lp ∧ Feasible lp regCase.x ∧
    decide (m.properLinks regLoss ∧ (∀ d ∈ regDemand, m.hasSupply d.region .energy ∨ m.hasLink d.region) ∧
      (regDemand.map Demand.region).Perm m.regions.dedup ∧ m.totalSupply regCase.x = 155 ∧ m.totalLoss regCase.x regLoss = 5) = true := by
  exact Case.witness2 (s := regCase) (i := 2) (j := 3) rfl rfl (by decide +kernel)

end Verif
