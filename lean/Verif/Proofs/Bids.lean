import Verif.Proofs.Setters
import Verif.Spec.Cost

/-! Bid variables. -/

namespace Verif

theorem bid_bounds {m : Market} {lp : Lp} (hl : m.assemble = .ok lp) {x : Nat → ℚ} (hx : Feasible lp x) {b : BidVar}
    (hb : b ∈ m.bids.getD []) : 0 ≤ x b.vid ∧ x b.vid ≤ b.ub := by
  have hm : (LVar.mk b.vid 0 (some b.ub)) ∈ lp.vars := by
    rw [(assemble_parts hl).1]
    unfold Market.allVars
    simp only [List.mem_append, List.mem_map]
    exact Or.inl (Or.inl (Or.inl (Or.inl ⟨b, hb, rfl⟩)))
  obtain ⟨h1, h2⟩ := hx.vars _ hm
  exact ⟨h1, h2 _ rfl⟩

theorem dispatched_nonneg {m : Market} {lp : Lp} (hl : m.assemble = .ok lp) {x : Nat → ℚ} (hx : Feasible lp x)
    (u : String) (s : Service) (d : DType) : 0 ≤ m.dispatched x u s d :=
  sum_map_nonneg _ _ (fun b hb => (bid_bounds hl hx (List.mem_filter.1 hb).1).1)

/-- the variables after a successful call of `set_unit_volume_bids` -/
theorem volumeBids_vars {bs : List BidRow} {m : Market} (h : InForce (.volumeBids bs) m) :
    ∃ n, m.bids = some (bidVariables bs n) ∧ m.volumeBidsOk bs = true ∧ WF m := by
  obtain ⟨a, ha, hm, hok, hb, hs⟩ := h.unpack
  have hn := step_ok hok
  have hs := hs .bids (by simp [Op.parts])
  simp only [SamePart] at hs
  simp only [Market.step, hn, Market.setVolumeBids, Bool.false_eq_true, if_false] at hok hs
  by_cases c1 : (!a.volumeBidsOk bs) = true
  · rw [if_pos c1] at hok; simp at hok
  by_cases c2 : (!biInputsOk a.bidi (energyUnits bs)) = true
  · rw [if_neg c1, if_pos c2] at hok; simp at hok
  rw [if_neg c1, if_neg c2] at hok
  simp only [if_neg c1, if_neg c2] at hs
  refine ⟨a.nextVar, ?_, ?_, hm⟩
  · by_cases c3 : (bidVariables bs a.nextVar).isEmpty = true
    · rw [if_pos c3] at hok; simp at hok
    · simp only [if_neg c3] at hs; exact hs.1
  · simp only [Bool.not_eq_true', Bool.not_eq_false] at c1
    rw [← c1]; unfold Market.volumeBidsOk Market.knows; rw [hb.2.1]

theorem bidVariables_perm (bs : List BidRow) (n : Nat) :
    ((bidVariables bs n).map (fun v => (v.unit, v.service, v.dtype, v.band, v.ub))).Perm
      ((meltVolumes bs).map (fun v => (v.unit, v.service, v.dtype, v.band, v.ub))) := by
  unfold bidVariables
  rw [map_saveIndex, saveIndex_vals ((meltVolumes bs).insertionSort BidVar.before) n
    (fun v => (v.unit, v.service, v.dtype, v.band, v.ub))]
  exact (List.perm_insertionSort _ _).map _

/-- with unique keys a filter on the key finds at most one row -/
theorem filter_eq_find {α κ : Type} [DecidableEq κ] {l : List α} {key : α → κ} (h : (l.map key).Nodup) {p : α → Bool} {k : κ}
    (hp : ∀ a, p a = decide (key a = k)) : l.filter p = (l.find? p).toList := by
  have e : p = fun a => decide (key a = k) := funext hp
  rcases filter_key_le_one h k with h0 | ⟨a, ha, hk, h1⟩
  · rw [← e] at h0
    have : l.find? p = none := by rw [← List.head?_filter, h0]; rfl
    rw [h0, this]; rfl
  · rw [← e] at h1
    have : l.find? p = some a := by rw [← List.head?_filter, h1]; rfl
    rw [h1, this]; rfl

theorem priceBids_cost {ps : List BidRow} {m : Market} (h : InForceKeeping [.bids] (.priceBids ps) m) :
    m.bidCost = some (scaleByLossFactors (bidCosts (m.bids.getD []) ps) m.units) ∧
    (ps.map (fun b => (b.unit, b.service, b.dtype))).Nodup ∧ WF m := by
  obtain ⟨a, ha, hm, hok, hb, hs, hk⟩ := h.unpack
  have hn := step_ok hok
  have hs := hs .prices (by simp [Op.parts])
  have hk := hk .bids (by simp) (by simp [Op.parts])
  simp only [SamePart] at hs hk
  simp only [Market.step, hn, Market.setPriceBids, Bool.false_eq_true, if_false] at hok hs
  cases hv : a.bids with
  | none => simp [hv] at hok
  | some vars =>
    simp only [hv] at hok hs
    by_cases c1 : (!a.priceBidsOk ps) = true
    · rw [if_pos c1] at hok; simp at hok
    by_cases c2 : (!biInputsOk a.bidi (energyUnits ps)) = true
    · rw [if_neg c1, if_pos c2] at hok; simp at hok
    simp only [if_neg c1, if_neg c2] at hs
    refine ⟨?_, ?_, hm⟩
    · rw [hs, hk.1, hv, hb.2.1]; rfl
    · simp only [Bool.not_eq_true', Bool.not_eq_false, Market.priceBidsOk, Bool.and_eq_true, decide_eq_true_eq] at c1
      exact c1.2

theorem sum_bidCosts {vars : List BidVar} {ps : List BidRow} {units : List UnitInfo} {x : Nat → ℚ}
    (hp : (ps.map (fun b => (b.unit, b.service, b.dtype))).Nodup) (hu : (units.map (fun u => (u.unit, u.dtype))).Nodup)
    (hb : BandsUnique ps) :
    ((scaleByLossFactors (bidCosts vars ps) units).map (fun c => c.cost * x c.vid)).sum =
      (vars.map (fun v => costOf ps units v.unit v.service v.dtype v.band * x v.vid)).sum := by
  have hsplit : ∀ vars, scaleByLossFactors (bidCosts vars ps) units =
      vars.flatMap (fun v => scaleByLossFactors (bidCosts [v] ps) units) := by
    intro vars
    induction vars with
    | nil => rfl
    | cons v vs ih =>
      rw [List.flatMap_cons, ← ih]
      unfold scaleByLossFactors bidCosts
      rw [List.flatMap_cons, List.flatMap_append]
      simp
  rw [hsplit, sum_map_flatMap]
  apply sum_map_congr
  intro v _
  have e1 := filter_eq_find hp (p := fun p => decide (p.unit = v.unit ∧ p.service = v.service ∧ p.dtype = v.dtype))
    (k := (v.unit, v.service, v.dtype)) (by intro a; simp only [Prod.mk.injEq])
  have e2 := filter_eq_find hu (p := fun u => decide (u.unit = v.unit ∧ u.dtype = v.dtype))
    (k := (v.unit, v.dtype)) (by intro a; simp only [Prod.mk.injEq])
  unfold costOf priceOf lossFactor
  simp only [bidCosts, List.flatMap_cons, List.flatMap_nil, List.append_nil, e1]
  cases hf : ps.find? (fun p => decide (p.unit = v.unit ∧ p.service = v.service ∧ p.dtype = v.dtype)) with
  | none => simp [scaleByLossFactors]
  | some p =>
    have hm := List.mem_of_find?_eq_some hf
    have e3 := filter_eq_find (hb p hm) (p := fun b => decide (b.1 = v.band)) (k := v.band) (by intro a; rfl)
    simp only [Option.toList_some, List.flatMap_cons, List.flatMap_nil, List.append_nil, e3, Option.bind_some]
    cases hg : p.bands.find? (fun b => decide (b.1 = v.band)) with
    | none => simp [scaleByLossFactors]
    | some b =>
      simp only [Option.toList_some, List.map_cons, List.map_nil, scaleByLossFactors, List.flatMap_cons, List.flatMap_nil,
        List.append_nil, e2, Option.map_some]
      cases hh : units.find? (fun u => decide (u.unit = v.unit ∧ u.dtype = v.dtype)) with
      | none => simp
      | some i =>
        simp only [Option.toList_some, List.map_cons, List.map_nil, List.sum_cons, List.sum_nil, add_zero, Option.map_some]
        by_cases hs : v.service = .energy <;> by_cases hd : v.dtype = .load <;> simp [hs, hd] <;> ring

theorem offered_le {bs : List BidRow} {n : Nat} (hpos : ∀ r ∈ bs, ∀ b ∈ r.bands, 0 ≤ b.2) (u : String) (s : Service) (d : DType) :
    (((bidVariables bs n).filter (fun b => decide (b.unit = u ∧ b.service = s ∧ b.dtype = d))).map (fun b => b.ub)).sum ≤
      offered bs u s d := by
  have hperm := bidVariables_perm bs n
  have e1 : (((bidVariables bs n).filter (fun b => decide (b.unit = u ∧ b.service = s ∧ b.dtype = d))).map (fun b => b.ub)).sum =
      ((((bidVariables bs n).map (fun v => (v.unit, v.service, v.dtype, v.band, v.ub))).filter
        (fun t => decide (t.1 = u ∧ t.2.1 = s ∧ t.2.2.1 = d))).map (fun t => t.2.2.2.2)).sum := by
    rw [List.filter_map, List.map_map]; rfl
  rw [e1, sum_perm (hperm.filter _), List.filter_map, List.map_map]
  unfold meltVolumes
  rw [List.filter_filter, sum_filter_eq_ite, sum_map_flatMap]
  unfold offered
  rw [sum_filter_eq_ite]
  apply sum_map_le
  intro r hr
  rw [List.map_map]
  by_cases hc : r.unit = u ∧ r.service = s ∧ r.dtype = d
  · simp only [hc, and_self, decide_true, if_true]
    apply sum_map_le
    intro b hb
    simp only [Function.comp]
    have := hpos r hr b hb
    split
    · exact le_refl _
    · exact this
  · rw [sum_map_zero]
    · simp [hc]
    · intro b hb
      simp [Function.comp, hc]

end Verif
