import Verif.Proofs.Trap
import Verif.Spec.Whole

/-! The trapezium constraints of any unit, bidirectional or not. -/

namespace Verif

/-- a unit that is not listed or does not bid has no dispatch -/
theorem mapVal_side {m : Market} (hw : WF m) (x : Nat → ℚ) (u : String) (s : Service) (d : DType) :
    m.mapVal x u s d = m.side u s d * m.output x u s d := by
  unfold Market.output
  by_cases hl : m.lists u d
  · have : m.units.any (fun i => decide (i.unit = u ∧ i.dtype = d)) = true := by
      obtain ⟨i, hi, e⟩ := hl
      rw [List.any_eq_true]
      exact ⟨i, hi, by simpa using e⟩
    rw [if_pos this, mapVal_eq hw hl]
  · have : ¬ m.units.any (fun i => decide (i.unit = u ∧ i.dtype = d)) = true := by
      intro h
      rw [List.any_eq_true] at h
      obtain ⟨i, hi, e⟩ := h
      exact hl ⟨i, hi, by simpa using e⟩
    rw [if_neg this, mul_zero]
    unfold Market.mapVal
    rw [List.filter_eq_nil_iff.2]
    · rfl
    · intro v hv hc
      simp only [decide_eq_true_eq] at hc
      exact hl ((mem_bidUnit_iff hw).1 ⟨v, hv, hc⟩).1

theorem output_listed {m : Market} {u : String} {d : DType} (h : m.lists u d) (x : Nat → ℚ) (s : Service) :
    m.output x u s d = m.dispatched x u s d := by
  unfold Market.output
  rw [if_pos]
  obtain ⟨i, hi, e⟩ := h
  rw [List.any_eq_true]
  exact ⟨i, hi, by simpa using e⟩

theorem dispatched_not_bid {m : Market} {u : String} {s : Service} {d : DType} (h : ¬ m.bidsFor u s d) (x : Nat → ℚ) :
    m.dispatched x u s d = 0 := by
  unfold Market.dispatched
  rw [List.filter_eq_nil_iff.2]
  · rfl
  · intro b hb hc
    exact h ⟨b, hb, by simpa using hc⟩

theorem not_energy_of_contingency {s : Service} (h : s.isContingency = true) : s ≠ .energy := by rintro rfl; cases h

theorem not_energy_of_regulation {s : Service} (h : s.isRegulation = true) : s ≠ .energy := by rintro rfl; cases h

section
variable {m : Market} (hw : WF m) {x : Nat → ℚ} {t : Trap} (i : Nat)
include hw

theorem jcUpper_value (hs : t.service ≠ .energy) (hd : t.unit ∈ m.bidi → t.dtype = .generator) :
    m.entryVal x (jcUpperMap m.bidi i t) = m.position x t.unit t.dtype + m.regulation x t.unit t.dtype.upReg t.dtype +
      t.upperCoef * m.output x t.unit t.service t.dtype := by
  by_cases hb : t.unit ∈ m.bidi
  · have hg := bidi_lists hw hb .generator
    have hl := bidi_lists hw hb .load
    simp only [Market.entryVal, jcUpperMap, hd hb, hb, if_true, List.cons_append, List.nil_append, List.map_cons, List.map_nil,
      List.sum_cons, List.sum_nil, mapVal_eq hw hg, mapVal_eq hw hl, Market.side, Market.position, Market.regulation,
      output_listed hg, DType.upReg, Market.netOutput]
    simp only [and_true, and_self, if_true, hs, and_false, if_false, reduceCtorEq]
    ring
  · simp only [Market.entryVal, jcUpperMap, hb, if_false, List.append_nil, upReg_eq, List.map_cons, List.map_nil,
      List.sum_cons, List.sum_nil, mapVal_side hw, side_of_not_bidi hb, Market.position, Market.regulation]
    ring

theorem jcLower_value (hs : t.service ≠ .energy)
    (hd : t.unit ∈ m.bidi → t.dtype = .generator ∧ ¬ m.bidsFor t.unit .lowerReg .load) :
    m.entryVal x (jcLowerMap m.bidi i t) = m.position x t.unit t.dtype - m.regulation x t.unit t.dtype.downReg t.dtype -
      t.lowerCoef * m.output x t.unit t.service t.dtype := by
  by_cases hb : t.unit ∈ m.bidi
  · have hg := bidi_lists hw hb .generator
    have hl := bidi_lists hw hb .load
    simp only [Market.entryVal, jcLowerMap, (hd hb).1, hb, if_true, List.cons_append, List.nil_append, List.map_cons, List.map_nil,
      List.sum_cons, List.sum_nil, mapVal_eq hw hg, mapVal_eq hw hl, Market.side, Market.position, Market.regulation,
      output_listed hg, DType.downReg, Market.netOutput, dispatched_not_bid (hd hb).2]
    simp only [and_true, and_self, if_true, hs, and_false, if_false, reduceCtorEq]
    ring
  · simp only [Market.entryVal, jcLowerMap, hb, if_false, List.append_nil, downReg_eq, List.map_cons, List.map_nil,
      List.sum_cons, List.sum_nil, mapVal_side hw, side_of_not_bidi hb, Market.position, Market.regulation]
    ring

theorem jcUpper_some (hd : t.unit ∈ m.bidi → t.dtype = .generator) :
    (∃ c ∈ jcUpperMap m.bidi i t, m.lists c.unit c.dtype ∧ m.bidsFor c.unit c.service c.dtype) ↔
      m.lists t.unit t.dtype ∧ m.inTrap t t.dtype.upReg := by
  by_cases hb : t.unit ∈ m.bidi
  · have hg := bidi_lists hw hb .generator
    have hl := bidi_lists hw hb .load
    have e := hd hb
    simp only [jcUpperMap, hb, e, if_true, List.cons_append, List.nil_append, List.mem_cons, List.not_mem_nil, or_false, exists_eq_or_imp,
      exists_eq_left, Market.inTrap, DType.upReg, hg, hl, true_and, or_true]
    constructor
    · rintro (h | h | h | h | h)
      exacts [Or.inr ⟨_, Or.inl h⟩, Or.inl h, Or.inr ⟨_, Or.inr h⟩, Or.inr ⟨_, Or.inl h⟩, Or.inr ⟨_, Or.inr h⟩]
    · rintro (h | ⟨d, h⟩)
      · exact Or.inr (Or.inl h)
      · cases d <;> rcases h with h | h <;> simp [h]
  · simp only [jcUpperMap, hb, if_false, List.append_nil, List.mem_cons, List.not_mem_nil, or_false, exists_eq_or_imp,
      exists_eq_left, Market.inTrap, upReg_eq]
    tauto

theorem jcLower_some (hd : t.unit ∈ m.bidi → t.dtype = .generator) :
    (∃ c ∈ jcLowerMap m.bidi i t, m.lists c.unit c.dtype ∧ m.bidsFor c.unit c.service c.dtype) ↔
      m.lists t.unit t.dtype ∧ m.inTrap t t.dtype.downReg := by
  by_cases hb : t.unit ∈ m.bidi
  · have hg := bidi_lists hw hb .generator
    have hl := bidi_lists hw hb .load
    have e := hd hb
    simp only [jcLowerMap, hb, e, if_true, List.cons_append, List.nil_append, List.mem_cons, List.not_mem_nil, or_false, exists_eq_or_imp,
      exists_eq_left, Market.inTrap, DType.downReg, hg, hl, true_and, or_true]
    constructor
    · rintro (h | h | h | h | h)
      exacts [Or.inr ⟨_, Or.inl h⟩, Or.inl h, Or.inr ⟨_, Or.inr h⟩, Or.inr ⟨_, Or.inl h⟩, Or.inr ⟨_, Or.inr h⟩]
    · rintro (h | ⟨d, h⟩)
      · exact Or.inr (Or.inl h)
      · cases d <;> rcases h with h | h <;> simp [h]
  · simp only [jcLowerMap, hb, if_false, List.append_nil, List.mem_cons, List.not_mem_nil, or_false, exists_eq_or_imp,
      exists_eq_left, Market.inTrap, downReg_eq]
    tauto

theorem er_value (hs : t.service ≠ .energy) (c : ℚ) :
    m.entryVal x [(⟨i, t.unit, .energy, t.dtype, 1⟩ : ConUnit), ⟨i, t.unit, t.service, t.dtype, c⟩] =
      m.sideEnergy x t.unit t.dtype + c * m.output x t.unit t.service t.dtype := by
  simp only [Market.entryVal, List.map_cons, List.map_nil, List.sum_cons, List.sum_nil, mapVal_side hw, Market.side, Market.sideEnergy]
  simp only [hs, false_and, and_false, if_false, true_and]
  split <;> ring

end

theorem er_some {m : Market} {t : Trap} (i : Nat) (c : ℚ) :
    (∃ e ∈ [(⟨i, t.unit, .energy, t.dtype, 1⟩ : ConUnit), ⟨i, t.unit, t.service, t.dtype, c⟩],
      m.lists e.unit e.dtype ∧ m.bidsFor e.unit e.service e.dtype) ↔
      m.lists t.unit t.dtype ∧ (m.bidsFor t.unit .energy t.dtype ∨ m.bidsFor t.unit t.service t.dtype) := by
  simp only [List.mem_cons, List.not_mem_nil, or_false, exists_eq_or_imp, exists_eq_left]
  tauto

/-- the joint capacity constraints say what the call asks -/
theorem jointCapacity_meets {ts : List Trap} {m : Market} (h : InForce (.jointCapacity ts none) m)
    (hd : (Op.jointCapacity ts none).suits m) (hp : ∀ t ∈ ts, 0 < t.maxAvail) {lp : Lp} (hl : m.assemble = .ok lp) {x : Nat → ℚ}
    (fs : List LossFn) : m.obeys lp x .jointCapacity ↔ (Op.jointCapacity ts none).meets m fs x := by
  obtain ⟨n, hi, hs⟩ := jointCapacity_imposed h
  rw [two_blocks_iff (fun i t c => (jcMap_cid).1) (fun i t c => (jcMap_cid).2) hi hl
    (U := fun t => m.lists t.unit t.dtype → m.inTrap t t.dtype.upReg →
      m.position x t.unit t.dtype + m.regulation x t.unit t.dtype.upReg t.dtype ≤ t.rightEdge (m.output x t.unit t.service t.dtype))
    (L := fun t => m.lists t.unit t.dtype → m.inTrap t t.dtype.downReg → t.leftEdge (m.output x t.unit t.service t.dtype) ≤
        m.position x t.unit t.dtype - m.regulation x t.unit t.dtype.downReg t.dtype)]
  · simp only [Op.meets]
    exact forall₂_congr (fun t ht => ⟨fun hh hl => ⟨hh.1 hl, hh.2 hl⟩, fun hh => ⟨fun hl => (hh hl).1, fun hl => (hh hl).2⟩⟩)
  · intro i t ht
    have hse := not_energy_of_contingency (hs t ht).2
    rw [jcUpper_some hi.wf i (fun hb => (hd t ht hb).1), jcUpper_value hi.wf i hse (fun hb => (hd t ht hb).1), and_imp]
    simp only [right_edge_iff (hp t ht)]
  · intro i t ht
    have hse := not_energy_of_contingency (hs t ht).2
    rw [jcLower_some hi.wf i (fun hb => (hd t ht hb).1), jcLower_value hi.wf i hse (hd t ht), and_imp]
    simp only [left_edge_iff (hp t ht)]

/-- the energy and regulation capacity constraints say what the call asks -/
theorem energyReg_meets {ts : List Trap} {m : Market} (h : InForce (.energyReg ts none) m) (hp : ∀ t ∈ ts, 0 < t.maxAvail) {lp : Lp}
    (hl : m.assemble = .ok lp) {x : Nat → ℚ} (fs : List LossFn) :
    m.obeys lp x .energyReg ↔ (Op.energyReg ts none).meets m fs x := by
  obtain ⟨n, hi, hs⟩ := energyReg_imposed h
  rw [two_blocks_iff (fun i t c hc => by
      simp only [List.mem_cons, List.not_mem_nil, or_false] at hc; rcases hc with rfl | rfl <;> rfl)
    (fun i t c hc => by
      simp only [List.mem_cons, List.not_mem_nil, or_false] at hc; rcases hc with rfl | rfl <;> rfl) hi hl
    (U := fun t => m.lists t.unit t.dtype → (m.bidsFor t.unit .energy t.dtype ∨ m.bidsFor t.unit t.service t.dtype) →
      m.sideEnergy x t.unit t.dtype ≤ t.rightEdge (m.output x t.unit t.service t.dtype))
    (L := fun t => m.lists t.unit t.dtype → (m.bidsFor t.unit .energy t.dtype ∨ m.bidsFor t.unit t.service t.dtype) →
      t.leftEdge (m.output x t.unit t.service t.dtype) ≤ m.sideEnergy x t.unit t.dtype)]
  · simp only [Op.meets]
    exact forall₂_congr (fun t ht => ⟨fun hh hl hb => ⟨hh.1 hl hb, hh.2 hl hb⟩,
      fun hh => ⟨fun hl hb => (hh hl hb).1, fun hl hb => (hh hl hb).2⟩⟩)
  · intro i t ht
    have hse := not_energy_of_regulation (hs t ht).2
    rw [er_some, er_value hi.wf i hse, and_imp]
    simp only [right_edge_iff (hp t ht)]
  · intro i t ht
    have hse := not_energy_of_regulation (hs t ht).2
    rw [er_some, er_value hi.wf i hse, and_imp]
    have : ∀ q : ℚ, m.sideEnergy x t.unit t.dtype + -1 * t.lowerCoef * q = m.sideEnergy x t.unit t.dtype - t.lowerCoef * q := by
      intro q; ring
    simp only [this, left_edge_iff (hp t ht)]

end Verif
