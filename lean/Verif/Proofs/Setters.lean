import Verif.Proofs.Exact
import Mathlib.Tactic.Linarith
import Mathlib.Tactic.Ring

/-! What the setters for unit level limits leave behind. -/

namespace Verif

theorem andThen_ok {r : Res} {f : Market → Res} (h : (r.andThen f).2 = none) :
    r.2 = none ∧ (r.andThen f) = f r.1 := by
  unfold Res.andThen at h ⊢
  cases hr : r.2 with
  | none => simp
  | some e => rw [hr] at h; cases h

theorem step_ok {m : Market} {op : Op} (h : (m.step op).2 = none) : m.nanCon = false := by
  unfold Market.step at h
  split at h
  · cases h
  · rename_i hc; simpa using hc

theorem capacity_imposed {ls : List Lim} {m : Market} (h : InForce (.capacity ls none) m) :
    ∃ n, Imposed m .unitBidCapacity (capacityConstraints ls n m.bidi) ∧ ∀ l ∈ ls, l.service = .energy := by
  obtain ⟨a, ha, hm, hok, hb, hs⟩ := h.unpack
  have hn := step_ok hok
  have hs := hs (.set .unitBidCapacity) (by simp [Op.parts])
  have hbi : m.bidi = a.bidi := by unfold Market.bidi; rw [hb.2.1]
  simp only [Market.step, hn, Market.setCapacity] at hok hs
  by_cases h1 : a.bids.isNone
  · rw [if_pos h1] at hok; simp at hok
  rw [if_neg h1] at hok hs
  by_cases h2 : (!a.limsOk ls || !ls.all (fun l => decide (l.service = .energy))) = true
  · rw [if_pos h2] at hok; simp at hok
  rw [if_neg h2] at hok hs
  simp only [Bool.false_eq_true, if_false] at hok hs
  obtain ⟨_, he⟩ := andThen_ok hok
  rw [he] at hs
  refine ⟨a.nextCon, ?_, ?_⟩
  · rw [hbi]; exact imposed_of ha.con hm rfl (freshUnit_capacity ..) hs
  · simp only [Bool.not_eq_true, Bool.or_eq_false_iff, Bool.not_eq_false', List.all_eq_true, decide_eq_true_eq] at h2
    exact h2.2

theorem uigf_imposed {ls : List Lim} {m : Market} (h : InForce (.uigf ls none) m) :
    ∃ n, Imposed m .uigf (createConstraints ls n .le) ∧ ∀ l ∈ ls, l.service = .energy ∧ l.dtype = .generator := by
  obtain ⟨a, ha, hwm, hok, hb, hs⟩ := h.unpack
  have hn := step_ok hok
  have hs := hs (.set .uigf) (by simp [Op.parts])
  simp only [Market.step, hn, Market.setUigf] at hok hs
  by_cases h1 : a.bids.isNone
  · rw [if_pos h1] at hok; simp at hok
  rw [if_neg h1] at hok hs
  by_cases h2 : (!a.limsOk ls || !ls.all (fun l => decide (l.service = .energy ∧ l.dtype = .generator))) = true
  · rw [if_pos h2] at hok; simp at hok
  rw [if_neg h2] at hok hs
  simp only [Bool.false_eq_true, if_false] at hok hs
  obtain ⟨_, he⟩ := andThen_ok hok
  rw [he] at hs
  simp only [Bool.not_eq_true, Bool.or_eq_false_iff, Bool.not_eq_false', List.all_eq_true, decide_eq_true_eq] at h2
  exact ⟨a.nextCon, imposed_of ha.con hwm rfl (freshUnit_createConstraints _ _ _ (by decide)) hs, h2.2⟩

theorem fcasMaxAvail_imposed {ls : List Lim} {m : Market} (h : InForce (.fcasMaxAvail ls none) m) :
    ∃ n, Imposed m .fcasMaxAvail (createConstraints ls n .le) ∧ ∀ l ∈ ls, l.service ≠ .energy ∧ 0 ≤ l.val := by
  obtain ⟨a, ha, hwm, hok, hb, hs⟩ := h.unpack
  have hn := step_ok hok
  have hs := hs (.set .fcasMaxAvail) (by simp [Op.parts])
  simp only [Market.step, hn, Market.setFcasMaxAvail] at hok hs
  by_cases h2 : (!a.limsOk ls || !ls.all (fun l => decide (l.service ≠ .energy) && decide (0 ≤ l.val))) = true
  · rw [if_pos h2] at hok; simp at hok
  rw [if_neg h2] at hok hs
  simp only [Bool.false_eq_true, if_false] at hok hs
  obtain ⟨_, he⟩ := andThen_ok hok
  rw [he] at hs
  simp only [Bool.not_eq_true, Bool.or_eq_false_iff, Bool.not_eq_false', List.all_eq_true, Bool.and_eq_true,
    decide_eq_true_eq] at h2
  exact ⟨a.nextCon, imposed_of ha.con hwm rfl (freshUnit_createConstraints _ _ _ (by decide)) hs, h2.2⟩

/-- a capacity limit, in terms of the imposed set -/
theorem capacity_holds {ls : List Lim} {m : Market} {n : Nat}
    (hi : Imposed m .unitBidCapacity (capacityConstraints ls n m.bidi)) {lp : Lp} (hl : m.assemble = .ok lp)
    {x : Nat → ℚ} (hx : Feasible lp x) {l : Lim} (hm : l ∈ ls) (he : l.service = .energy)
    (hu : m.lists l.unit l.dtype) (hb : m.bidsFor l.unit .energy l.dtype) :
    m.dispatched x l.unit .energy l.dtype ≤ l.val := by
  obtain ⟨i, hi', hr⟩ := mem_saveIndex' hm n (fun i l => ({ cid := i, ctype := .le, rhs := l.val } : Row))
  have hf : ((capacityConstraints ls n m.bidi).2.filter (fun c => decide (c.cid = n + i))) =
      [ConUnit.mk (n + i) l.unit l.service l.dtype (if l.dtype = .load ∧ l.unit ∈ m.bidi then -1 else 1)] := by
    have := filter_saveIndex ls n (fun i l =>
      ConUnit.mk i l.unit l.service l.dtype (if l.dtype = .load ∧ l.unit ∈ m.bidi then -1 else 1)) ConUnit.cid
      (fun _ _ => rfl) hi'
    rw [← this]
    simp only [capacityConstraints, createConstraints, map_saveIndex]
  have := hi.holds hl hx hr ⟨_, List.mem_of_mem_filter (by rw [hf]; exact List.mem_singleton.2 rfl), rfl, hu,
    by rw [he]; exact hb⟩
  simp only [Market.unitLhs, hf, he] at this
  simp only [List.map_cons, List.map_nil, List.sum_cons, List.sum_nil, add_zero, mapVal_eq hi.wf hu, CType.holds,
    Market.side] at this
  by_cases hc : l.dtype = .load ∧ l.unit ∈ m.bidi
  · simp only [hc, and_self, if_true] at this ⊢
    linarith
  · rw [if_neg hc, if_neg (fun h' => hc ⟨h'.2.2, h'.1⟩)] at this
    linarith

/-- the capacity constraints, exactly -/
theorem capacity_iff {ls : List Lim} {m : Market} {n : Nat}
    (hi : Imposed m .unitBidCapacity (capacityConstraints ls n m.bidi)) (he : ∀ l ∈ ls, l.service = .energy) {lp : Lp}
    (hl : m.assemble = .ok lp) {x : Nat → ℚ} :
    m.obeys lp x .unitBidCapacity ↔ ∀ l ∈ ls, m.lists l.unit l.dtype → m.bidsFor l.unit .energy l.dtype →
      m.dispatched x l.unit .energy l.dtype ≤ l.val := by
  rw [hi.obeys_iff hl]
  have hf : ∀ (i : Nat) (l : Lim), ls[i]? = some l →
      ((capacityConstraints ls n m.bidi).2.filter (fun c => decide (c.cid = n + i))) =
      [ConUnit.mk (n + i) l.unit l.service l.dtype (if l.dtype = .load ∧ l.unit ∈ m.bidi then -1 else 1)] := by
    intro i l hi'
    have := filter_saveIndex ls n (fun i l =>
      ConUnit.mk i l.unit l.service l.dtype (if l.dtype = .load ∧ l.unit ∈ m.bidi then -1 else 1)) ConUnit.cid
      (fun _ _ => rfl) hi'
    rw [← this]
    simp only [capacityConstraints, createConstraints, map_saveIndex]
  have key : ∀ (i : Nat) (l : Lim), ls[i]? = some l → m.lists l.unit l.dtype →
      m.unitLhs x (capacityConstraints ls n m.bidi).2 (n + i) = m.dispatched x l.unit .energy l.dtype := by
    intro i l h1 h2
    have e := he l (List.mem_of_getElem? h1)
    simp only [Market.unitLhs, hf i l h1, e]
    simp only [List.map_cons, List.map_nil, List.sum_cons, List.sum_nil, add_zero, mapVal_eq hi.wf h2, Market.side]
    by_cases hc : l.dtype = .load ∧ l.unit ∈ m.bidi
    · simp only [hc, and_self, if_true]; ring
    · rw [if_neg hc, if_neg (fun h' => hc ⟨h'.2.2, h'.1⟩)]; ring
  constructor
  · intro ha l hm hu hb
    obtain ⟨i, hi', hr⟩ := mem_saveIndex' hm n (fun i l => ({ cid := i, ctype := .le, rhs := l.val } : Row))
    have := ha _ hr ⟨_, List.mem_of_mem_filter (by rw [hf i l hi']; exact List.mem_singleton.2 rfl), rfl, hu,
      by rw [he l hm]; exact hb⟩
    dsimp only at this
    rw [key i l hi' hu] at this
    exact this
  · intro ha r hr hc
    obtain ⟨i, l, h', rfl⟩ := mem_saveIndex.1 hr
    obtain ⟨c, hc, e, h1, h2⟩ := hc
    have hcm : c ∈ (capacityConstraints ls n m.bidi).2.filter (fun c => decide (c.cid = n + i)) :=
      List.mem_filter.2 ⟨hc, by simpa using e⟩
    rw [hf i l h', List.mem_singleton] at hcm
    subst hcm
    have hmem := List.mem_of_getElem? h'
    dsimp only at h1 h2 ⊢
    rw [key i l h' h1]
    rw [he l hmem] at h2
    exact ha l hmem h1 h2

end Verif
