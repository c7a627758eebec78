import Verif.Proofs.Blocks
import Verif.Spec.FastStart

/-! Fast start constraint sets. -/

namespace Verif

theorem fastStart_entries (ps : List FsProfile) (n : Nat) : Entries (fastStartConstraints ps n)
    (saveIndex (fsModeOne ps) n (limEntry .le) ++
     saveIndex (fsModeTwo ps) (n + (fsModeOne ps).length) (limEntry .ge) ++
     saveIndex (fsModeTwo ps) (n + (fsModeOne ps).length + (fsModeTwo ps).length) (limEntry .le) ++
     saveIndex (fsModeThree ps) (n + (fsModeOne ps).length + (fsModeTwo ps).length + (fsModeTwo ps).length) (limEntry .ge) ++
     saveIndex (fsModeFour ps) (n + (fsModeOne ps).length + (fsModeTwo ps).length + (fsModeTwo ps).length +
       (fsModeThree ps).length) (limEntry .ge)) where
  rows := by
    simp only [fastStartConstraints, createConstraints_parts, List.map_append]
    exact List.Perm.refl _
  maps := by
    simp only [fastStartConstraints, createConstraints_parts, List.flatMap_append]
    refine List.Perm.append_right _ (List.Perm.append_right _ ?_)
    rw [List.append_assoc, List.append_assoc]
    exact List.Perm.append_left _ List.perm_append_comm
  own := by
    intro e he c hc
    have : ∀ (dir : CType) (ls : List Lim) (n : Nat), e ∈ saveIndex ls n (limEntry dir) → c.cid = e.1.cid := by
      intro dir ls n h
      obtain ⟨i, l, _, rfl⟩ := mem_saveIndex.1 h
      simp only [limEntry, List.mem_singleton] at hc
      subst hc; rfl
    simp only [List.mem_append] at he
    rcases he with (((he | he) | he) | he) | he <;> exact this _ _ _ he
  nodup := (freshUnit_fastStart ps n).nodup

theorem entryVal_lim {m : Market} (hw : WF m) {x : Nat → ℚ} {dir : CType} {i : Nat} {l : Lim} (hl : m.lists l.unit l.dtype) :
    m.entryVal x (limEntry dir i l).2 = m.side l.unit l.service l.dtype * m.dispatched x l.unit l.service l.dtype := by
  simp [limEntry, Market.entryVal, mapVal_eq hw hl]

theorem lim_entry_iff {m : Market} (hw : WF m) {x : Nat → ℚ} {dir : CType} {ls : List Lim} {n : Nat} :
    (∀ e ∈ saveIndex ls n (limEntry dir), (∃ c ∈ e.2, m.lists c.unit c.dtype ∧ m.bidsFor c.unit c.service c.dtype) →
      e.1.ctype.holds (m.entryVal x e.2) e.1.rhs) ↔
    ∀ l ∈ ls, m.lists l.unit l.dtype → m.bidsFor l.unit l.service l.dtype →
      dir.holds (m.side l.unit l.service l.dtype * m.dispatched x l.unit l.service l.dtype) l.val := by
  refine forall_saveIndex fun i l _ => ?_
  constructor
  · intro h h1 h2
    rw [← entryVal_lim hw (dir := dir) (i := i) h1]
    exact h ⟨ConUnit.mk i l.unit l.service l.dtype 1, by simp [limEntry], h1, h2⟩
  · rintro h ⟨c, hc, h1, h2⟩
    simp only [limEntry, List.mem_singleton] at hc
    subst hc
    rw [entryVal_lim hw h1]
    exact h h1 h2

theorem mem_mergeFs {units : List UnitInfo} {ps : List FsInput} {q : FsProfile} :
    q ∈ mergeFsProfiles units ps ↔ ∃ u ∈ units, ∃ p ∈ ps, p.unit = u.unit ∧
      q = { unit := u.unit, dtype := u.dtype, endMode := p.endMode, time := p.time, len2 := p.len2,
            len4 := p.len4, minLoading := p.minLoading } := by
  simp only [mergeFsProfiles, List.mem_flatMap, List.mem_map, List.mem_filter, decide_eq_true_eq]
  constructor
  · rintro ⟨u, hu, p, ⟨hp, he⟩, rfl⟩; exact ⟨u, hu, p, hp, he, rfl⟩
  · rintro ⟨u, hu, p, hp, he, rfl⟩; exact ⟨u, hu, p, ⟨hp, he⟩, rfl⟩

/-- the limits implied by a list of profiles, over all groups -/
theorem fastStart_obeys {m : Market} {ps : List FsInput} {n : Nat}
    (h : Imposed m .fastStart (fastStartConstraints (mergeFsProfiles m.units ps) n)) {lp : Lp} (hl : m.assemble = .ok lp)
    {x : Nat → ℚ} : m.obeys lp x .fastStart ↔ ∀ p ∈ ps, ∀ d, m.lists p.unit d → m.bidsFor p.unit .energy d →
      p.allows (m.side p.unit .energy d * m.dispatched x p.unit .energy d) := by
  rw [h.entries_iff (fastStart_entries _ _) hl]
  simp only [List.mem_append, or_imp, forall_and]
  simp only [lim_entry_iff h.wf]
  have grp : ∀ (ok : FsProfile → Prop) [DecidablePred ok] (val : FsProfile → ℚ) (dir : CType),
      (∀ l ∈ ((mergeFsProfiles m.units ps).filter (fun p => decide (ok p))).map (fun p => ({ unit := p.unit, dtype := p.dtype, val := val p } : Lim)),
        m.lists l.unit l.dtype → m.bidsFor l.unit l.service l.dtype →
          dir.holds (m.side l.unit l.service l.dtype * m.dispatched x l.unit l.service l.dtype) l.val) ↔
      ∀ p ∈ ps, ∀ d, m.lists p.unit d → m.bidsFor p.unit .energy d →
        ok { unit := p.unit, dtype := d, endMode := p.endMode, time := p.time, len2 := p.len2, len4 := p.len4, minLoading := p.minLoading } →
        dir.holds (m.side p.unit .energy d * m.dispatched x p.unit .energy d)
          (val { unit := p.unit, dtype := d, endMode := p.endMode, time := p.time, len2 := p.len2, len4 := p.len4, minLoading := p.minLoading }) := by
    intro ok _ val dir
    constructor
    · intro ha p hp d h1 h2 hok
      obtain ⟨i, hi, hi1, hi2⟩ := h1
      refine ha _ (List.mem_map.2 ⟨_, List.mem_filter.2 ⟨mem_mergeFs.2 ⟨i, hi, p, hp, hi1.symm, ?_⟩, by simpa using hok⟩, rfl⟩) ⟨i, hi, hi1, hi2⟩ h2
      rw [hi1, hi2]
    · intro ha l hl h1 h2
      obtain ⟨q, hq, rfl⟩ := List.mem_map.1 hl
      obtain ⟨hq, hok⟩ := List.mem_filter.1 hq
      obtain ⟨u, hu, p, hp, he, rfl⟩ := mem_mergeFs.1 hq
      dsimp only at h1 h2 ⊢
      have := ha p hp u.dtype (by rw [he]; exact h1) (by rw [he]; exact h2) (by rw [he]; simpa using hok)
      rw [he] at this; exact this
  have g1 := grp (fun p => p.endMode = 0 ∨ p.endMode = 1) (fun _ => 0) .le
  have g2 := grp (fun p => p.endMode = 2) (fun p => p.time / p.len2 * p.minLoading) .ge
  have g2' := grp (fun p => p.endMode = 2) (fun p => p.time / p.len2 * p.minLoading) .le
  have g3 := grp (fun p => p.endMode = 3) (fun p => p.minLoading) .ge
  have g4 := grp (fun p => p.endMode = 4) (fun p => p.minLoading - p.time / p.len4 * p.minLoading) .ge
  simp only [fsModeOne, fsModeTwo, fsModeThree, fsModeFour, g1, g2, g2', g3, g4]
  constructor
  · rintro ⟨⟨⟨⟨h1, h2⟩, h2'⟩, h3⟩, h4⟩ p hp d hd hb
    refine ⟨fun e => h1 p hp d hd hb e, fun e => ?_, fun e => h3 p hp d hd hb e, fun e => ?_⟩
    · have a := h2 p hp d hd hb e
      have b := h2' p hp d hd hb e
      simp only [CType.holds] at a b
      linarith
    · have a := h4 p hp d hd hb e
      simp only [CType.holds] at a
      linarith
  · intro ha
    refine ⟨⟨⟨⟨?_, ?_⟩, ?_⟩, ?_⟩, ?_⟩ <;> intro p hp d hd hb e <;> obtain ⟨a1, a2, a3, a4⟩ := ha p hp d hd hb <;> simp only [CType.holds]
    · exact a1 e
    · have := a2 e; linarith
    · have := a2 e; linarith
    · exact a3 e
    · have := a4 e; linarith

theorem fastStart_rows_empty {ps : List FsProfile} {n : Nat} (h : ∃ p ∈ ps, p.endMode ≤ 4) :
    (fastStartConstraints ps n).1.isEmpty = false := by
  obtain ⟨p, hp, hle⟩ := h
  rw [List.isEmpty_eq_false_iff_exists_mem]
  have : p.endMode = 0 ∨ p.endMode = 1 ∨ p.endMode = 2 ∨ p.endMode = 3 ∨ p.endMode = 4 := by omega
  have mem : ∀ (ls : List Lim) (k : Nat) (dir : CType) (l : Lim), l ∈ ls → ∃ r, r ∈ (createConstraints ls k dir).1 := by
    intro ls k dir l hl
    obtain ⟨i, _, hr⟩ := mem_saveIndex' hl k (fun i l => ({ cid := i, ctype := dir, rhs := l.val } : Row))
    exact ⟨_, hr⟩
  simp only [fastStartConstraints, List.mem_append]
  rcases this with h | h | h | h | h
  · obtain ⟨r, hr⟩ := mem (fsModeOne ps) n .le _ (List.mem_map.2 ⟨p, List.mem_filter.2 ⟨hp, by simp [h]⟩, rfl⟩)
    exact ⟨r, by simp only [hr, true_or]⟩
  · obtain ⟨r, hr⟩ := mem (fsModeOne ps) n .le _ (List.mem_map.2 ⟨p, List.mem_filter.2 ⟨hp, by simp [h]⟩, rfl⟩)
    exact ⟨r, by simp only [hr, true_or]⟩
  · obtain ⟨r, hr⟩ := mem (fsModeTwo ps) (n + (fsModeOne ps).length) .ge _ (List.mem_map.2 ⟨p, List.mem_filter.2 ⟨hp, by simp [h]⟩, rfl⟩)
    exact ⟨r, by simp only [hr, true_or, or_true]⟩
  · obtain ⟨r, hr⟩ := mem (fsModeThree ps) (n + (fsModeOne ps).length + (fsModeTwo ps).length + (fsModeTwo ps).length) .ge _ (List.mem_map.2 ⟨p, List.mem_filter.2 ⟨hp, by simp [h]⟩, rfl⟩)
    exact ⟨r, by simp only [hr, true_or, or_true]⟩
  · obtain ⟨r, hr⟩ := mem (fsModeFour ps) (n + (fsModeOne ps).length + (fsModeTwo ps).length + (fsModeTwo ps).length + (fsModeThree ps).length) .ge _ (List.mem_map.2 ⟨p, List.mem_filter.2 ⟨hp, by simp [h]⟩, rfl⟩)
    exact ⟨r, by simp only [hr, or_true]⟩

theorem fastStart_imposed {ps : List FsInput} {m : Market} (h : InForce (.fastStart ps none) m)
    (hne : ∃ p ∈ ps, p.endMode ≤ 4) : ∃ n, Imposed m .fastStart (fastStartConstraints (mergeFsProfiles m.units ps) n) := by
  obtain ⟨a, ha, hm, hn, hok, hb, hs⟩ := step_inForce h
  have hs : SameSet .fastStart _ m := hs (.set .fastStart) (by simp [Op.parts])
  rw [hb.2.1]
  simp only [Market.step, hn, Market.setFastStart, Bool.false_eq_true, if_false] at hok hs
  by_cases c1 : (!a.fsInputsOk ps) = true
  · rw [if_pos c1] at hok; simp at hok
  rw [if_neg c1] at hok hs
  have hk : ∃ q ∈ mergeFsProfiles a.units ps, q.endMode ≤ 4 := by
    obtain ⟨p, hp, hle⟩ := hne
    simp only [Bool.not_eq_true', Bool.not_eq_false, Market.fsInputsOk, Bool.and_eq_true, List.all_eq_true] at c1
    have hkn := (c1.1 p hp).1.1.1.1
    simp only [Market.knows, decide_eq_true_eq, List.mem_map] at hkn
    obtain ⟨u, hu, e⟩ := hkn
    exact ⟨_, mem_mergeFs.2 ⟨u, hu, p, hp, e.symm, rfl⟩, hle⟩
  rw [fastStart_rows_empty hk] at hok hs
  simp only [Bool.false_eq_true, if_false] at hok hs
  obtain ⟨_, he⟩ := andThen_ok hok
  rw [he] at hs
  exact ⟨a.nextCon, imposed_of ha.con hm rfl (freshUnit_fastStart _ _) hs⟩

theorem removed_fastStart {m : Market} (h : InForce .removeFastStart m) :
    m.conRhs.get? .fastStart = none ∧ m.mktRhs.get? .fastStart = none ∧ m.deficits.get? .fastStart = none ∧ WF m := by
  obtain ⟨a, ha, hm, hn, hok, hb, hs⟩ := step_inForce h
  have hs : SameSet .fastStart _ m := hs (.set .fastStart) (by simp [Op.parts])
  have he : ∀ {α : Type} (d : Dict CKey α), (d.erase .fastStart).get? .fastStart = none := by
    intro α d
    induction d with
    | nil => rfl
    | cons e d ih =>
      obtain ⟨k, v⟩ := e
      by_cases hk : k = .fastStart
      · simp [Dict.erase, hk, ih]
      · simp [Dict.erase, Dict.get?, hk, ih]
  refine ⟨?_, ?_, ?_, hm⟩
  · rw [hs.conRhs]
    simp only [Market.step, hn, Market.removeFastStart, Bool.false_eq_true, if_false]
    by_cases h1 : a.conRhs.has .fastStart = true <;> by_cases h2 : a.deficits.has .fastStart = true <;>
      simp only [h1, h2, if_true, if_false, he, Bool.false_eq_true]
    · simp only [Dict.has, Option.isSome_iff_ne_none, ne_eq, not_not] at h1; exact h1
    · simp only [Dict.has, Option.isSome_iff_ne_none, ne_eq, not_not] at h1; exact h1
  · cases hg : m.mktRhs.get? .fastStart with
    | none => rfl
    | some r => have := hm.con.mktMkt _ (Dict.mem_of_get? hg); simp [CKey.isMarket] at this
  · rw [hs.deficits]
    simp only [Market.step, hn, Market.removeFastStart, Bool.false_eq_true, if_false]
    by_cases h1 : a.conRhs.has .fastStart = true <;> by_cases h2 : a.deficits.has .fastStart = true <;>
      simp only [h1, h2, if_true, if_false, he, Bool.false_eq_true]
    · simp only [Dict.has, Option.isSome_iff_ne_none, ne_eq, not_not] at h2; exact h2
    · simp only [Dict.has, Option.isSome_iff_ne_none, ne_eq, not_not] at h2; exact h2

end Verif
