import Verif.Proofs.SoftRamp

/-! Fast start profiles with a violation cost. -/

namespace Verif

theorem fastStart_several {m : Market} {ps : List FsInput} (hne : ∃ q ∈ mergeFsProfiles m.units ps, q.endMode ≤ 4) (vc : VCost) :
    Several [] m (.fastStart ps (some vc)) (.fastStart ps none) [.fastStart] vc := by
  intro a hu _ _ hno hok
  have hn := step_ok hok
  simp only [Market.step, hn, Market.setFastStart, Bool.false_eq_true, if_false, hu, fastStart_rows_empty hne] at hok ⊢
  split at hok
  · simp at hok
  rename_i c1
  simp only [c1, Bool.false_eq_true, if_false]
  have nn : (a.addUnitSet .fastStart (fastStartConstraints (mergeFsProfiles m.units ps) a.nextCon)).1.nanCon = false := by
    rw [nanCon_unitSet, hn]
  obtain ⟨h1, h2⟩ := andThen_split nn hok
  refine ⟨h1, ⟨?_, trivial⟩, ?_, ?_⟩
  · rw [← h2]; exact hok
  · rw [h2]; rfl
  · intro k hk hnk
    simp only [Op.parts, List.mem_singleton, Part.set.injEq] at hk hnk
    exact absurd hk hnk

theorem fastStart_none {ps : List FsProfile} (n : Nat) (h : ¬ ∃ q ∈ ps, q.endMode ≤ 4) : (fastStartConstraints ps n).1 = [] := by
  have hf : ∀ (P : FsProfile → Prop) [DecidablePred P], (∀ q, P q → q.endMode ≤ 4) → ps.filter (fun q => decide (P q)) = [] := by
    intro P _ hP
    rw [List.filter_eq_nil_iff]
    intro q hq hc
    exact h ⟨q, hq, hP q (by simpa using hc)⟩
  have h1 := hf (fun p => p.endMode = 0 ∨ p.endMode = 1) (by intro q; omega)
  have h2 := hf (fun p => p.endMode = 2) (by intro q; omega)
  have h3 := hf (fun p => p.endMode = 3) (by intro q; omega)
  have h4 := hf (fun p => p.endMode = 4) (by intro q; omega)
  simp only [fastStartConstraints, fsModeOne, fsModeTwo, fsModeThree, fsModeFour, h1, h2, h3, h4]
  rfl

/-- a call that stores no set leaves none behind -/
theorem MadeBy.idle {ops : List Op} {m : Market} (h : MadeBy ops m) {op : Op} (ho : op ∈ ops) {k : CKey} (hk : Part.set k ∈ op.parts)
    (hp : ∀ a : Market, (a.step op).2 = none → a.units = m.units → SameSet k a (a.step op).1) :
    m.conRhs.get? k = none ∧ m.mktRhs.get? k = none ∧ m.deficits.get? k = none := by
  obtain ⟨r, u, d, m0, before, after, h1, h2, h3, e, e'⟩ := h.at ho
  subst e e'
  obtain ⟨o1, o2, o3⟩ := once_split h.once
  have e0 := (init_fresh h1).1
  have hs : SameSet k m0 (m0.run before) := part_run (p := .set k) (fun o ho => o2 o ho _ hk)
  have hs' : SameSet k ((m0.run before).step op).1 (m0.run (before ++ op :: after)) := by
    rw [run_append, run_cons]
    exact part_run (p := .set k) (fun o ho => o1 o ho _ hk)
  have hs2 := hp _ h3 (by rw [(sameBase_run m0 before).2.1, (sameBase_run m0 _).2.1])
  have := (hs.trans hs2).trans hs'
  refine ⟨?_, ?_, ?_⟩
  · rw [this.conRhs, e0]; rfl
  · rw [this.mktRhs, e0]; rfl
  · rw [this.deficits, e0]; rfl

theorem MadeBy.fastStart_priced {ops : List Op} {m : Market} (h : MadeBy ops m) {ps : List FsInput} {c : ℚ}
    (ho : Op.fastStart ps (some (.num c)) ∈ ops) (hc : 0 ≤ c) :
    ∃ L, PricedBy m ops (.fastStart ps (some (.num c))) L := by
  have hmis : ∀ x, (((Op.fastStart ps (some (.num c))).misses m ops x).map (fun a => a.1 * a.2)).sum =
      c * ((mergeFsProfiles m.units ps).map (fun q => FsInput.missedBy ⟨q.unit, q.endMode, q.time, q.len2, q.len4, q.minLoading⟩ (m.output x q.unit .energy q.dtype))).sum := by
    intro x
    simp only [Op.misses, mergeFsProfiles, sum_map_flatMap, List.map_map, Function.comp_def, sum_map_mul_left]
    rfl
  by_cases hne : ∃ q ∈ mergeFsProfiles m.units ps, q.endMode ≤ 4
  · obtain ⟨⟨m1, i1, i2, i3, _, i4, a, a1, _, a2, a3⟩, hk, hno⟩ := several_before h ho [] (by simp) (fastStart_several hne (.num c)) rfl
      (by simp [Op.parts]) (by decide) (fun a ha => ha)
    have hb : ∀ q ∈ mergeFsProfiles m.units ps, q.unit ∉ m.bidi := by
      intro q hq
      obtain ⟨u, _, p, hp, e, rfl⟩ := mem_mergeFs.1 hq
      have hs : ∀ p ∈ ps, p.unit ∉ m.bidi := h.oneWay _ ho
      have := hs p hp
      simpa [e] using this
    have hf : ∀ (P : FsProfile → Bool) (f : FsProfile → Lim), (∀ q, (f q).unit = q.unit) →
        ∀ l ∈ ((mergeFsProfiles m.units ps).filter P).map f, l.unit ∉ m.bidi := by
      intro P f he l hl
      obtain ⟨q, hq, rfl⟩ := List.mem_map.1 hl
      rw [he]
      exact hb q (List.mem_filter.1 hq).1
    have hne' : ∃ p ∈ ps, p.endMode ≤ 4 := by
      obtain ⟨q, hq, hle⟩ := hne
      obtain ⟨u, _, p, hp, _, rfl⟩ := mem_mergeFs.1 hq
      exact ⟨p, hp, hle⟩
    obtain ⟨n, hi⟩ := fastStart_imposed (show InForce _ m1 from i1) hne'
    rw [i2] at hi
    obtain ⟨u1, u2, _⟩ := i4 .fastStart (by simp [Op.parts])
    obtain ⟨k1, p1, q1⟩ := unitPiece h.wf (k := .fastStart) rfl (hk _ (by simp)) hc (fastStart_entries _ _) (u1.trans hi.rhs)
      (u2.trans hi.map) (by simpa using fastStart_rows_empty hne)
    refine ⟨[⟨.fastStart, .num c, k1⟩], by simpa using p1, by simp [Op.parts], by simp, ?_, ?_⟩
    · intro k hk hn
      simp [Op.parts] at hk hn
      exact absurd hk hn
    · intro x
      rw [hmis x]
      simp only [List.map_cons, List.map_nil, List.sum_cons, List.sum_nil, q1, List.map_append, List.sum_append]
      simp only [fsModeOne, fsModeTwo, fsModeThree, fsModeFour]
      repeat rw [sum_limits h.wf (hf _ _ (fun _ => rfl))]
      rw [add_zero]
      congr 1
      simp only [fsModeOne, fsModeTwo, fsModeThree, fsModeFour, List.map_map, Function.comp_def, sum_filter_eq_ite, ← sum_map_add]
      apply sum_map_congr
      intro q _
      simp only [FsInput.missedBy, CType.violation, decide_eq_true_eq]
      generalize m.output x q.unit .energy q.dtype = e
      have habs : ∀ a b : ℚ, max 0 (a - b) + max 0 (b - a) = |b - a| := by
        intro a b
        rcases le_total a b with hl | hl
        · rw [max_eq_left (by linarith), max_eq_right (by linarith), abs_of_nonneg (by linarith)]; ring
        · rw [max_eq_right (by linarith), max_eq_left (by linarith), abs_of_nonpos (by linarith)]; ring
      have : q.endMode = 0 ∨ q.endMode = 1 ∨ q.endMode = 2 ∨ q.endMode = 3 ∨ q.endMode = 4 ∨ 5 ≤ q.endMode := by omega
      rcases this with h | h | h | h | h | h
      · simp [h]
      · simp [h]
      · simp only [h]
        norm_num
        rw [habs, mul_comm]
      · simp [h]
      · simp [h]
        ring_nf
      · have g0 : q.endMode ≠ 0 := by omega
        have g1 : q.endMode ≠ 1 := by omega
        have g2 : q.endMode ≠ 2 := by omega
        have g3 : q.endMode ≠ 3 := by omega
        have g4 : q.endMode ≠ 4 := by omega
        have g5 : ¬ q.endMode ≤ 1 := by omega
        simp [g0, g1, g2, g3, g4, g5]
  · refine ⟨[], by simp, by simp, by simp, ?_, ?_⟩
    · intro k hk _
      refine h.idle ho hk (fun a hok hu => ?_)
      have hn := step_ok hok
      simp only [Market.step, hn, Market.setFastStart, Bool.false_eq_true, if_false, hu, fastStart_none _ hne] at hok ⊢
      split
      · exact SameSet.refl _ _
      · exact SameSet.refl _ _
    · intro x
      rw [hmis x]
      have : ((mergeFsProfiles m.units ps).map (fun q => FsInput.missedBy ⟨q.unit, q.endMode, q.time, q.len2, q.len4, q.minLoading⟩ (m.output x q.unit .energy q.dtype))).sum = 0 := by
        apply List.sum_eq_zero
        intro v hv
        obtain ⟨q, hq, rfl⟩ := List.mem_map.1 hv
        have h5 : ¬ q.endMode ≤ 4 := fun hc => hne ⟨q, hq, hc⟩
        have g2 : q.endMode ≠ 2 := by omega
        have g3 : q.endMode ≠ 3 := by omega
        have g4 : q.endMode ≠ 4 := by omega
        have g5 : ¬ q.endMode ≤ 1 := by omega
        simp [FsInput.missedBy, g2, g3, g4, g5]
      rw [this]; simp

end Verif
