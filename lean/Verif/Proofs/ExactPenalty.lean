import Verif.Proofs.LpExists

/-! A program whose costs are a base and a multiple of a penalty: once the multiple is high enough, the penalty comes first. -/

namespace Verif

/-- the smallest value of a linear function on a piece of the feasible set, given a bound on it -/
theorem piece_min {lp : Lp} {Z : List Nat} {x : Nat → ℚ} (hx : Feasible lp x) (hZ : lp.zeros x = Z) (C : List (Nat × ℚ)) {b : ℚ}
    (hb : ∀ x, (∀ v ∈ lp.vars, v.holds x) → b ≤ linVal x C) :
    ∃ y, Feasible lp y ∧ (∀ i ∈ lp.ineqs Z, 0 ≤ i.aff.at y) ∧
      ∀ z, (∀ i ∈ lp.ineqs Z, 0 ≤ i.aff.at z) → linVal y C ≤ linVal z C := by
  obtain ⟨y, h1, h2⟩ := attained (lp.ineqs Z) (Nat → ℚ) Ineq.aff ⟨linForm C, 0⟩ x b (by
      rw [Lp.ineqs_iff]
      refine ⟨hx.vars, hx.rows, fun i hi => ?_⟩
      rw [← hZ] at hi
      exact of_decide_eq_true (List.mem_filter.1 hi).2) (by
      intro v hv
      have := hb v ((Lp.ineqs_iff ..).1 hv).1
      simpa [Aff.at, linForm] using this)
  have h1' := (Lp.ineqs_iff ..).1 h1
  refine ⟨y, feasible_of_zeros hx h1'.1 h1'.2.1 (hZ ▸ h1'.2.2), h1, fun z hz => ?_⟩
  have := h2 z hz
  simpa [Aff.at, linForm] using this

theorem mem_piece {lp : Lp} {x : Nat → ℚ} (hx : Feasible lp x) : ∀ i ∈ lp.ineqs (lp.zeros x), 0 ≤ i.aff.at x := by
  rw [Lp.ineqs_iff]
  exact ⟨hx.vars, hx.rows, fun i hi => of_decide_eq_true (List.mem_filter.1 hi).2⟩

/-- on one piece of the feasible set -/
theorem penalty_piece {lp : Lp} (B V : List (Nat × ℚ)) {b : ℚ} (hb : ∀ x, (∀ v ∈ lp.vars, v.holds x) → b ≤ linVal x B)
    {a : ℚ} (ha : ∀ x, (∀ v ∈ lp.vars, v.holds x) → a ≤ linVal x V)
    {x0 : Nat → ℚ} (h0 : Feasible lp x0) (hmin : ∀ y, Feasible lp y → linVal x0 V ≤ linVal y V) (Z : List Nat) :
    ∃ K, ∀ k, K < k → ∀ x, Feasible lp x → lp.zeros x = Z → linVal x0 V < linVal x V →
      ∃ y, Feasible lp y ∧ linVal y V = linVal x0 V ∧
        linVal y B + k * linVal y V < linVal x B + k * linVal x V := by
  by_cases hex : ∃ x, Feasible lp x ∧ lp.zeros x = Z
  swap
  · exact ⟨0, fun k _ x hx hz => absurd ⟨x, hx, hz⟩ hex⟩
  obtain ⟨w, hw, hwZ⟩ := hex
  obtain ⟨u, hu, huP, hul⟩ := piece_min hw hwZ V ha
  rcases eq_or_lt_of_le (hmin u hu) with he | hlt
  · -- the least penalty is met on this piece
    have hV : ∀ z, (∀ i ∈ lp.ineqs Z, 0 ≤ i.aff.at z) → linVal x0 V ≤ linVal z V := fun z hz => he ▸ hul z hz
    obtain ⟨y, hy1, hy2⟩ := attained (none :: (lp.ineqs Z).map some) (Nat → ℚ)
      (fun o => o.elim ⟨-linForm V, linVal x0 V⟩ Ineq.aff) ⟨linForm B, 0⟩ u b (by
        intro i hi
        rcases List.mem_cons.1 hi with rfl | hi
        · simp [Aff.at, linForm, he]
        · obtain ⟨j, hj, rfl⟩ := List.mem_map.1 hi
          exact huP j hj) (by
        intro v hv
        have : ∀ i ∈ lp.ineqs Z, 0 ≤ i.aff.at v := fun i hi =>
          hv (some i) (List.mem_cons_of_mem _ (List.mem_map_of_mem hi))
        have := hb v ((Lp.ineqs_iff ..).1 this).1
        simpa [Aff.at, linForm] using this)
    have hyP : ∀ i ∈ lp.ineqs Z, 0 ≤ i.aff.at y := fun i hi =>
      hy1 (some i) (List.mem_cons_of_mem _ (List.mem_map_of_mem hi))
    have hyV : linVal y V = linVal x0 V := by
      refine le_antisymm ?_ (hV y hyP)
      have := hy1 none (List.mem_cons_self ..)
      simp only [Option.elim_none, Aff.at, LinearMap.neg_apply, linForm, LinearMap.coe_mk, AddHom.coe_mk] at this
      linarith
    have hyF : Feasible lp y := by
      have := (Lp.ineqs_iff ..).1 hyP
      exact feasible_of_zeros hw this.1 this.2.1 (hwZ ▸ this.2.2)
    obtain ⟨μ, hμ0, hμ⟩ := farkas_affine (l := none :: ((lp.ineqs Z).map some).dedup) (by
        refine List.nodup_cons.2 ⟨?_, List.nodup_dedup _⟩
        intro h
        obtain ⟨_, _, h⟩ := List.mem_map.1 (List.mem_dedup.1 h)
        cases h)
      (fun o => o.elim ⟨-linForm V, linVal x0 V⟩ Ineq.aff) ⟨linForm B, -linVal y B⟩ (y0 := y) (by
        intro i hi
        rcases List.mem_cons.1 hi with rfl | hi
        · exact hy1 none (List.mem_cons_self ..)
        · exact hy1 i (List.mem_cons_of_mem _ (List.mem_dedup.1 hi))) (by
        intro v hv
        have := hy2 v (by
          intro i hi
          rcases List.mem_cons.1 hi with rfl | hi
          · exact hv none (List.mem_cons_self ..)
          · exact hv i (List.mem_cons_of_mem _ (List.mem_dedup.2 hi)))
        simp only [Aff.at, linForm, LinearMap.coe_mk, AddHom.coe_mk] at this ⊢
        linarith)
    refine ⟨μ none, fun k hk x hx hz hlt => ⟨y, hyF, hyV, ?_⟩⟩
    have h1 := hμ x
    have h2 : 0 ≤ ((((lp.ineqs Z).map some).dedup).map (fun i => μ i * (Option.elim i
        (⟨-linForm V, linVal x0 V⟩ : Aff (Nat → ℚ)) Ineq.aff).at x)).sum := by
      apply List.sum_nonneg
      intro q hq
      obtain ⟨i, hi, rfl⟩ := List.mem_map.1 hq
      obtain ⟨j, hj, rfl⟩ := List.mem_map.1 (List.mem_dedup.1 hi)
      refine mul_nonneg (hμ0 _) ?_
      exact mem_piece hx j (hz ▸ hj)
    rw [List.map_cons, List.sum_cons] at h1
    simp only [Option.elim_none, Aff.at, LinearMap.neg_apply, linForm, LinearMap.coe_mk, AddHom.coe_mk] at h1 h2
    have h3 : μ none * (linVal x V - linVal x0 V) < k * (linVal x V - linVal x0 V) :=
      mul_lt_mul_of_pos_right hk (sub_pos.2 hlt)
    rw [hyV]
    linarith
  · -- every point of this piece pays more than the least penalty
    have hd : 0 < linVal u V - linVal x0 V := sub_pos.2 hlt
    refine ⟨max 0 ((linVal x0 B - b) / (linVal u V - linVal x0 V)), fun k hk x hx hz _ => ⟨x0, h0, rfl, ?_⟩⟩
    have h1 : linVal x0 B - b < k * (linVal u V - linVal x0 V) := (div_lt_iff₀ hd).1 (lt_of_le_of_lt (le_max_right _ _) hk)
    have h2 := hb x hx.vars
    have h3 := hul x (by rw [← hz]; exact mem_piece hx)
    have hk0 : 0 < k := lt_of_le_of_lt (le_max_left _ _) hk
    have h4 := mul_le_mul_of_nonneg_left h3 hk0.le
    linarith

/-- Once the multiple of the penalty is high enough, whoever pays more than the least penalty does worse than somebody who pays
the least. -/
theorem exact_penalty {lp : Lp} (B V : List (Nat × ℚ)) {b : ℚ} (hb : ∀ x, (∀ v ∈ lp.vars, v.holds x) → b ≤ linVal x B)
    {a : ℚ} (ha : ∀ x, (∀ v ∈ lp.vars, v.holds x) → a ≤ linVal x V)
    {x0 : Nat → ℚ} (h0 : Feasible lp x0) (hmin : ∀ y, Feasible lp y → linVal x0 V ≤ linVal y V) :
    ∃ K, ∀ k, K < k → ∀ x, Feasible lp x → linVal x0 V < linVal x V →
      ∃ y, Feasible lp y ∧ linVal y V = linVal x0 V ∧
        linVal y B + k * linVal y V < linVal x B + k * linVal x V := by
  have key : ∀ L : List (List Nat), ∃ K, ∀ k, K < k → ∀ x, Feasible lp x → lp.zeros x ∈ L → linVal x0 V < linVal x V →
      ∃ y, Feasible lp y ∧ linVal y V = linVal x0 V ∧
        linVal y B + k * linVal y V < linVal x B + k * linVal x V := by
    intro L
    induction L with
    | nil => exact ⟨0, fun k _ x _ h => absurd h (List.not_mem_nil)⟩
    | cons Z L ih =>
      obtain ⟨K1, h1⟩ := penalty_piece B V hb ha h0 hmin Z
      obtain ⟨K2, h2⟩ := ih
      refine ⟨max K1 K2, fun k hk x hx hz hlt => ?_⟩
      rcases List.mem_cons.1 hz with hz | hz
      · exact h1 k (lt_of_le_of_lt (le_max_left _ _) hk) x hx hz hlt
      · exact h2 k (lt_of_le_of_lt (le_max_right _ _) hk) x hx hz hlt
  obtain ⟨K, h⟩ := key lp.members.sublists
  exact ⟨K, fun k hk x hx hlt => h k hk x hx (List.mem_sublists.2 List.filter_sublist) hlt⟩

/-- Once the multiple is high enough, the cheapest solutions are those of least penalty that are cheapest among these. -/
theorem penalty_first {lp : Lp} (B V : List (Nat × ℚ)) {b : ℚ} (hb : ∀ x, (∀ v ∈ lp.vars, v.holds x) → b ≤ linVal x B)
    {a : ℚ} (ha : ∀ x, (∀ v ∈ lp.vars, v.holds x) → a ≤ linVal x V) (hne : ∃ x, Feasible lp x) :
    ∃ K, ∀ k, K < k → ∀ x, Feasible lp x →
      ((∀ y, Feasible lp y → linVal x B + k * linVal x V ≤ linVal y B + k * linVal y V) ↔
        (∀ y, Feasible lp y → linVal x V ≤ linVal y V) ∧
        (∀ y, Feasible lp y → linVal y V = linVal x V → linVal x B ≤ linVal y B)) := by
  obtain ⟨x0, h0, hmin⟩ := optimal_exists (lp := { lp with obj := V }) (b := a)
    (by obtain ⟨x, h⟩ := hne; exact ⟨x, h.vars, h.rows, h.sos2, h.sos1⟩) ha
  have h0' : Feasible lp x0 := ⟨h0.vars, h0.rows, h0.sos2, h0.sos1⟩
  have hmin' : ∀ y, Feasible lp y → linVal x0 V ≤ linVal y V := fun y hy => hmin y ⟨hy.vars, hy.rows, hy.sos2, hy.sos1⟩
  obtain ⟨K, hK⟩ := exact_penalty B V hb ha h0' hmin'
  refine ⟨K, fun k hk x hx => ⟨fun ho => ?_, fun ⟨h1, h2⟩ y hy => ?_⟩⟩
  · have hxV : linVal x V = linVal x0 V := by
      by_contra hne
      obtain ⟨y, hy, _, h⟩ := hK k hk x hx (lt_of_le_of_ne (hmin' x hx) (Ne.symm hne))
      exact absurd (ho y hy) (not_le.2 h)
    refine ⟨fun y hy => hxV ▸ hmin' y hy, fun y hy he => ?_⟩
    have := ho y hy
    rw [he] at this
    linarith
  · rcases eq_or_lt_of_le (h1 y hy) with he | hlt
    · have := h2 y hy he.symm
      rw [he]
      linarith
    · have hx0 : linVal x V = linVal x0 V := le_antisymm (h1 x0 h0') (hmin' x hx)
      obtain ⟨z, hz, hzV, h⟩ := hK k hk y hy (by rw [← hx0]; exact hlt)
      have := h2 z hz (by rw [hzV, hx0])
      rw [hzV] at h
      rw [hx0]
      linarith

end Verif
