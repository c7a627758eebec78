import Verif.Spec.Price
import Verif.Proofs.Balance
import Verif.Proofs.Merit
import Verif.Proofs.Outputs

/-!
# Shadow prices of market constraints
-/

namespace Verif

theorem CType.pays {ty : CType} {l r p : ℚ} (hge : ty = .ge → 0 ≤ p) (hle : ty = .le → p ≤ 0) (h : ty.holds l r) :
    0 ≤ p * (l - r) := by
  cases ty <;> simp only [CType.holds] at h
  · exact mul_nonneg_of_nonpos_of_nonpos (hle rfl) (by linarith)
  · rw [h]; simp
  · exact mul_nonneg (hge rfl) (by linarith)

theorem lpRows_nodup {m : Market} {lp : Lp} (h : m.assemble = .ok lp) : (lp.rows.map LRow.cid).Nodup := by
  obtain ⟨_, _, _, _, _, hcase⟩ := assemble_parts h
  rcases hcase with ⟨h1, _⟩ | ⟨_, hs⟩
  · rw [h1]; simp
  · rw [solverRows_cids hs]; exact List.nodup_dedup _

theorem lpRow_val {m : Market} {lp : Lp} (h : m.assemble = .ok lp) {r : LRow} (hr : r ∈ lp.rows) (x : Nat → ℚ) :
    linVal x r.coefs = rowVal m.terms x r.cid := by
  obtain ⟨_, _, _, _, _, hcase⟩ := assemble_parts h
  rcases hcase with ⟨h1, _⟩ | ⟨_, hs⟩
  · rw [h1] at hr; simp at hr
  · obtain ⟨_, b, _⟩ := (solverRows_mem hs).2 r hr
    rw [b, linVal_groupCoefs]

/-- a sum over a list that vanishes off a sub list -/
theorem sum_sublist {α : Type} [DecidableEq α] {a b : List α} (ha : a.Nodup) (hb : b.Nodup) (h : ∀ c ∈ b, c ∈ a) {f : α → ℚ}
    (h0 : ∀ c ∈ a, c ∉ b → f c = 0) : (a.map f).sum = (b.map f).sum := by
  have hp : (a.filter (fun c => decide (c ∈ b))).Perm b := by
    rw [List.perm_ext_iff_of_nodup (ha.filter _) hb]
    intro c
    simp only [List.mem_filter, decide_eq_true_eq]
    exact ⟨fun h => h.2, fun hc => ⟨h c hc, hc⟩⟩
  rw [← (hp.map f).sum_eq, sum_filter_eq_ite]
  apply sum_map_congr
  intro c hc
  by_cases hcb : c ∈ b
  · simp [hcb]
  · simp [hcb, h0 c hc hcb]

theorem linear_rows (m : Market) (S : Solver) (x : Nat → ℚ) (lp : Lp) : (m.linear S x lp).rows = lp.rows := by
  unfold Market.linear; dsimp only; split <;> rfl

theorem linear_cost (m : Market) (S : Solver) (x y : Nat → ℚ) (lp : Lp) : (m.linear S x lp).cost y = lp.cost y := by
  unfold Market.linear; dsimp only; split <;> rfl

theorem dispatch_parts {m : Market} {S : Solver} {ocd : Option ReRun} {o : Outcome} (h : m.dispatch S ocd = .ok o) :
    ∃ lp, m.assemble = .ok lp ∧ S.mip lp = some o.x ∧ m.priced lp = true ∧
      o.price = m.prices S ocd o.x (m.linear S o.x lp) ∧ o.cost = lp.cost o.x := by
  unfold Market.dispatch at h
  split at h
  · cases h
  rename_i lp hl
  split at h
  · cases h
  rename_i x hx
  split at h
  · rename_i hp
    injection h with h
    subst h
    exact ⟨lp, hl, hx, hp, rfl, rfl⟩
  · cases h

theorem priced_row {m : Market} {lp : Lp} (hp : m.priced lp = true) {k : CKey} {rows : List Row} (hr : m.mktRhs.get? k = some rows)
    {r : Row} (h : r ∈ rows) : r.cid ∈ lp.rows.map LRow.cid := by
  unfold Market.priced at hp
  rw [List.all_eq_true] at hp
  have : r ∈ m.mktRhs.concat := by
    unfold Dict.concat
    exact List.mem_flatMap.2 ⟨_, Dict.mem_of_get? hr, h⟩
  simpa using hp r this

/-- A point that respects everything but a market constraint set: its cost, with the amounts by which it misses the
constraints of the set paid at the shadow prices, is not below the optimal cost. -/
theorem shadow_set {m : Market} (hw : ConWF m) {lp lin : Lp} (hl : m.assemble = .ok lp) (hrows : lin.rows = lp.rows)
    (hp : m.priced lp = true)
    {k : CKey} {rows : List Row} (hr : m.mktRhs.get? k = some rows) (hk : k.isMarket = true) {x p : Nat → ℚ} (hs : ShadowPrices lin x p)
    {y : Nat → ℚ} (hy : m.allBut k lin y) :
    lin.cost x ≤ lin.cost y - (rows.map (fun r => p r.cid * (rowVal m.terms y r.cid - r.rhs))).sum := by
  have hb := hs.bound y hy.1
  have hnd : (rows.map Row.cid).Nodup := rows_nodup hw (k := k) (by unfold Market.rowsOf; rw [hr])
  let f : Nat → ℚ := fun c => ((rows.filter (fun r => decide (r.cid = c))).map (fun r => p r.cid * (rowVal m.terms y r.cid - r.rhs))).sum
  have hf : ∀ r ∈ rows, f r.cid = p r.cid * (rowVal m.terms y r.cid - r.rhs) := by
    intro r hr'
    show ((rows.filter (fun b => decide (Row.cid b = Row.cid r))).map _).sum = _
    rw [filter_key_unique (key := Row.cid) hnd hr']
    simp
  have h1 : (rows.map (fun r => p r.cid * (rowVal m.terms y r.cid - r.rhs))).sum = ((rows.map Row.cid).map f).sum := by
    rw [List.map_map]
    exact (sum_map_congr _ _ _ (fun r hr' => hf r hr')).symm
  have h2 : ((lp.rows.map LRow.cid).map f).sum = ((rows.map Row.cid).map f).sum := by
    apply sum_sublist (lpRows_nodup hl) hnd
    · intro c hc
      obtain ⟨r, hr', rfl⟩ := List.mem_map.1 hc
      exact priced_row hp hr hr'
    · intro c _ hc
      show ((rows.filter (fun b => decide (Row.cid b = c))).map _).sum = 0
      rw [List.filter_eq_nil_iff.2]
      · rfl
      · intro r hr' e
        exact hc (List.mem_map.2 ⟨r, hr', of_decide_eq_true e⟩)
  have h3 : (lp.rows.map (fun r => f r.cid)).sum ≤ (lp.rows.map (fun r => p r.cid * (linVal y r.coefs - r.rhs.eval y))).sum := by
    apply sum_map_le
    intro r hr'
    have hr'' : r ∈ lin.rows := by rw [hrows]; exact hr'
    by_cases hc : r.cid ∈ rows.map Row.cid
    · obtain ⟨e, he, ec⟩ := List.mem_map.1 hc
      have hu := unique_row hw (lpRow hl hr').2.1 (by rw [← ec]; exact mktRow_mem hr he)
      rw [← ec, hf e he, lpRow_val hl hr', hu.2, ec]
      simp [Rhs.eval]
    · have : f r.cid = 0 := by
        show ((rows.filter (fun b => decide (Row.cid b = r.cid))).map _).sum = 0
        rw [List.filter_eq_nil_iff.2]
        · rfl
        · intro q hq e
          exact hc (List.mem_map.2 ⟨q, hq, of_decide_eq_true e⟩)
      rw [this]
      refine CType.pays (hs.ge r hr'') (hs.le r hr'') (hy.2 r hr'' ?_)
      intro hro
      rcases hro with ⟨rs, h, q, hq, e⟩ | ⟨rs, h, q, hq, e⟩ | ⟨e, _⟩
      · have := hw.conMkt _ (Dict.mem_of_get? h)
        rw [hk] at this; cases this
      · rw [hr] at h; injection h with h; subst h
        exact hc (List.mem_map.2 ⟨q, hq, e⟩)
      · subst e; simp [CKey.isMarket] at hk
  rw [List.map_map] at h2
  rw [hrows] at hb
  have h4 : (lp.rows.map (fun r => f r.cid)).sum = ((rows.map Row.cid).map f).sum := h2
  rw [h1]
  linarith

end Verif
