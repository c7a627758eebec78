import Verif.Proofs.Twin
import Verif.Proofs.Bids
import Mathlib.Algebra.Order.BigOperators.Group.List

/-!
# Lemmas: spreading the volume of a price over the bands of that price
-/

namespace Verif

section spread
variable {β κ : Type} [DecidableEq κ]

/-- sum of a weight over the entries with a key -/
def keyed (L : List β) (key : β → κ) (w : β → ℚ) (k : κ) : ℚ := ((L.filter (fun v => decide (key v = k))).map w).sum

theorem keyed_pos {L : List β} {key : β → κ} {w : β → ℚ} (hw : ∀ v ∈ L, 0 < w v) {k : κ} (h : k ∈ L.map key) : 0 < keyed L key w k := by
  obtain ⟨v, hv, rfl⟩ := List.mem_map.1 h
  unfold keyed
  refine lt_of_lt_of_le (hw v hv) (List.single_le_sum ?_ _ (List.mem_map.2 ⟨v, List.mem_filter.2 ⟨hv, by simp⟩, rfl⟩))
  intro q hq
  obtain ⟨a, ha, rfl⟩ := List.mem_map.1 hq
  exact (hw a (List.mem_of_mem_filter ha)).le

theorem keyed_zero {L : List β} {key : β → κ} {w : β → ℚ} {k : κ} (h : k ∉ L.map key) : keyed L key w k = 0 := by
  unfold keyed
  have : L.filter (fun v => decide (key v = k)) = [] := by
    rw [List.filter_eq_nil_iff]
    intro v hv
    simp only [decide_eq_true_eq]
    rintro rfl
    exact h (List.mem_map_of_mem hv)
  rw [this]; rfl

/-- the share of an entry in the total of its key -/
def share (L : List β) (key : β → κ) (w : β → ℚ) (T : κ → ℚ) (v : β) : ℚ := w v * (T (key v) / keyed L key w (key v))

theorem keyed_share {L : List β} {key : β → κ} {w : β → ℚ} (hw : ∀ v ∈ L, 0 < w v) {T : κ → ℚ} (hT : ∀ k, k ∉ L.map key → T k = 0) (k : κ) :
    keyed L key (share L key w T) k = T k := by
  by_cases hk : k ∈ L.map key
  · have hp := keyed_pos hw hk
    have : keyed L key (share L key w T) k = keyed L key w k * (T k / keyed L key w k) := by
      conv_lhs => unfold keyed
      have : ∀ v ∈ L.filter (fun v => decide (key v = k)), share L key w T v = (T k / keyed L key w k) * w v := by
        intro v hv
        have := (List.mem_filter.1 hv).2
        simp only [decide_eq_true_eq] at this
        unfold share
        rw [this]; ring
      rw [List.map_congr_left this, sum_map_mul_left]
      conv_rhs => rw [mul_comm]
      rfl
    rw [this, mul_comm, div_mul_cancel₀ _ hp.ne']
  · rw [keyed_zero hk, hT k hk]

/-- sums over the entries are sums over the keys -/
theorem sum_keyed {K : List κ} (hK : K.Nodup) {L : List β} {key : β → κ} (hL : ∀ v ∈ L, key v ∈ K) (g : κ → ℚ) (f : β → ℚ) :
    (L.map (fun v => g (key v) * f v)).sum = (K.map (fun k => g k * keyed L key f k)).sum := by
  induction L with
  | nil =>
    have : ∀ k ∈ K, g k * keyed ([] : List β) key f k = 0 := by intro k _; simp [keyed]
    rw [List.map_congr_left this]
    simp
  | cons v L ih =>
    rw [List.map_cons, List.sum_cons, ih (fun a ha => hL a (by simp [ha]))]
    have : ∀ k ∈ K, g k * keyed (v :: L) key f k = (if k = key v then g (key v) * f v else 0) + g k * keyed L key f k := by
      intro k _
      unfold keyed
      by_cases h : key v = k
      · subst h; simp; ring
      · rw [List.filter_cons_of_neg (by simpa using h), if_neg (fun e => h e.symm)]; ring
    rw [List.map_congr_left this, sum_map_add]
    congr 1
    have hv := hL v (by simp)
    clear ih this hL
    induction K with
    | nil => simp at hv
    | cons a K ih =>
      rw [List.nodup_cons] at hK
      rw [List.map_cons, List.sum_cons]
      by_cases h : a = key v
      · subst h
        have : ∀ k ∈ K, (if k = key v then g (key v) * f v else 0) = 0 := by
          intro k hk
          rw [if_neg]; rintro rfl; exact hK.1 hk
        rw [List.map_congr_left this]
        simp
      · rw [if_neg h, ← ih hK.2 (by simpa [Ne.symm h] using hv)]; simp

theorem share_bounds {L : List β} {key : β → κ} {w : β → ℚ} (hw : ∀ v ∈ L, 0 < w v) {T : κ → ℚ} (h0 : ∀ k, 0 ≤ T k)
    (hT : ∀ k, T k ≤ keyed L key w k) {v : β} (hv : v ∈ L) : 0 ≤ share L key w T v ∧ share L key w T v ≤ w v := by
  have hp := keyed_pos hw (List.mem_map_of_mem (f := key) hv)
  have hwv := hw v hv
  unfold share
  constructor
  · exact mul_nonneg hwv.le (div_nonneg (h0 _) hp.le)
  · have : T (key v) / keyed L key w (key v) ≤ 1 := by rw [div_le_iff₀ hp, one_mul]; exact hT _
    calc w v * (T (key v) / keyed L key w (key v)) ≤ w v * 1 := mul_le_mul_of_nonneg_left this hwv.le
      _ = w v := mul_one _

end spread

/-- values at given places -/
theorem exists_at (P : List (Nat × ℚ)) (h : (P.map (·.1)).Nodup) : ∃ x : Nat → ℚ, ∀ p ∈ P, x p.1 = p.2 := by
  refine ⟨fun i => ((P.find? (fun p => decide (p.1 = i))).map (·.2)).getD 0, fun p hp => ?_⟩
  have : P.find? (fun q => decide (q.1 = p.1)) = some p := by
    cases hc : P.find? (fun q => decide (q.1 = p.1)) with
    | none =>
      rw [List.find?_eq_none] at hc
      exact absurd (decide_eq_true (rfl : p.1 = p.1)) (hc p hp)
    | some q =>
      have h1 := List.mem_of_find?_eq_some hc
      have h2 := List.find?_some hc
      rw [List.inj_on_of_nodup_map h h1 hp (by simpa using h2)]
  simp [this]

theorem vids_nodup {m : Market} (hw : WF m) :
    ((m.bids.getD []).map BidVar.vid ++ (m.inters.getD []).map InterVar.vid ++ (m.losses.getD []).map LossVar.vid).Nodup := by
  have hn : (m.allVars.map LVar.vid).Nodup := by
    rw [List.nodup_iff_count_le_one]
    intro i
    rw [vcount_eq]
    exact (hw.var i).1
  unfold Market.allVars at hn
  simp only [List.map_append, List.map_map] at hn
  exact (List.nodup_append.1 (List.nodup_append.1 hn).1).1

/-- a schedule with given values -/
theorem exists_schedule {m : Market} (hw : WF m) (f : BidVar → ℚ) (g : InterVar → ℚ) (l : LossVar → ℚ) :
    ∃ x : Nat → ℚ, (∀ b ∈ m.bids.getD [], x b.vid = f b) ∧ (∀ v ∈ m.inters.getD [], x v.vid = g v) ∧ ∀ v ∈ m.losses.getD [], x v.vid = l v := by
  obtain ⟨x, hx⟩ := exists_at ((m.bids.getD []).map (fun b => (b.vid, f b)) ++ (m.inters.getD []).map (fun b => (b.vid, g b)) ++
    (m.losses.getD []).map (fun b => (b.vid, l b))) (by
      simpa [List.map_append, List.map_map, Function.comp_def] using vids_nodup hw)
  refine ⟨x, fun b hb => ?_, fun b hb => ?_, fun b hb => ?_⟩
  · exact hx (b.vid, f b) (by simp only [List.mem_append, List.mem_map]; exact Or.inl (Or.inl ⟨b, hb, rfl⟩))
  · exact hx (b.vid, g b) (by simp only [List.mem_append, List.mem_map]; exact Or.inl (Or.inr ⟨b, hb, rfl⟩))
  · exact hx (b.vid, l b) (by simp only [List.mem_append, List.mem_map]; exact Or.inr ⟨b, hb, rfl⟩)

end Verif
