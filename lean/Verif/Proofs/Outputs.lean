import Verif.Model.Outputs
import Verif.Proofs.Tables
import Verif.Proofs.Balance

/-! Lemmas about grouped tables. -/

namespace Verif

section
variable {α κ : Type} [DecidableEq κ]

theorem groupSum_keys (key : α → κ) (val : α → ℚ) (l : List α) : (groupSum key val l).map Prod.fst = (l.map key).dedup := by
  unfold groupSum
  rw [List.map_map]
  exact List.map_id _

theorem groupSum_nodup (key : α → κ) (val : α → ℚ) (l : List α) : ((groupSum key val l).map Prod.fst).Nodup := by
  rw [groupSum_keys]; exact List.nodup_dedup _

theorem mem_groupSum {key : α → κ} {val : α → ℚ} {l : List α} {e : κ × ℚ} :
    e ∈ groupSum key val l ↔ (∃ a ∈ l, key a = e.1) ∧ e.2 = ((l.filter (fun a => decide (key a = e.1))).map val).sum := by
  unfold groupSum
  rw [List.mem_map]
  constructor
  · rintro ⟨k, hk, rfl⟩
    rw [List.mem_dedup, List.mem_map] at hk
    exact ⟨hk, rfl⟩
  · rintro ⟨⟨a, ha, h1⟩, h2⟩
    exact ⟨e.1, by rw [List.mem_dedup, List.mem_map]; exact ⟨a, ha, h1⟩, by rw [← h2]⟩

theorem sum_groupSum (key : α → κ) (val : α → ℚ) (l : List α) : ((groupSum key val l).map Prod.snd).sum = (l.map val).sum := by
  unfold groupSum
  rw [List.map_map, ← sum_dedup_groups l key val]
  rfl

/-- the entries of a key sum to the values with this key -/
theorem groupSum_at (key : α → κ) (val : α → ℚ) (l : List α) (k : κ) :
    (((groupSum key val l).filter (fun e => decide (e.1 = k))).map Prod.snd).sum =
      ((l.filter (fun a => decide (key a = k))).map val).sum := by
  by_cases h : ∃ a ∈ l, key a = k
  · have hm : (k, ((l.filter (fun a => decide (key a = k))).map val).sum) ∈ groupSum key val l := mem_groupSum.2 ⟨h, rfl⟩
    rw [filter_key_unique (key := Prod.fst) (groupSum_nodup key val l) hm]
    simp
  · have h1 : l.filter (fun a => decide (key a = k)) = [] := by
      rw [List.filter_eq_nil_iff]
      intro a ha hc
      exact h ⟨a, ha, of_decide_eq_true hc⟩
    have h2 : (groupSum key val l).filter (fun e => decide (e.1 = k)) = [] := by
      rw [List.filter_eq_nil_iff]
      intro e he hc
      apply h
      rw [← of_decide_eq_true hc]
      exact (mem_groupSum.1 he).1
    rw [h1, h2]
    simp

end

end Verif
