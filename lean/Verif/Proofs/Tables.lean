import Verif.Model.Market
import Mathlib.Tactic.Linarith
import Mathlib.Tactic.Ring
import Mathlib.Data.List.Dedup
import Mathlib.Algebra.BigOperators.Group.List.Basic

/-! Helper lemmas about tables: numbering, dictionaries, merges, sums. -/

namespace Verif

section saveIndex
variable {α β γ : Type}

theorem map_saveIndex (g : β → γ) (rows : List α) (n : Nat) (f : Nat → α → β) :
    (saveIndex rows n f).map g = saveIndex rows n (fun i r => g (f i r)) := by
  induction rows generalizing n with
  | nil => rfl
  | cons r rs ih => simp [saveIndex, ih]

@[simp] theorem length_saveIndex (rows : List α) (n : Nat) (f : Nat → α → β) :
    (saveIndex rows n f).length = rows.length := by
  induction rows generalizing n with
  | nil => rfl
  | cons r rs ih => simp [saveIndex, ih]

theorem saveIndex_ids (rows : List α) (n : Nat) :
    saveIndex rows n (fun i _ => i) = List.range' n rows.length := by
  induction rows generalizing n with
  | nil => rfl
  | cons r rs ih => simp [saveIndex, ih, List.range'_succ]

theorem saveIndex_vals (rows : List α) (n : Nat) (f : α → β) :
    saveIndex rows n (fun _ r => f r) = rows.map f := by
  induction rows generalizing n with
  | nil => rfl
  | cons r rs ih => simp [saveIndex, ih]

theorem mem_saveIndex {rows : List α} {n : Nat} {f : Nat → α → β} {b : β} :
    b ∈ saveIndex rows n f ↔ ∃ i r, rows[i]? = some r ∧ b = f (n + i) r := by
  induction rows generalizing n with
  | nil => simp [saveIndex]
  | cons r rs ih =>
    simp only [saveIndex, List.mem_cons, ih]
    constructor
    · rintro (rfl | ⟨i, r', h, rfl⟩)
      · exact ⟨0, r, by simp, by simp⟩
      · exact ⟨i + 1, r', by simpa using h, by congr 1; omega⟩
    · rintro ⟨i, r', h, rfl⟩
      cases i with
      | zero => left; simp at h; subst h; simp
      | succ i => right; exact ⟨i, r', by simpa using h, by congr 1; omega⟩

/-- the row numbered `n + i` is the `i`-th row -/
theorem mem_saveIndex_lt {rows : List α} {n : Nat} {f : Nat → α → β} {b : β}
    (h : b ∈ saveIndex rows n f) : ∃ i r, r ∈ rows ∧ n ≤ i ∧ i < n + rows.length ∧ b = f i r := by
  obtain ⟨i, r, h1, rfl⟩ := mem_saveIndex.1 h
  have hi : i < rows.length := by
    rw [List.getElem?_eq_some_iff] at h1; exact h1.1
  exact ⟨n + i, r, List.mem_of_getElem? h1, by omega, by omega, rfl⟩

theorem saveIndex_isEmpty (rows : List α) (n : Nat) (f : Nat → α → β) :
    (saveIndex rows n f).isEmpty = rows.isEmpty := by
  cases rows <;> rfl

theorem count_range' (n len i : Nat) : (List.range' n len).count i = if n ≤ i ∧ i < n + len then 1 else 0 := by
  induction len generalizing n with
  | zero => simp
  | succ k ih =>
    rw [List.range'_succ, List.count_cons, ih]
    by_cases h : n = i
    · subst h; simp
    · have h1 : (n == i) = false := by simpa using h
      simp only [h1, Bool.false_eq_true, if_false, Nat.add_zero]
      by_cases h2 : n + 1 ≤ i ∧ i < n + 1 + k
      · rw [if_pos h2, if_pos (by omega)]
      · rw [if_neg h2, if_neg (by omega)]

end saveIndex

section nextAfter

theorem le_foldl_max (l : List Nat) (a : Nat) : a ≤ l.foldl max a := by
  induction l generalizing a with
  | nil => simp
  | cons b l ih => exact le_trans (le_max_left a b) (ih _)

theorem mem_le_foldl_max {l : List Nat} {i a : Nat} (h : i ∈ l) : i ≤ l.foldl max a := by
  induction l generalizing a with
  | nil => simp at h
  | cons b l ih =>
    rcases List.mem_cons.1 h with rfl | h
    · exact le_trans (le_max_right a i) (le_foldl_max l _)
    · exact ih h

theorem lt_nextAfter {l : List Nat} {i : Nat} (h : i ∈ l) : i < nextAfter l :=
  Nat.lt_succ_of_le (mem_le_foldl_max h)

theorem le_nextAfter {l : List Nat} {n : Nat} (h : ∀ i ∈ l, n ≤ i) (hne : l ≠ []) : n ≤ nextAfter l := by
  obtain ⟨a, ha⟩ := List.exists_mem_of_ne_nil l hne
  exact le_trans (h a ha) (le_of_lt (lt_nextAfter ha))

theorem foldl_max_le {l : List Nat} {a b : Nat} (ha : a ≤ b) (h : ∀ i ∈ l, i ≤ b) : l.foldl max a ≤ b := by
  induction l generalizing a with
  | nil => simpa
  | cons c l ih =>
    exact ih (max_le ha (h c (by simp))) (fun i hi => h i (by simp [hi]))

theorem nextAfter_range' {n len : Nat} (h : 0 < len) : nextAfter (List.range' n len) = n + len := by
  apply le_antisymm
  · have := foldl_max_le (l := List.range' n len) (a := 0) (b := n + len - 1) (by omega)
      (fun i hi => by simp only [List.mem_range'_1] at hi; omega)
    unfold nextAfter; omega
  · have : n + len - 1 < nextAfter (List.range' n len) := lt_nextAfter (by simp only [List.mem_range'_1]; omega)
    omega

end nextAfter

section dict
variable {κ α β : Type} [DecidableEq κ]

namespace Dict

@[simp] theorem get?_set_self (d : Dict κ α) (k : κ) (v : α) : (set d k v).get? k = some v := by
  induction d with
  | nil => simp [set, get?]
  | cons e d ih =>
    obtain ⟨k', v'⟩ := e
    by_cases h : k' = k
    · simp [set, get?, h]
    · simp [set, get?, h, ih]

theorem get?_set_ne (d : Dict κ α) {k k' : κ} (v : α) (h : k ≠ k') : (set d k v).get? k' = d.get? k' := by
  induction d with
  | nil => simp [set, get?, h]
  | cons e d ih =>
    obtain ⟨k1, v1⟩ := e
    by_cases h1 : k1 = k
    · subst h1; simp [set, get?, h]
    · by_cases h2 : k1 = k'
      · subst h2; simp [set, get?, h1]
      · simp [set, get?, h1, h2, ih]

@[simp] theorem get?_erase_self (d : Dict κ α) (k : κ) : (erase d k).get? k = none := by
  induction d with
  | nil => rfl
  | cons e d ih =>
    obtain ⟨k', v'⟩ := e
    by_cases h : k' = k
    · simp [erase, h, ih]
    · simp [erase, get?, h, ih]

theorem get?_erase_ne (d : Dict κ α) {k k' : κ} (h : k ≠ k') : (erase d k).get? k' = d.get? k' := by
  induction d with
  | nil => rfl
  | cons e d ih =>
    obtain ⟨k1, v1⟩ := e
    by_cases h1 : k1 = k
    · subst h1; simp [erase, get?, h, ih]
    · by_cases h2 : k1 = k'
      · subst h2; simp [erase, get?, h1]
      · simp [erase, get?, h1, h2, ih]

theorem mem_of_get? {d : Dict κ α} {k : κ} {v : α} (h : d.get? k = some v) : (k, v) ∈ d := by
  induction d with
  | nil => simp [get?] at h
  | cons e d ih =>
    obtain ⟨k', v'⟩ := e
    by_cases h1 : k' = k
    · simp [get?, h1] at h; simp [h1, h]
    · simp [get?, h1] at h; simp [ih h]

theorem mem_set {d : Dict κ α} {k : κ} {v : α} {e : κ × α} (h : e ∈ set d k v) : e = (k, v) ∨ e ∈ d := by
  induction d with
  | nil => simpa [set] using h
  | cons e' d ih =>
    obtain ⟨k', v'⟩ := e'
    by_cases h1 : k' = k
    · simp [set, h1] at h; simp; tauto
    · simp [set, h1] at h; simp; tauto

theorem mem_erase {d : Dict κ α} {k : κ} {e : κ × α} (h : e ∈ erase d k) : e ∈ d := by
  induction d with
  | nil => simp [erase] at h
  | cons e' d ih =>
    obtain ⟨k', v'⟩ := e'
    by_cases h1 : k' = k
    · simp [erase, h1] at h; simp [ih h]
    · simp [erase, h1] at h; simp; tauto

/-- keys are distinct -/
def NodupKeys (d : Dict κ α) : Prop := (d.map Prod.fst).Nodup

theorem get?_of_mem {d : Dict κ α} (hd : d.NodupKeys) {k : κ} {v : α} (h : (k, v) ∈ d) : d.get? k = some v := by
  induction d with
  | nil => simp at h
  | cons e d ih =>
    obtain ⟨k', v'⟩ := e
    simp only [NodupKeys, List.map_cons, List.nodup_cons] at hd
    rcases List.mem_cons.1 h with h | h
    · injection h with h1 h2; subst h1; subst h2; simp [get?]
    · have : k' ≠ k := by
        rintro rfl; exact hd.1 (List.mem_map.2 ⟨(k', v), h, rfl⟩)
      simp [get?, this, ih hd.2 h]

theorem keys_set (d : Dict κ α) (k : κ) (v : α) :
    (set d k v).map Prod.fst = if k ∈ d.map Prod.fst then d.map Prod.fst else d.map Prod.fst ++ [k] := by
  induction d with
  | nil => simp [set]
  | cons e d ih =>
    obtain ⟨k', v'⟩ := e
    by_cases h1 : k' = k
    · simp [set, h1]
    · have : k ≠ k' := fun h => h1 h.symm
      simp only [set, h1, if_false, List.map_cons, ih, List.mem_cons, this, false_or]
      split <;> simp

theorem NodupKeys.set {d : Dict κ α} (hd : d.NodupKeys) (k : κ) (v : α) : (d.set k v).NodupKeys := by
  unfold NodupKeys at *
  rw [keys_set]
  split
  · exact hd
  · rename_i h
    rw [List.nodup_append]
    refine ⟨hd, by simp, ?_⟩
    intro a ha b hb hab
    simp at hb; subst hb; subst hab; exact h ha

theorem erase_sublist (d : Dict κ α) (k : κ) : (erase d k).Sublist d := by
  induction d with
  | nil => exact List.Sublist.refl _
  | cons e d ih =>
    obtain ⟨k', v'⟩ := e
    by_cases h1 : k' = k
    · simp [erase, h1]; exact ih.cons _
    · simp [erase, h1]; exact ih

theorem NodupKeys.erase {d : Dict κ α} (hd : d.NodupKeys) (k : κ) : (d.erase k).NodupKeys :=
  hd.sublist ((erase_sublist d k).map _)

/-- counting in the concatenation after an assignment -/
theorem count_set [DecidableEq β] (d : Dict κ α) (k : κ) (v : α) (f : α → List β) (b : β) :
    ((d.set k v).flatMap (fun e => f e.2)).count b + ((d.get? k).elim 0 (fun v => (f v).count b)) =
      (d.flatMap (fun e => f e.2)).count b + (f v).count b := by
  induction d with
  | nil => simp [set, get?]
  | cons e d ih =>
    obtain ⟨k', v'⟩ := e
    by_cases h1 : k' = k
    · simp [set, get?, h1, List.count_append]; omega
    · simp [set, get?, h1, List.count_append]; omega

theorem count_erase_le [DecidableEq β] (d : Dict κ α) (k : κ) (f : α → List β) (b : β) :
    ((d.erase k).flatMap (fun e => f e.2)).count b ≤ (d.flatMap (fun e => f e.2)).count b := by
  induction d with
  | nil => simp [erase]
  | cons e d ih =>
    obtain ⟨k', v'⟩ := e
    by_cases h1 : k' = k
    · simp [erase, h1, List.count_append]; omega
    · simp [erase, h1, List.count_append]; omega

end Dict
end dict

section dropDup
variable {α κ : Type} [DecidableEq κ]

theorem dropDup_sublist (key : α → κ) (l : List α) : (dropDup key l).Sublist l := by
  induction l with
  | nil => exact List.Sublist.refl _
  | cons a l ih =>
    simp only [dropDup]
    exact ((List.filter_sublist).trans ih).cons_cons a

theorem mem_of_mem_dropDup {key : α → κ} {l : List α} {a : α} (h : a ∈ dropDup key l) : a ∈ l :=
  (dropDup_sublist key l).subset h

theorem dropDup_nodup (key : α → κ) (l : List α) : ((dropDup key l).map key).Nodup := by
  induction l with
  | nil => simp [dropDup]
  | cons a l ih =>
    simp only [dropDup, List.map_cons, List.nodup_cons]
    constructor
    · intro h
      obtain ⟨b, hb, hk⟩ := List.mem_map.1 h
      simp at hb
      exact hb.2 hk
    · exact ih.sublist ((List.filter_sublist).map key)

theorem exists_dropDup {key : α → κ} {l : List α} {a : α} (h : a ∈ l) : ∃ b ∈ dropDup key l, key b = key a := by
  induction l with
  | nil => simp at h
  | cons c l ih =>
    rcases List.mem_cons.1 h with rfl | h
    · exact ⟨a, by simp [dropDup], rfl⟩
    · obtain ⟨b, hb, hk⟩ := ih h
      by_cases hc : key b = key c
      · exact ⟨c, by simp [dropDup], by rw [← hc, hk]⟩
      · exact ⟨b, by simp [dropDup, hb, hc], hk⟩

theorem dropDup_of_nodup {key : α → κ} {l : List α} (h : (l.map key).Nodup) : dropDup key l = l := by
  induction l with
  | nil => rfl
  | cons a l ih =>
    simp only [List.map_cons, List.nodup_cons] at h
    simp only [dropDup, ih h.2]
    congr 1
    rw [List.filter_eq_self]
    intro b hb
    simp
    intro hk
    exact h.1 (List.mem_map.2 ⟨b, hb, hk⟩)

end dropDup

section sums
variable {α β : Type}

theorem sum_map_flatMap (l : List α) (f : α → List β) (g : β → ℚ) :
    ((l.flatMap f).map g).sum = (l.map (fun a => ((f a).map g).sum)).sum := by
  induction l with
  | nil => simp
  | cons a l ih => simp [ih]

theorem sum_map_mul_left (l : List α) (c : ℚ) (f : α → ℚ) : (l.map (fun a => c * f a)).sum = c * (l.map f).sum := by
  induction l with
  | nil => simp
  | cons a l ih => simp [ih]; ring

theorem sum_map_add (l : List α) (f g : α → ℚ) : (l.map (fun a => f a + g a)).sum = (l.map f).sum + (l.map g).sum := by
  induction l with
  | nil => simp
  | cons a l ih => simp [ih]; ring

theorem sum_map_sub (l : List α) (f g : α → ℚ) : (l.map (fun a => f a - g a)).sum = (l.map f).sum - (l.map g).sum := by
  induction l with
  | nil => simp
  | cons a l ih => simp [ih]; ring

theorem sum_map_le (l : List α) (f g : α → ℚ) (h : ∀ a ∈ l, f a ≤ g a) : (l.map f).sum ≤ (l.map g).sum := by
  induction l with
  | nil => simp
  | cons a l ih =>
    simp only [List.map_cons, List.sum_cons]
    exact add_le_add (h a (by simp)) (ih (fun b hb => h b (by simp [hb])))

theorem sum_map_nonneg (l : List α) (f : α → ℚ) (h : ∀ a ∈ l, 0 ≤ f a) : 0 ≤ (l.map f).sum := by
  induction l with
  | nil => simp
  | cons a l ih =>
    simp only [List.map_cons, List.sum_cons]
    exact add_nonneg (h a (by simp)) (ih (fun b hb => h b (by simp [hb])))

theorem sum_map_congr (l : List α) (f g : α → ℚ) (h : ∀ a ∈ l, f a = g a) : (l.map f).sum = (l.map g).sum := by
  rw [List.map_congr_left h]

theorem sum_map_zero (l : List α) (f : α → ℚ) (h : ∀ a ∈ l, f a = 0) : (l.map f).sum = 0 := by
  induction l with
  | nil => simp
  | cons a l ih =>
    simp only [List.map_cons, List.sum_cons, h a (by simp), ih (fun b hb => h b (by simp [hb]))]; norm_num

theorem sum_filter_eq_ite (l : List α) (p : α → Bool) (f : α → ℚ) :
    ((l.filter p).map f).sum = (l.map (fun a => if p a then f a else 0)).sum := by
  induction l with
  | nil => simp
  | cons a l ih =>
    by_cases h : p a <;> simp [h, ih]

theorem sum_perm {l l' : List α} (h : l.Perm l') (f : α → ℚ) : (l.map f).sum = (l'.map f).sum :=
  (h.map f).sum_eq

theorem sum_map_const (l : List α) (c : ℚ) : (l.map (fun _ => c)).sum = l.length * c := by
  induction l with
  | nil => simp
  | cons a l ih => simp [ih]; ring

theorem sum_comm (l : List α) (r : List β) (f : α → β → ℚ) :
    (l.map (fun a => (r.map (fun b => f a b)).sum)).sum = (r.map (fun b => (l.map (fun a => f a b)).sum)).sum := by
  induction l with
  | nil => simp
  | cons a l ih => simp only [List.map_cons, List.sum_cons, ih, sum_map_add]

/-- grouping: summing per distinct key and then over the keys is summing everything -/
theorem sum_dedup_groups {κ : Type} [DecidableEq κ] (l : List α) (key : α → κ) (f : α → ℚ) :
    ((l.map key).dedup.map (fun k => ((l.filter (fun a => decide (key a = k))).map f).sum)).sum = (l.map f).sum := by
  have key' : ∀ (ks : List κ), ks.Nodup → (∀ a ∈ l, key a ∈ ks) →
      (ks.map (fun k => ((l.filter (fun a => decide (key a = k))).map f).sum)).sum = (l.map f).sum := by
    intro ks hks hmem
    have h1 : (ks.map (fun k => ((l.filter (fun a => decide (key a = k))).map f).sum)) =
        ks.map (fun k => (l.map (fun a => if key a = k then f a else 0)).sum) := by
      apply List.map_congr_left
      intro k _
      rw [sum_filter_eq_ite]
      simp
    rw [h1, sum_comm]
    apply sum_map_congr
    intro a ha
    have hk := hmem a ha
    clear h1 hmem
    induction ks with
    | nil => simp at hk
    | cons k ks ih =>
      simp only [List.nodup_cons] at hks
      simp only [List.map_cons, List.sum_cons]
      by_cases h : key a = k
      · subst h
        rw [if_pos rfl, sum_map_zero]
        · ring
        · intro b hb
          rw [if_neg]
          rintro rfl; exact hks.1 hb
      · rw [if_neg h, zero_add]
        exact ih hks.2 (by simpa [h] using hk)
  exact key' _ (List.nodup_dedup _) (fun a ha => List.mem_dedup.2 (List.mem_map.2 ⟨a, ha, rfl⟩))

/-- in a list with distinct keys, filtering on a present key gives one element -/
theorem filter_key_unique {κ : Type} [DecidableEq κ] {l : List α} {key : α → κ} (h : (l.map key).Nodup) {a : α}
    (ha : a ∈ l) : l.filter (fun b => decide (key b = key a)) = [a] := by
  induction l with
  | nil => simp at ha
  | cons b l ih =>
    simp only [List.map_cons, List.nodup_cons] at h
    rcases List.mem_cons.1 ha with rfl | ha
    · simp only [List.filter_cons, decide_true, if_true]
      congr 1
      rw [List.filter_eq_nil_iff]
      intro c hc
      simp
      intro hk
      exact h.1 (List.mem_map.2 ⟨c, hc, hk⟩)
    · have : ¬ key b = key a := fun hk => h.1 (List.mem_map.2 ⟨a, ha, hk.symm⟩)
      simp [List.filter_cons, this, ih h.2 ha]

end sums

end Verif
