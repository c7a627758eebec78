import Verif.Spec.Validator
import Verif.Proofs.Tables
import Mathlib.Tactic.NormNum

/-! # C35: input validation -/

namespace Verif.Validator
open Verif

theorem firstErr_none {α : Type} {l : List α} {f : α → Option VErr} : firstErr l f = none ↔ ∀ a ∈ l, f a = none := by
  unfold firstErr
  rw [List.findSome?_eq_none_iff]

theorem orElse_none {a : Option VErr} {b : Unit → Option VErr} : a.orElse b = none ↔ a = none ∧ b () = none := by
  cases a <;> simp [Option.orElse]

theorem ite_none {p : Prop} [Decidable p] {e : VErr} : (if p then none else some e) = none ↔ p := by
  split <;> simp_all

theorem ite_none' {p : Prop} [Decidable p] {e : VErr} : (if p then some e else none) = none ↔ ¬ p := by
  split <;> simp_all

theorem get?_mem {α : Type} {d : Dict String α} (hn : (d.map (·.1)).Nodup) {k : String} {v : α} : d.get? k = some v ↔ (k, v) ∈ d := by
  induction d with
  | nil => simp [Dict.get?]
  | cons a d ih =>
    obtain ⟨k', v'⟩ := a
    simp only [List.map_cons, List.nodup_cons, List.mem_map, not_exists, not_and] at hn
    unfold Dict.get?
    by_cases h : k' = k
    · subst h
      rw [if_pos rfl]
      simp only [Option.some.injEq, List.mem_cons, Prod.mk.injEq, true_and]
      constructor
      · rintro rfl; left; rfl
      · rintro (rfl | h)
        · rfl
        · exact absurd rfl (hn.1 _ h)
    · rw [if_neg h, ih hn.2]
      simp only [List.mem_cons, Prod.mk.injEq]
      constructor
      · intro hh; right; exact hh
      · rintro (⟨rfl, _⟩ | hh)
        · exact absurd rfl h
        · exact hh

theorem has_iff {α : Type} {d : Dict String α} {k : String} : d.has k = true ↔ ∃ a ∈ d, a.1 = k := by
  induction d with
  | nil => simp [Dict.has, Dict.get?]
  | cons a d ih =>
    obtain ⟨k', v'⟩ := a
    unfold Dict.has at *
    rw [Dict.get?]
    by_cases h : k' = k
    · subst h; simp
    · rw [if_neg h, ih]; simp [h]

/-- what `series.min()` returns -/
theorem min_spec (l : List Cell) (a : Option Cell) (ha : ∀ c, a = some c → (∃ q, c = .num q) ∨ c = .posInf ∨ c = .negInf) :
    (match l.foldl minCell a with
      | some (.num q) => ¬ q < 0
      | some .negInf => False
      | _ => True) ↔ (∀ x ∈ l, ¬ x.Negative) ∧ ∀ c, a = some c → ¬ c.Negative := by
  induction l generalizing a with
  | nil =>
    cases a with
    | none => simp
    | some c =>
      rcases ha c rfl with ⟨q, rfl⟩ | rfl | rfl <;> simp [Cell.Negative]
  | cons b l ih =>
    rw [List.foldl_cons, ih]
    · simp only [List.mem_cons, forall_eq_or_imp]
      cases a with
      | none => cases b <;> simp [minCell, Cell.Negative] <;> tauto
      | some c =>
        rcases ha c rfl with ⟨q, rfl⟩ | rfl | rfl <;> cases b <;> simp [minCell, Cell.Negative] <;> tauto
    · intro c hc
      cases a with
      | none => cases b <;> simp [minCell] at hc <;> subst hc <;> simp
      | some c' =>
        rcases ha c' rfl with ⟨q, rfl⟩ | rfl | rfl <;> cases b <;> simp [minCell] at hc <;> subst hc <;> simp

theorem column_iff {c : SeriesSchema} {s : Series} : c.validate s = none ↔ ColumnOk c s := by
  have h1 : checkType c.kind s = none ↔ (match c.kind with
      | .str => ∀ x ∈ s.cells, ∃ t, x = .str t
      | .callable => ∀ x ∈ s.cells, ∃ t, x = .fn t
      | .dtype d => s.dtype = d) := by
    unfold checkType
    cases c.kind with
    | str =>
      simp only [ite_none, List.all_eq_true]
      refine forall₂_congr fun x _ => ?_
      cases x <;> simp [Cell.isStr]
    | callable =>
      simp only [ite_none, List.all_eq_true]
      refine forall₂_congr fun x _ => ?_
      cases x <;> simp [Cell.isFn]
    | dtype d => simp only [ite_none', not_not]; exact eq_comm
  have h2 : checkAllowed c.allowed s = none ↔ ∀ vs, c.allowed = some vs → ∀ x ∈ s.cells, x ∈ vs := by
    unfold checkAllowed
    cases c.allowed with
    | none => simp
    | some vs => simp [ite_none]
  have h3 : checkReal c.real s = none ↔ (c.real = true → ∀ x ∈ s.cells, x.Real) := by
    unfold checkReal
    cases c.real with
    | false => simp
    | true =>
      simp only [if_true, forall_true_left]
      constructor
      · intro h x hx
        split at h
        · cases h
        · rename_i h1
          split at h
          · cases h
          · rename_i h2
            split at h
            · cases h
            · rename_i h3
              simp only [List.any_eq_true, not_exists, not_and] at h3
              have h3 := h3 x hx
              refine ⟨fun e => h1 (e ▸ hx), fun e => h2 (e ▸ hx), fun e => h3 (by rw [e]; rfl), fun e => h3 (by rw [e]; rfl)⟩
      · intro h
        rw [if_neg (fun hh => (h _ hh).1 rfl), if_neg (fun hh => (h _ hh).2.1 rfl), if_neg]
        simp only [List.any_eq_true, not_exists, not_and]
        intro x hx hn
        have := h x hx
        cases x <;> simp [Cell.isNull] at hn
        · exact this.2.2.1 rfl
        · exact this.2.2.2 rfl
  have h4 : checkNotNeg c.notNeg s = none ↔ (c.notNeg = true → ∀ x ∈ s.cells, ¬ x.Negative) := by
    unfold checkNotNeg
    cases c.notNeg with
    | false => simp
    | true =>
      simp only [if_true, forall_true_left]
      have := min_spec s.cells none (by simp)
      simp only [reduceCtorEq, false_imp_iff, implies_true, and_true] at this
      rw [← this]
      unfold seriesMin
      split <;> simp_all
  unfold SeriesSchema.validate
  rw [orElse_none, orElse_none, orElse_none, h1, h2, h3, h4]
  exact ⟨fun ⟨a, b, c, d⟩ => ⟨a, b, c, d⟩, fun ⟨a, b, c, d⟩ => ⟨a, b, c, d⟩⟩

theorem dropDup_length_iff {α : Type} [DecidableEq α] (l : List α) : l.length = (dropDup id l).length ↔ l.Nodup := by
  constructor
  · intro h
    have := (dropDup_sublist id l).eq_of_length h.symm
    have h2 := dropDup_nodup id l
    rw [this] at h2
    simpa using h2
  · intro h
    rw [dropDup_of_nodup (by simpa using h)]

/-- **C35** A table with unique column names passes validation exactly if it is well formed for the schema.
Missing: price bids are not checked to be non decreasing, see `C35_monotone_negation`. -/
theorem C35_accepts_iff_partial (s : Schema) (f : Frame) (hf : f.Regular) :
    s.validate f = none ↔ WellFormed s f := by
  have hcol : ∀ c ∈ f.cols, f.col? c.1 = some c.2 := fun c hc => (get?_mem hf.1).2 hc
  have h1 : (firstErr (f.cols.map (·.1)) (fun n => if s.columns.has n then none else some .unexpectedColumn)) = none ↔
      ∀ c ∈ f.cols, ∃ d ∈ s.columns, d.1 = c.1 := by
    rw [firstErr_none]
    simp only [List.mem_map, forall_exists_index, and_imp, forall_apply_eq_imp_iff₂, ite_none, has_iff]
  have h2 : (firstErr s.required (fun n => if n ∈ f.cols.map (·.1) then none else some .missingColumn)) = none ↔
      ∀ n ∈ s.required, ∃ c ∈ f.cols, c.1 = n := by
    rw [firstErr_none]
    simp only [ite_none, List.mem_map]
  have h3 : (firstErr s.columns f.checkCol) = none ↔ ∀ d ∈ s.columns, ∀ c ∈ f.cols, c.1 = d.1 → ColumnOk d.2 c.2 := by
    rw [firstErr_none]
    refine forall₂_congr fun d _ => ?_
    unfold Frame.checkCol
    cases hg : f.col? d.1 with
    | none =>
      simp only [true_iff]
      intro c hc hcd
      have := hcol c hc
      rw [hcd, hg] at this
      cases this
    | some col =>
      simp only [column_iff]
      have hm := (get?_mem hf.1).1 hg
      constructor
      · intro h c hc hcd
        have := hcol c hc
        rw [hcd, hg] at this
        injection this with this
        rw [← this]; exact h
      · intro h; exact h _ hm rfl
  have h4 : s.checkRepeated f = none ↔ ∀ ks, s.keys = some ks → ∀ i j, i < f.size → j < f.size →
      (∀ k ∈ ks, ∀ c ∈ f.cols, c.1 = k → c.2.cells[i]? = c.2.cells[j]?) → i = j := by
    unfold Schema.checkRepeated
    cases s.keys with
    | none => simp
    | some ks =>
      simp only [ite_none', not_not, Option.some.injEq, forall_eq']
      have hl : (f.keyRows (ks.filter (fun k => decide (k ∈ f.cols.map (·.1))))).length = f.size := by
        simp [Frame.keyRows]
      conv_lhs => lhs; rw [← hl]
      rw [dropDup_length_iff]
      unfold Frame.keyRows
      have key : ∀ i j, i < f.size → j < f.size →
          (((ks.filter (fun k => decide (k ∈ f.cols.map (·.1)))).map (fun k => ((f.col? k).bind (fun s => s.cells[i]?)).getD Cell.nan) =
            (ks.filter (fun k => decide (k ∈ f.cols.map (·.1)))).map (fun k => ((f.col? k).bind (fun s => s.cells[j]?)).getD Cell.nan)) ↔
          ∀ k ∈ ks, ∀ c ∈ f.cols, c.1 = k → c.2.cells[i]? = c.2.cells[j]?) := by
        intro i j hi hj
        rw [List.map_inj_left]
        simp only [List.mem_filter, decide_eq_true_eq, List.mem_map, and_imp, forall_exists_index]
        constructor
        · intro h k hk c hc hck
          have := h k hk c hc hck
          subst hck
          rw [hcol c hc] at this
          have li := hf.2 c hc
          rw [Option.bind_some, Option.bind_some, List.getElem?_eq_getElem (by omega), List.getElem?_eq_getElem (by omega)] at this
          rw [List.getElem?_eq_getElem (by omega), List.getElem?_eq_getElem (by omega)]
          simpa using this
        · intro h k hk c hc hck
          have := h k hk c hc hck
          subst hck
          rw [hcol c hc, Option.bind_some, Option.bind_some, this]
      constructor
      · intro h i j hi hj hh
        have := List.Nodup.of_map _ h
        exact (List.inj_on_of_nodup_map h) (List.mem_range.2 hi) (List.mem_range.2 hj) ((key i j hi hj).2 hh)
      · intro h
        refine List.Nodup.map_on ?_ List.nodup_range
        intro i hi j hj hh
        exact h i j (List.mem_range.1 hi) (List.mem_range.1 hj) ((key i j (List.mem_range.1 hi) (List.mem_range.1 hj)).1 hh)
  unfold Schema.validate
  rw [orElse_none, orElse_none, orElse_none, h1, h2, h3, h4]
  exact ⟨fun ⟨a, b, c, d⟩ => ⟨a, b, c, d⟩, fun ⟨a, b, c, d⟩ => ⟨a, b, c, d⟩⟩

/-- a price bid table with three bands -/
def priceFrame (a b c : ℚ) : Frame where
  size := 2
  cols := [("unit", ⟨.object, [.str "A", .str "B"]⟩), ("1", ⟨.float64, [.num a, .num 20]⟩), ("2", ⟨.float64, [.num b, .num 30]⟩),
    ("3", ⟨.float64, [.num c, .num 40]⟩)]

/-- an instance: a table that passes, and tables rejected for each reason -/
example : (priceBidsSchema ["A", "B"] false).validate (priceFrame 10 20 30) = none ∧ (priceFrame 10 20 30).Regular ∧
    (priceBidsSchema ["A"] false).validate (priceFrame 10 20 30) = some .columnValues ∧
    (priceBidsSchema ["A", "B"] true).validate (priceFrame 10 20 30) = some .missingColumn ∧
    (demandSchema ["A"]).validate (priceFrame 10 20 30) = some .unexpectedColumn ∧
    (volumeBidsSchema ["A", "B"] false).validate (priceFrame 10 (-20) 30) = some .columnValues ∧
    (demandSchema ["NSW"]).validate ⟨2, [("region", ⟨.object, [.str "NSW", .str "NSW"]⟩), ("demand", ⟨.float64, [.num 1, .num 2]⟩)]⟩ = some .repeatedRow ∧
    (demandSchema ["NSW"]).validate ⟨1, [("region", ⟨.object, [.str "NSW"]⟩), ("demand", ⟨.int64, [.num 1]⟩)]⟩ = some .columnDataType := by
  refine ⟨?_, ⟨?_, ?_⟩, ?_⟩ <;> decide +kernel

/-- **C35** Price bids are not checked to be non decreasing over the bands although the schema asks for it. -/
theorem C35_monotone_negation : (priceBidsSchema ["A", "B"] false).monotone = some ("1" :: laterBands) ∧
    (priceBidsSchema ["A", "B"] false).validate (priceFrame 30 20 10) = none ∧ ¬ NonDecreasing ("1" :: laterBands) (priceFrame 30 20 10) := by
  refine ⟨by decide +kernel, by decide +kernel, ?_⟩
  intro h
  have h := h 0 (by decide)
  have e : ((("1" :: laterBands).filterMap (priceFrame 30 20 10).col?).filterMap (fun s => s.cells[0]?)) = [.num 30, .num 20, .num 10] := by
    decide +kernel
  rw [e] at h
  have := (List.pairwise_cons.1 h).1 (.num 20) (by simp) 30 20 rfl rfl
  norm_num at this

end Verif.Validator
