import Verif.Proofs.RpnRun
import Mathlib.Tactic.NormNum

/-! # Properties C50, C51 and C52: evaluating right hand side equations -/

namespace Verif.Rpn

/-! ## C50 -/

theorem evalAll_sum {sqrt : ℚ → ℚ} {eq : List Term} (h : ∀ t ∈ eq, t.op = none ∧ t.typ ≠ .U ∧ t.typ ≠ .B) (a : ℚ) (s : Stack) (f : Bool) :
    evalAll sqrt eq (f, a :: s) = .ok (f, (a + (eq.map (fun t => t.mult * t.value.getD 1)).sum) :: s) := by
  induction eq generalizing a with
  | nil => simp [evalAll]
  | cons t eq ih =>
    obtain ⟨h1, h2, h3⟩ := h t (by simp)
    have : evalTerm sqrt f (a :: s) t = .ok (f, (a + t.mult * t.value.getD 1) :: s) := by
      unfold evalTerm
      rw [if_neg (fun hx => h2 hx.1), if_neg h3, h1]
      simp only [noOperator, List.length_cons, Nat.add_one_ne_zero, if_false, top, bind, Except.bind]
      cases t.value <;> simp [keep, Except.map, setTop]
    rw [evalAll]
    simp only [this, Except.bind]
    rw [ih (fun u hu => h u (by simp [hu]))]
    simp [add_assoc]

/-- **C50**.  An equation whose terms have no operator and are in no group evaluates to the sum of multiplier times value; a
term without a value counts its multiplier (AEMO's constants). -/
theorem C50_weighted_sum (sqrt : ℚ → ℚ) (eq : List Term) (hp : Plain eq) (ho : ∀ t ∈ eq, t.op = none ∧ t.typ ≠ .U) :
    rpnCalc sqrt eq = .ok ((eq.map (fun t => t.mult * t.value.getD 1)).sum) := by
  rw [rpnCalc_plain (fun t ht => ⟨(hp t ht).1, (hp t ht).2.1⟩),
    evalAll_sum (fun t ht => ⟨(ho t ht).1, (ho t ht).2, (hp t ht).2.2⟩)]
  simp [Except.bind, top]

/-- a generator measurement, a constant and a line flow -/
example : Plain [{ id := "A", typ := .A, mult := 2, value := some 50 }, { typ := .C, mult := 100 }, { id := "B", typ := .S, mult := -1, value := some 30 }] ∧
    rpnCalc id [{ id := "A", typ := .A, mult := 2, value := some 50 }, { typ := .C, mult := 100 }, { id := "B", typ := .S, mult := -1, value := some 30 }] = .ok 170 := by
  refine ⟨?_, by decide +kernel⟩
  unfold Plain
  decide

/-! ## C51 -/

theorem runs_evalAll {sqrt : ℚ → ℚ} {eq : List Term} {p q : Bool × Stack} (hb : ∀ t ∈ eq, t.typ ≠ .B) (hc : ∀ t ∈ eq, t.Backed)
    (h : Runs sqrt eq p q) : evalAll sqrt eq p = .ok q := by
  induction h with
  | done => rfl
  | next hd _ ih =>
    rw [evalAll, does_eval (hb _ (by simp)) (hc _ (by simp)) hd]
    exact ih (fun t ht => hb t (by simp [ht])) (fun t ht => hc t (by simp [ht]))

theorem evalAll_runs {sqrt : ℚ → ℚ} (eq : List Term) : ∀ (p q : Bool × Stack), (∀ t ∈ eq, t.typ ≠ .B) → (∀ t ∈ eq, t.Defined) →
    evalAll sqrt eq p = .ok q →
    Runs sqrt eq p q ∨ ∃ pre t post r, eq = pre ++ t :: post ∧ Runs sqrt pre p r ∧ Tolerated t r := by
  induction eq with
  | nil => intro p q _ _ h; injection h with h; subst h; exact Or.inl .done
  | cons t eq ih =>
    intro p q hb hd h
    rw [evalAll] at h
    obtain ⟨r, hr, h⟩ := bind_ok.1 h
    by_cases ht : Tolerated t p
    · exact Or.inr ⟨[], t, eq, p, rfl, .done, ht⟩
    · have hdo := eval_does (hb t (by simp)) (hd t (by simp)) (fun h1 h2 => ht (Or.inr ⟨h2, h1⟩)) (fun h1 => ht (Or.inl h1)) hr
      rcases ih r q (fun u hu => hb u (by simp [hu])) (fun u hu => hd u (by simp [hu])) h with h | ⟨pre, u, post, r', h1, h2, h3⟩
      · exact Or.inl (.next hdo h)
      · exact Or.inr ⟨t :: pre, u, post, r', by rw [h1]; rfl, .next hdo h2, h3⟩

/-- **C51**, machine to calculator.  Whenever the stack machine of the guidelines runs through an equation without groups, the
calculator returns the number it leaves on top of the stack. -/
theorem C51_follows_machine (sqrt : ℚ → ℚ) (eq : List Term) (hp : Plain eq) (hc : ∀ t ∈ eq, t.Backed) (f : Bool) (v : ℚ) (s : Stack)
    (h : Runs sqrt eq (false, [0]) (f, v :: s)) : rpnCalc sqrt eq = .ok v := by
  rw [rpnCalc_plain (fun t ht => ⟨(hp t ht).1, (hp t ht).2.1⟩), runs_evalAll (fun t ht => (hp t ht).2.2) hc h]
  rfl

/-- **C51**, calculator to machine.  If the calculator returns a number for an equation without groups, then the machine of the
guidelines runs through the equation and leaves this number on top of the stack, unless the machine reaches a term it
cannot execute and the code tolerates (see `Tolerated`). -/
theorem C51_only_machine_partial (sqrt : ℚ → ℚ) (eq : List Term) (hp : Plain eq) (hd : ∀ t ∈ eq, t.Defined) (v : ℚ) (h : rpnCalc sqrt eq = .ok v) :
    (∃ f s, Runs sqrt eq (false, [0]) (f, v :: s)) ∨
      ∃ pre t post r, eq = pre ++ t :: post ∧ Runs sqrt pre (false, [0]) r ∧ Tolerated t r := by
  rw [rpnCalc_plain (fun t ht => ⟨(hp t ht).1, (hp t ht).2.1⟩)] at h
  obtain ⟨⟨f, s⟩, h1, h2⟩ := bind_ok.1 h
  obtain ⟨s, rfl⟩ := top_ok.1 h2
  rcases evalAll_runs eq _ _ (fun t ht => (hp t ht).2.2) hd h1 with h | h
  · exact Or.inl ⟨f, s, h⟩
  · exact Or.inr h

/-- **C51**, short stacks.  An operation on two stack elements other than addition raises ValueError when there is only one, wherever
it is in the equation. -/
theorem C51_short_stack (sqrt : ℚ → ℚ) (pre post : List Term) (t : Term) (hp : Plain (pre ++ t :: post)) (hc : ∀ u ∈ pre, u.Backed)
    (ht : t.NeedsTwo) (ha : t.op ≠ some .add) (f : Bool) (s : Stack) (hs : s.length < 2) (h : Runs sqrt pre (false, [0]) (f, s)) :
    rpnCalc sqrt (pre ++ t :: post) = .error .valueError := by
  rw [rpnCalc_plain (fun t ht => ⟨(hp t ht).1, (hp t ht).2.1⟩)]
  have hpre := runs_evalAll (fun u hu => (hp u (by simp [hu])).2.2) hc h
  have happ : ∀ (l m : List Term) (p : Bool × Stack), evalAll sqrt (l ++ m) p = (evalAll sqrt l p).bind (evalAll sqrt m) := by
    intro l
    induction l with
    | nil => intro m p; rfl
    | cons a l ih =>
      intro m p
      rw [List.cons_append, evalAll, evalAll]
      cases evalTerm sqrt p.1 p.2 a with
      | error e => rfl
      | ok r => exact ih m r
  rw [happ, hpre]
  have hB : t.typ ≠ .B := (hp t (by simp)).2.2
  have : evalTerm sqrt f s t = .error .valueError := by
    obtain ⟨hU, ho⟩ := ht
    unfold evalTerm
    rw [if_neg (by rintro ⟨-, -, h⟩; rw [h] at ho; simp at ho), if_neg hB]
    rcases ho with ho | ho | ho | ho | ho | ho | ho | ho | ho <;>
      first
      | exact absurd ho ha
      | simp only [ho, hU, if_true, onStack, divideOnStack, exchange, rollDown, rollUp, hs, keep, Except.map]
  simp only [Except.bind, evalAll, this]

/-- the top of the stack is measured flow times two, minus an offset kept below it; then subtraction without a second element -/
example : Runs id [{ id := "A", typ := .A, mult := 2, value := some 50 }, { typ := .C, op := some .push, mult := 7 }, { typ := .U, op := some .sub, mult := 3 }]
      (false, [0]) (false, [279]) ∧
    rpnCalc id [{ id := "A", typ := .A, mult := 2, value := some 50 }, { typ := .C, op := some .push, mult := 7 }, { typ := .U, op := some .sub, mult := 3 }] = .ok 279 ∧
    rpnCalc id [{ id := "A", typ := .A, mult := 2, value := some 50 }, { typ := .U, op := some .sub, mult := 3 }] = .error .valueError := by
  refine ⟨?_, by decide +kernel, by decide +kernel⟩
  refine .next (q := (false, [100])) ?_ (.next (q := (false, [7, 100])) ?_ (.next (q := (false, [279])) ?_ .done))
  · have := Does.sum (sqrt := id) (t := { id := "A", typ := .A, mult := 2, value := some 50 }) (f := false) (a := 0) (s := []) rfl rfl
    norm_num at this; exact this
  · exact Does.pushC rfl rfl
  · have := Does.binU (sqrt := id) (t := { typ := .U, op := some .sub, mult := 3 }) (f := false) (a := 7) (b := 100) (s := []) rfl .sub rfl
    norm_num at this; exact this

/-- **C51 fails for addition.**  The documentation says that an operator needing two elements raises when there is one; the type
U addition only multiplies the single element with the multiplier. -/
theorem C51_add_negation : Term.NeedsTwo { typ := .U, op := some .add, mult := 3 } ∧
    rpnCalc id [{ id := "A", typ := .A, mult := 1, value := some 5 }, { typ := .U, op := some .add, mult := 3 }] = .ok 15 := by
  refine ⟨⟨rfl, Or.inl rfl⟩, by decide +kernel⟩

/-- **C51 fails for constants.**  The machine adds the constant 4 to the top of the stack; the code looks for a value it does not
need and raises KeyError. -/
theorem C51_constant_negation :
    Runs id [{ id := "A", typ := .A, mult := 1, value := some 5 }, { typ := .C, op := some .add, mult := 4 }] (false, [0]) (false, [9]) ∧
    rpnCalc id [{ id := "A", typ := .A, mult := 1, value := some 5 }, { typ := .C, op := some .add, mult := 4 }] = .error .keyError := by
  refine ⟨?_, by decide +kernel⟩
  refine .next (q := (false, [5])) ?_ (.next (q := (false, [9])) ?_ .done)
  · have := Does.sum (sqrt := id) (t := { id := "A", typ := .A, mult := 1, value := some 5 }) (f := false) (a := 0) (s := []) rfl rfl
    norm_num at this; exact this
  · have := Does.binC (sqrt := id) (t := { typ := .C, op := some .add, mult := 4 }) (f := false) (a := 5) (s := []) rfl .add rfl
    norm_num at this; exact this

/-! ## C52 -/

/-- **C52**.  An equation with groups, each headed or followed by its header, evaluates as the equation where each header is
an ordinary term with the value of the group evaluated on its own and the members are removed.  Groups may contain further
groups, to any depth: the theorem applies again to the members.  Missing: headers that carry the name of their own group
(`C52_tagged_header_negation`), groups that end with a group and do not begin with the header of a group
(`C52_nested_last_negation`), and groups without a header (`C52_last_group_negation`). -/
theorem C52_groups_partial (sqrt : ℚ → ℚ) (items : List Item) (hv : ∀ it ∈ items, it.Valid sqrt) (hn : Apart items) :
    rpnCalc sqrt (items.flatMap Item.terms) = rpnCalc sqrt (items.map Item.collapse) :=
  rpn_items hv hn

/-- 3·(2·5 + 4·(1 + 1) + 1) + 2·(1 + 1) + 7: a headed group with a group inside it, and a group followed by its header -/
example : ∃ items : List Item, (∀ it ∈ items, it.Valid id) ∧ Apart items ∧
    items.flatMap Item.terms = [{ id := "H1", typ := .G, mult := 3 }, { id := "A", typ := .A, mult := 2, value := some 5, group := some "g1" },
      { id := "H3", typ := .G, mult := 4, group := some "g1" }, { typ := .C, mult := 1, group := some "g3" }, { typ := .C, mult := 1, group := some "g3" },
      { typ := .C, mult := 1, group := some "g1" }, { id := "B", typ := .S, mult := 1, value := some 1, group := some "g2" },
      { id := "D", typ := .S, mult := 1, value := some 1, group := some "g2" }, { id := "H2", typ := .G, mult := 2 }, { typ := .C, mult := 7 }] ∧
    rpnCalc id (items.flatMap Item.terms) = .ok 68 := by
  refine ⟨[.lead { id := "H1", typ := .G, mult := 3 } "g1" [{ id := "A", typ := .A, mult := 2, value := some 5 }, { id := "H3", typ := .G, mult := 4 },
      { typ := .C, mult := 1, group := some "g3" }, { typ := .C, mult := 1, group := some "g3" }, { typ := .C, mult := 1 }] 19,
    .trail "g2" [{ id := "B", typ := .S, mult := 1, value := some 1 }, { id := "D", typ := .S, mult := 1, value := some 1 }] { id := "H2", typ := .G, mult := 2 } 2,
    .term { typ := .C, mult := 7 }], ?_, ?_, by decide +kernel, by decide +kernel⟩
  · intro it hit
    simp only [List.mem_cons, List.not_mem_nil, or_false] at hit
    rcases hit with rfl | rfl | rfl
    · exact ⟨rfl, rfl, Or.inl ⟨⟨_, rfl, rfl, by decide⟩, ⟨_, rfl, rfl⟩, by decide⟩, by decide +kernel⟩
    · exact ⟨rfl, rfl, ⟨⟨_, rfl, rfl, by decide⟩, ⟨_, rfl, rfl⟩, by decide⟩, by decide +kernel⟩
    · exact ⟨rfl, by decide⟩
  · unfold Apart; decide

/-- 3·(4·(2·5) + 6·(5·(1 + 2))) + 7: a group that begins with a group and ends with a group which itself ends with a group -/
example : ∃ items : List Item, (∀ it ∈ items, it.Valid id) ∧ Apart items ∧
    items.flatMap Item.terms = [{ id := "H1", typ := .G, mult := 3 }, { id := "H2", typ := .G, mult := 4, group := some "g1" },
      { id := "A", typ := .A, mult := 2, value := some 5, group := some "g2" }, { id := "H3", typ := .G, mult := 6, group := some "g1" },
      { id := "H4", typ := .G, mult := 5, group := some "g3" }, { typ := .C, mult := 1, group := some "g4" }, { typ := .C, mult := 2, group := some "g4" },
      { typ := .C, mult := 7 }] ∧
    rpnCalc id (items.flatMap Item.terms) = .ok 397 := by
  refine ⟨[.lead { id := "H1", typ := .G, mult := 3 } "g1" [{ id := "H2", typ := .G, mult := 4 },
      { id := "A", typ := .A, mult := 2, value := some 5, group := some "g2" }, { id := "H3", typ := .G, mult := 6 },
      { id := "H4", typ := .G, mult := 5, group := some "g3" }, { typ := .C, mult := 1, group := some "g4" }, { typ := .C, mult := 2, group := some "g4" }] 130,
    .term { typ := .C, mult := 7 }], ?_, ?_, by decide +kernel, by decide +kernel⟩
  · intro it hit
    simp only [List.mem_cons, List.not_mem_nil, or_false] at hit
    rcases hit with rfl | rfl
    · refine ⟨rfl, rfl, Or.inr ⟨⟨_, rfl, rfl, by decide⟩, ⟨_, rfl, by decide⟩, by decide, [{ id := "H2", typ := .G, mult := 4 },
        { id := "A", typ := .A, mult := 2, value := some 5, group := some "g2" }], { id := "H3", typ := .G, mult := 6 },
        [{ id := "H4", typ := .G, mult := 5, group := some "g3" }, { typ := .C, mult := 1, group := some "g4" }, { typ := .C, mult := 2, group := some "g4" }],
        rfl, rfl, by decide, by simp⟩, by decide +kernel⟩
    · exact ⟨rfl, by decide⟩
  · unfold Apart; decide

/-- **C52 fails when the header carries the name of its group.**  The group 2·5 with multiplier 3 should contribute 30, but the
header is skipped as a member of the group and the equation gives 7. -/
theorem C52_tagged_header_negation :
    rpnCalc id [{ id := "H", typ := .G, mult := 3, group := some "g" }, { id := "A", typ := .A, mult := 2, value := some 5, group := some "g" }, { typ := .C, mult := 7 }] = .ok 7 ∧
    rpnCalc id [{ id := "H", typ := .A, mult := 3, value := some 10 }, { typ := .C, mult := 7 }] = .ok 37 := by
  constructor <;> decide +kernel

/-- **C52 fails for a group at the end of the equation that has no header.**  The code looks at the term behind the group and raises
IndexError; before another term the same group is simply added. -/
theorem C52_last_group_negation :
    rpnCalc id [{ typ := .C, mult := 7 }, { id := "A", typ := .A, mult := 2, value := some 5, group := some "g" }] = .error .indexError ∧
    rpnCalc id [{ id := "A", typ := .A, mult := 2, value := some 5, group := some "g" }, { typ := .C, mult := 7 }] = .ok 17 := by
  constructor <;> decide +kernel

/-- **C52 fails when a group ends with a group.**  3·(2·5 + 4·1) + 7 should be 49, but the members of the inner group at the end
are not collected with the outer group and its header has nothing behind it: IndexError. -/
theorem C52_nested_last_negation :
    rpnCalc id [{ id := "H1", typ := .G, mult := 3 }, { id := "A", typ := .A, mult := 2, value := some 5, group := some "g1" },
      { id := "H2", typ := .G, mult := 4, group := some "g1" }, { typ := .C, mult := 1, group := some "g2" }, { typ := .C, mult := 7 }] = .error .indexError ∧
    rpnCalc id [{ id := "H1", typ := .G, mult := 3 }, { id := "H2", typ := .G, mult := 4, group := some "g1" }, { typ := .C, mult := 1, group := some "g2" },
      { id := "A", typ := .A, mult := 2, value := some 5, group := some "g1" }, { typ := .C, mult := 7 }] = .ok 49 := by
  constructor <;> decide +kernel

end Verif.Rpn
