import Verif.Spec.Rpn
import Mathlib.Tactic.Linarith

/-! # Lemmas on the right hand side calculator -/

namespace Verif.Rpn

theorem known_default {t : Term} {v : ℚ} : t.Known v ↔ defaultIfNeeded t = .ok v := by
  unfold Term.Known defaultIfNeeded
  cases t.value <;> cases t.dflt <;> simp

theorem rollDown_ok {a b : ℚ} {s : Stack} {t : Term} : rollDown (a :: s ++ [b]) t = .ok (b * t.mult :: a :: s) := by
  unfold rollDown
  rw [if_neg (by simp)]
  rw [List.getLast?_append, List.dropLast_concat]
  simp

theorem two_le (s : Stack) : ¬ s.length + 1 + 1 < 2 := by omega

theorem does_eval {sqrt : ℚ → ℚ} {t : Term} {p q : Bool × Stack} (hb : t.typ ≠ .B) (hc : t.Backed) (h : Does sqrt t p q) :
    evalTerm sqrt p.1 p.2 t = .ok q := by
  cases h with
  | sum h1 h2 => simp [evalTerm, h1, h2, hb, keep, noOperator, top, setTop, Except.map, bind, Except.bind]
  | const h1 h2 h3 => simp [evalTerm, h1, h2, h3, hb, keep, noOperator, top, setTop, Except.map, bind, Except.bind]
  | scale h1 h2 h3 => simp [evalTerm, h1, h2, h3, keep, typeUNoOperator, top, setTop, Except.map, bind, Except.bind]
  | @stepU f a s h1 h2 =>
    by_cases h : 0 < a <;>
    simp [evalTerm, h1, h2, h, keep, stepOp, top, setTop, Except.map, bind, Except.bind]
  | @stepV f a s v h1 h2 h3 =>
    rw [known_default] at h3
    by_cases h : 0 < v <;>
    simp [evalTerm, h1, h2, h3, h, hb, keep, stepOp, Except.map, bind, Except.bind]
  | unU h1 h2 h3 => cases h2 <;> simp [evalTerm, h1, h3, keep, unary, top, setTop, Except.map, bind, Except.bind]
  | unC h1 h2 h3 => cases h2 <;> simp [evalTerm, h1, h3, keep, unary, top, setTop, Except.map, bind, Except.bind]
  | unV h1 h2 h3 h4 h5 => cases h2 <;> simp [evalTerm, h1, h3, h4, h5, hb, keep, unary, valueOf, top, setTop, Except.map, bind, Except.bind]
  | binU h1 h2 h3 =>
    cases h2 <;> simp [evalTerm, h1, h3, keep, addOnStack, onStack, Except.map, two_le]
    left; rw [add_comm]
  | binC h1 h2 h3 =>
    have : ∃ v, defaultIfNeeded t = .ok v := by
      simp only [← known_default]
      apply hc h3
      cases h2 <;> simp [h1]
    obtain ⟨v, hv⟩ := this
    cases h2 <;> simp [evalTerm, h1, h3, hv, keep, withTop, top, Except.map, bind, Except.bind, add_comm, mul_comm, max_comm, min_comm]
  | binV h1 h2 h3 h4 h5 =>
    rw [known_default] at h5
    cases h2 <;> simp [evalTerm, h1, h3, h4, h5, hb, keep, withTop, top, Except.map, bind, Except.bind, add_comm, mul_comm, max_comm, min_comm]
  | divU h1 h2 h3 => simp [evalTerm, h1, h2, h3, keep, divideOnStack, Except.map, two_le]
  | divC h1 h2 h3 =>
    obtain ⟨v, hv⟩ := hc h2 (by simp [h1])
    rw [known_default] at hv
    simp [evalTerm, h1, h2, h3, hv, keep, divide, top, Except.map, bind, Except.bind]
  | divV h1 h2 h3 h4 h5 =>
    rw [known_default] at h4
    simp [evalTerm, h1, h2, h3, h4, h5, hb, keep, divide, top, Except.map, bind, Except.bind]
  | pushC h1 h2 => simp [evalTerm, h1, h2, keep, push, Except.map]
  | pushV h1 h2 h3 =>
    rw [known_default] at h3
    simp [evalTerm, h1, h2, h3, hb, keep, push, Except.map, bind, Except.bind]
  | dup h1 h2 => simp [evalTerm, h1, h2, keep, duplicate, top, Except.map, bind, Except.bind]
  | exch h1 h2 => simp [evalTerm, h1, h2, keep, exchange, swapTop, Except.map, two_le]
  | @rsd f a s b h1 h2 =>
    have := @rollDown_ok a b s t
    simp only [List.cons_append] at this
    simp [evalTerm, h1, h2, keep, this, Except.map]
  | rsu h1 h2 => simp [evalTerm, h1, h2, keep, rollUp, Except.map, two_le]
  | popU h1 h2 => simp [evalTerm, h1, h2, stackPop]
  | popV h1 h2 h3 => simp [evalTerm, h1, h2, h3, hb, stackPop, valueOf, bind, Except.bind]
  | exlez h1 h2 => simp [evalTerm, h1, h2, exchangeIfLessThanZero, swapTop]
  | noExlez h1 h2 => simp [evalTerm, h1, h2]

theorem map_ok {α β : Type} {r : Except RErr α} {f : α → β} {q : β} : r.map f = .ok q ↔ ∃ a, r = .ok a ∧ q = f a := by
  cases r <;> simp [Except.map, eq_comm]

theorem bind_ok {α β : Type} {r : Except RErr α} {f : α → Except RErr β} {q : β} : (r >>= f) = .ok q ↔ ∃ a, r = .ok a ∧ f a = .ok q := by
  cases r <;> simp [bind, Except.bind]

theorem top_ok {s : Stack} {a : ℚ} : top s = .ok a ↔ ∃ r, s = a :: r := by
  cases s <;> simp [top, eq_comm]

theorem keep_ok {f : Bool} {r : Except RErr Stack} {q : Bool × Stack} : keep f r = .ok q ↔ ∃ s, r = .ok s ∧ q = (f, s) := map_ok

theorem withTop_does {sqrt : ℚ → ℚ} {t : Term} {f : Bool} {s : Stack} {q : Bool × Stack} {o : Op} {g : ℚ → ℚ → ℚ} {g' : ℚ → ℚ → ℚ}
    (ho : t.op = some o) (hg : Binary o g) (hg' : ∀ a v, g' a v = g a v) (hU : t.typ ≠ .U) (h : keep f (withTop g' s t) = .ok q) :
    Does sqrt t (f, s) q := by
  have : g' = g := by funext a v; exact hg' a v
  subst this
  obtain ⟨s', h', rfl⟩ := keep_ok.1 h
  clear h; have h := h'; clear h'
  unfold withTop at h
  obtain ⟨v, hv, h⟩ := bind_ok.1 h
  obtain ⟨a, ha, h⟩ := bind_ok.1 h
  obtain ⟨r, rfl⟩ := top_ok.1 ha
  split at h
  · rename_i hC
    injection h with h; subst h
    exact .binC ho hg hC
  · rename_i hC
    injection h with h; subst h
    exact .binV ho hg hU hC (known_default.2 hv)

theorem onStack_does {sqrt : ℚ → ℚ} {t : Term} {f : Bool} {s : Stack} {q : Bool × Stack} {o : Op} {g : ℚ → ℚ → ℚ}
    (ho : t.op = some o) (hg : Binary o g) (hU : t.typ = .U) (h : keep f (onStack g s t) = .ok q) : Does sqrt t (f, s) q := by
  obtain ⟨s', h', rfl⟩ := keep_ok.1 h
  clear h; have h := h'; clear h'
  unfold onStack at h
  split at h
  · cases h
  · split at h
    · injection h with h; subst h
      exact .binU ho hg hU
    · cases h

theorem unary_does {sqrt : ℚ → ℚ} {t : Term} {f : Bool} {s : Stack} {q : Bool × Stack} {o : Op} {g : ℚ → ℚ}
    (ho : t.op = some o) (hg : Unary sqrt o g) (h : keep f (unary g s t) = .ok q) : Does sqrt t (f, s) q := by
  obtain ⟨s', h', rfl⟩ := keep_ok.1 h
  clear h; have h := h'; clear h'
  unfold unary at h
  obtain ⟨a, ha, h⟩ := bind_ok.1 h
  obtain ⟨r, rfl⟩ := top_ok.1 ha
  split at h
  · rename_i hU
    injection h with h; subst h
    exact .unU ho hg hU
  · rename_i hU
    split at h
    · rename_i hC
      injection h with h; subst h
      exact .unC ho hg hC
    · rename_i hC
      obtain ⟨v, hv, h⟩ := bind_ok.1 h
      injection h with h; subst h
      have hv : t.value = some v := by
        unfold valueOf at hv
        cases hh : t.value <;> rw [hh] at hv <;> simp_all
      exact .unV ho hg hU hC hv

theorem neg_fun : (fun a : ℚ => -1 * a) = (fun a => -a) := by funext a; simp

theorem eval_does {sqrt : ℚ → ℚ} {t : Term} {p q : Bool × Stack} (hb : t.typ ≠ .B) (hd : t.Defined) (hs : t.op = none ∨ t.op = some .step → p.2 ≠ [])
    (hl : ¬ Lenient t p) (h : evalTerm sqrt p.1 p.2 t = .ok q) : Does sqrt t p q := by
  obtain ⟨f, s⟩ := p
  simp only at h hs
  unfold evalTerm at h
  split at h
  · rename_i hc
    obtain ⟨s', h', rfl⟩ := keep_ok.1 h
    clear h; have h := h'; clear h'
    unfold typeUNoOperator at h
    have := hs (Or.inl hc.2.2)
    rw [if_neg (by simpa using this)] at h
    obtain ⟨a, ha, h⟩ := bind_ok.1 h
    obtain ⟨r, rfl⟩ := top_ok.1 ha
    injection h with h; subst h
    exact .scale hc.2.2 hc.1 hc.2.1
  rename_i hU
  split at h
  · rename_i ho
    obtain ⟨s', h', rfl⟩ := keep_ok.1 h
    clear h; have h := h'; clear h'
    unfold noOperator at h
    have := hs (Or.inl ho)
    rw [if_neg (by simpa using this)] at h
    obtain ⟨a, ha, h⟩ := bind_ok.1 h
    obtain ⟨r, rfl⟩ := top_ok.1 ha
    split at h
    · rename_i v hv
      injection h with h; subst h
      exact .sum ho hv
    · rename_i hv
      injection h with h; subst h
      exact .const ho (fun e => hU ⟨e, hv, ho⟩) hv
  · rename_i ho
    split at h
    · rename_i hT
      obtain ⟨s', h', rfl⟩ := keep_ok.1 h
      clear h; have h := h'; clear h'
      unfold addOnStack at h
      split at h
      · rename_i hlen
        exact absurd ⟨hT, hlen, Or.inl ho⟩ hl
      · split at h
        · injection h with h; subst h
          rename_i a b s _
          have := @Does.binU sqrt t .add _ f a b s ho .add hT
          rw [add_comm a b]; exact this
        · cases h
    · rename_i hT
      exact withTop_does ho .add (fun a v => add_comm v a) hT h
  · rename_i ho
    split at h
    · rename_i hT; exact onStack_does ho .sub hT h
    · rename_i hT; exact withTop_does ho .sub (fun a v => rfl) hT h
  · rename_i ho
    split at h
    · rename_i hT; exact onStack_does ho .mul hT h
    · rename_i hT; exact withTop_does ho .mul (fun a v => mul_comm v a) hT h
  · rename_i ho
    obtain ⟨s', h', rfl⟩ := keep_ok.1 h
    clear h; have h := h'; clear h'
    split at h
    · rename_i hT
      unfold divideOnStack at h
      split at h
      · cases h
      · split at h
        · split at h
          · cases h
          · rename_i hne
            injection h with h; subst h
            exact .divU ho hT hne
        · cases h
    · rename_i hT
      unfold divide at h
      obtain ⟨v, hv, h⟩ := bind_ok.1 h
      obtain ⟨a, ha, h⟩ := bind_ok.1 h
      obtain ⟨r, rfl⟩ := top_ok.1 ha
      split at h
      · rename_i hC
        split at h
        · cases h
        · rename_i hne
          injection h with h; subst h
          exact .divC ho hC hne
      · rename_i hC
        split at h
        · cases h
        · rename_i hne
          injection h with h; subst h
          exact .divV ho hT hC (known_default.2 hv) hne
  · rename_i ho
    split at h
    · rename_i hT; exact onStack_does ho .max hT h
    · rename_i hT; exact withTop_does ho .max (fun a v => max_comm v a) hT h
  · rename_i ho
    split at h
    · rename_i hT; exact onStack_does ho .min hT h
    · rename_i hT; exact withTop_does ho .min (fun a v => min_comm v a) hT h
  · rename_i ho
    obtain ⟨s', h', rfl⟩ := keep_ok.1 h
    clear h; have h := h'; clear h'
    unfold stepOp at h
    split at h
    · rename_i hT
      obtain ⟨a, ha, h⟩ := bind_ok.1 h
      obtain ⟨r, rfl⟩ := top_ok.1 ha
      have := @Does.stepU sqrt t f a r ho hT
      split at h
      · rename_i hp
        injection h with h; subst h
        rw [if_pos hp] at this; exact this
      · rename_i hp
        injection h with h; subst h
        rw [if_neg hp] at this; exact this
    · rename_i hT
      obtain ⟨v, hv, h⟩ := bind_ok.1 h
      cases s with
      | nil => exact absurd rfl (hs (Or.inr ho))
      | cons a s =>
        injection h with h; subst h
        exact .stepV ho hT (known_default.2 hv)
  · rename_i ho; exact unary_does ho .pow2 h
  · rename_i ho; exact unary_does ho .pow3 h
  · rename_i ho; exact unary_does ho .sqrt h
  · rename_i ho; exact unary_does ho .abs h
  · rename_i ho; rw [neg_fun] at h; exact unary_does ho .neg h
  · rename_i ho
    obtain ⟨s', h', rfl⟩ := keep_ok.1 h
    clear h; have h := h'; clear h'
    unfold push at h
    split at h
    · rename_i hC
      obtain ⟨v, hv, h⟩ := bind_ok.1 h
      injection h with h; subst h
      exact .pushV ho hC (known_default.2 hv)
    · rename_i hC
      injection h with h; subst h
      exact .pushC ho (not_not.1 hC)
  · rename_i ho
    have hT := hd.2 (by simp [ho])
    rw [if_pos hT] at h
    obtain ⟨s', h', rfl⟩ := keep_ok.1 h
    clear h; have h := h'; clear h'
    unfold duplicate at h
    obtain ⟨a, ha, h⟩ := bind_ok.1 h
    obtain ⟨r, rfl⟩ := top_ok.1 ha
    injection h with h; subst h
    exact .dup ho hT
  · rename_i ho
    have hT := hd.2 (by simp [ho])
    rw [if_pos hT] at h
    obtain ⟨s', h', rfl⟩ := keep_ok.1 h
    clear h; have h := h'; clear h'
    unfold exchange at h
    split at h
    · cases h
    · rename_i hlen
      injection h with h; subst h
      match s with
      | [] => simp at hlen
      | [a] => simp at hlen
      | a :: b :: s => exact .exch ho hT
  · rename_i ho
    have hT := hd.2 (by simp [ho])
    rw [if_pos hT] at h
    obtain ⟨s', h', rfl⟩ := keep_ok.1 h
    clear h; have h := h'; clear h'
    match s with
    | [] => simp [rollDown] at h
    | [a] => simp [rollDown] at h
    | a :: b :: s =>
      obtain ⟨r, c, hr⟩ : ∃ r c, b :: s = r ++ [c] := ⟨(b :: s).dropLast, (b :: s).getLast (by simp), by rw [List.dropLast_concat_getLast]⟩
      rw [hr] at h ⊢
      have hh := @rollDown_ok a c r t
      simp only [List.cons_append] at hh
      rw [hh] at h
      injection h with h; subst h
      exact .rsd ho hT
  · rename_i ho
    have hT := hd.2 (by simp [ho])
    rw [if_pos hT] at h
    obtain ⟨s', h', rfl⟩ := keep_ok.1 h
    clear h; have h := h'; clear h'
    match s with
    | [] => simp [rollUp] at h
    | [a] => simp [rollUp] at h
    | a :: b :: s =>
      unfold rollUp at h
      rw [if_neg (by simp)] at h
      injection h with h; subst h
      exact .rsu ho hT
  · rename_i ho
    unfold stackPop at h
    split at h
    · rename_i hT
      split at h
      · cases h
      · injection h with h; subst h
        exact .popU ho hT
    · rename_i hT
      obtain ⟨v, hv, h⟩ := bind_ok.1 h
      injection h with h; subst h
      have hv : t.value = some v := by
        unfold valueOf at hv
        cases hh : t.value <;> rw [hh] at hv <;> simp_all
      exact .popV ho hT hv
  · rename_i ho
    have hT := hd.2 (by simp [ho])
    cases f with
    | false =>
      rw [if_neg (by simp)] at h
      injection h with h; subst h
      exact .noExlez ho hT
    | true =>
      rw [if_pos ⟨hT, rfl⟩] at h
      injection h with h; subst h
      unfold exchangeIfLessThanZero
      match s with
      | [] => exact absurd ⟨hT, by simp, Or.inr ⟨ho, rfl⟩⟩ hl
      | [a] => exact absurd ⟨hT, by simp, Or.inr ⟨ho, rfl⟩⟩ hl
      | a :: b :: s =>
        rw [if_neg (by simp)]
        exact .exlez ho hT
  · rename_i w ho
    exact absurd ho (hd.1 w)

end Verif.Rpn
