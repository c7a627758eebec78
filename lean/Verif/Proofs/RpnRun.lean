import Verif.Proofs.Rpn
import Verif.Spec.RpnGroups
import Mathlib.Algebra.BigOperators.Group.List.Basic

/-! # Whole equations -/

namespace Verif.Rpn

/-- evaluate terms that are in no group one after the other -/
def evalAll (sqrt : ℚ → ℚ) : List Term → Bool × Stack → Except RErr (Bool × Stack)
  | [], p => .ok p
  | t :: ts, p => (evalTerm sqrt p.1 p.2 t).bind (evalAll sqrt ts)

theorem clear_plain {eq : List Term} (h : ∀ t ∈ eq, t.typ = .G → t.value = none) : clearGroupValues eq = eq := by
  unfold clearGroupValues
  conv_rhs => rw [← List.map_id eq]
  apply List.map_congr_left
  intro t ht
  by_cases hG : t.typ = .G
  · rw [if_neg (by simp [h t ht hG])]; rfl
  · rw [if_neg (by simp [hG])]; rfl

theorem clear_clear (eq : List Term) : clearGroupValues (clearGroupValues eq) = clearGroupValues eq := by
  apply clear_plain
  intro t ht hG
  obtain ⟨u, _, rfl⟩ := List.mem_map.1 ht
  by_cases h : u.typ = .G ∧ u.value ≠ none
  · rw [if_pos h]
  · rw [if_neg h] at hG ⊢
    by_contra hh
    exact h ⟨hG, hh⟩

theorem loop_append (sqrt : ℚ → ℚ) (ev : List Term → Except RErr ℚ) (is js : List Nat) (st : St) :
    loop sqrt ev (is ++ js) st = (loop sqrt ev is st).bind (loop sqrt ev js) := by
  induction is generalizing st with
  | nil => rfl
  | cons i is ih =>
    simp only [List.cons_append, loop, bind]
    cases stepAt sqrt ev st i with
    | error e => rfl
    | ok st => exact ih st

/-- result of the ordinary evaluation of a term -/
def St.put (st : St) (r : Bool × Stack) : St := { st with flag := r.1, stack := r.2 }

theorem step_plain {sqrt : ℚ → ℚ} {ev : List Term → Except RErr ℚ} {st : St} {i : Nat} {t : Term} (ht : st.eq[i]? = some t)
    (hg : t.group = none) (hG : t.typ = .G → t.value ≠ none) :
    stepAt sqrt ev st i = (evalTerm sqrt st.flag st.stack t).map st.put := by
  unfold stepAt
  rw [ht]
  have : groupPart ev st i t = .ok (.eval st) := by
    unfold groupPart
    rw [if_neg (fun h => hG h.1 h.2.1)]
    rw [hg]
  simp only [this, bind, Except.bind, ht, hg]
  cases evalTerm sqrt st.flag st.stack t <;> rfl

theorem loop_plain {sqrt : ℚ → ℚ} {ev : List Term → Except RErr ℚ} (post : List Term) : ∀ (pre : List Term) (st : St), st.eq = pre ++ post →
    (∀ t ∈ post, t.group = none ∧ t.typ ≠ .G) →
    loop sqrt ev (List.range' pre.length post.length) st = (evalAll sqrt post (st.flag, st.stack)).map st.put := by
  induction post with
  | nil => intro pre st _ _; rfl
  | cons t post ih =>
    intro pre st he hp
    rw [List.length_cons, List.range'_succ]
    simp only [loop, evalAll]
    have ht : st.eq[pre.length]? = some t := by rw [he]; simp
    rw [step_plain ht (hp t (by simp)).1 (fun h => absurd h (hp t (by simp)).2)]
    cases hev : evalTerm sqrt st.flag st.stack t with
    | error e => rfl
    | ok r =>
      simp only [Except.map, bind, Except.bind]
      have := ih (pre ++ [t]) (st.put r) (by simp [St.put, he]) (fun u hu => hp u (by simp [hu]))
      rw [List.length_append, List.length_singleton] at this
      rw [this]
      rfl

theorem rpnWith_plain {sqrt : ℚ → ℚ} {ev : List Term → Except RErr ℚ} {eq : List Term} (hp : ∀ t ∈ eq, t.group = none ∧ t.typ ≠ .G) :
    rpnWith sqrt ev eq = (evalAll sqrt eq (false, [0])).map (fun r => { eq := eq, stack := r.2, flag := r.1 }) := by
  unfold rpnWith
  rw [clear_plain (fun t ht h => absurd h (hp t ht).2), List.range_eq_range']
  exact loop_plain eq [] _ rfl hp

/-- the value of an equation without groups -/
theorem rpnDepth_plain {sqrt : ℚ → ℚ} {eq : List Term} (hp : ∀ t ∈ eq, t.group = none ∧ t.typ ≠ .G) (n : Nat) :
    rpnDepth sqrt n eq = (evalAll sqrt eq (false, [0])).bind (fun r => top r.2) := by
  cases n <;> simp only [rpnDepth, rpnWith_plain hp] <;> cases evalAll sqrt eq (false, [0]) <;> rfl

theorem rpnCalc_plain {sqrt : ℚ → ℚ} {eq : List Term} (hp : ∀ t ∈ eq, t.group = none ∧ t.typ ≠ .G) :
    rpnCalc sqrt eq = (evalAll sqrt eq (false, [0])).bind (fun r => top r.2) := rpnDepth_plain hp _

/-! ### The depth of the recursion -/

/-- number of terms in groups -/
def tagged (eq : List Term) : Nat := eq.countP (fun t => decide (t.group ≠ none))

/-- what the loop over an equation finds -/
def SpanOk (eq : List Term) (g : String) (n : Nat) (p : Span) : Prop :=
  (∀ a, p.first = some a → a < n ∧ eq[a]?.bind Term.group = some g) ∧ ∀ l, p.last = some l → ∃ a, p.first = some a ∧ a ≤ l

theorem spanStep_ok {eq : List Term} {g : String} {n : Nat} {p : Span} (h : SpanOk eq g n p) : SpanOk eq g (n + 1) (spanStep eq g p n) := by
  unfold spanStep
  cases ht : eq[n]? with
  | none => exact ⟨fun a ha => ⟨by have := (h.1 a ha).1; omega, (h.1 a ha).2⟩, h.2⟩
  | some t =>
    simp only
    have h1 : SpanOk eq g (n + 1) (if t.group = some g ∧ p.first = none then
        { p with first := some n, gFirst := if t.typ = .G then true else p.gFirst } else p) := by
      split
      · rename_i hc
        refine ⟨fun a ha => ?_, fun l hl => ?_⟩
        · simp only [Option.some.injEq] at ha
          subst ha
          exact ⟨by omega, by rw [ht]; exact hc.1⟩
        · obtain ⟨a, ha, _⟩ := h.2 l hl
          rw [hc.2] at ha; cases ha
      · exact ⟨fun a ha => ⟨by have := (h.1 a ha).1; omega, (h.1 a ha).2⟩, h.2⟩
    generalize (if t.group = some g ∧ p.first = none then
        { p with first := some n, gFirst := if t.typ = .G then true else p.gFirst } else p) = p1 at h1
    have h2 : SpanOk eq g (n + 1) (if t.group = some g ∧ p1.first ≠ none then { p1 with last := some n } else p1) := by
      split
      · rename_i hc
        refine ⟨h1.1, fun l hl => ?_⟩
        simp only [Option.some.injEq] at hl
        subst hl
        obtain ⟨a, ha⟩ := Option.ne_none_iff_exists'.1 hc.2
        exact ⟨a, ha, by have := (h1.1 a ha).1; omega⟩
      · exact h1
    generalize (if t.group = some g ∧ p1.first ≠ none then { p1 with last := some n } else p1) = p2 at h2
    split
    · rename_i l j hl
      split
      · rename_i hc
        refine ⟨h2.1, fun l' hl' => ?_⟩
        simp only [Option.some.injEq] at hl'
        obtain ⟨a, ha, hle⟩ := h2.2 l hl
        exact ⟨a, ha, by omega⟩
      · exact h2
    · exact h2

theorem groupSpan_ok (eq : List Term) (g : String) : SpanOk eq g eq.length (groupSpan eq g) := by
  unfold groupSpan
  suffices ∀ n, SpanOk eq g n ((List.range n).foldl (spanStep eq g) {}) from this _
  intro n
  induction n with
  | zero => exact ⟨by simp, by simp⟩
  | succ n ih =>
    rw [List.range_succ, List.foldl_append]
    exact spanStep_ok ih

theorem copyMembers_tagged {g : String} : ∀ {l b : List Term}, copyMembers g l = .ok b →
    tagged b + l.countP (fun t => decide (t.group = some g)) = tagged l := by
  intro l
  induction l with
  | nil => intro b h; injection h with h; subst h; rfl
  | cons t l ih =>
    intro b h
    unfold copyMembers at h
    cases hg : t.group with
    | none => rw [hg] at h; cases h
    | some k =>
      rw [hg] at h
      obtain ⟨r, hr, h⟩ := bind_ok.1 h
      injection h with h
      have := ih hr
      subst h
      simp only [tagged, List.countP_cons] at this ⊢
      by_cases hk : k = g
      · subst hk; simp [hg] at this ⊢; omega
      · simp [hg, hk] at this ⊢; omega

theorem collect_fewer {eq b : List Term} {g : String} (h : collectGroup eq g = .ok b) (hg : ∃ t ∈ eq, t.group = some g) : tagged b < tagged eq := by
  have hpos : 0 < tagged eq := by
    obtain ⟨t, ht, hg⟩ := hg
    exact List.countP_pos_iff.2 ⟨t, ht, by simp [hg]⟩
  have hok := groupSpan_ok eq g
  unfold collectGroup at h
  cases ha : (groupSpan eq g).first with
  | none => rw [ha] at h; injection h with h; subst h; exact hpos
  | some a =>
    cases hl : (groupSpan eq g).last with
    | none => rw [ha, hl] at h; injection h with h; subst h; exact hpos
    | some l =>
      rw [ha, hl] at h
      simp only at h
      have hc := copyMembers_tagged h
      have hsub : tagged ((eq.take (l + 1)).drop a) ≤ tagged eq :=
        List.Sublist.countP_le ((List.drop_sublist _ _).trans (List.take_sublist _ _))
      obtain ⟨hlt, hga⟩ := hok.1 a ha
      obtain ⟨a', ha', hle⟩ := hok.2 l hl
      rw [ha] at ha'; injection ha' with ha'; subst ha'
      have : 0 < ((eq.take (l + 1)).drop a).countP (fun t => decide (t.group = some g)) := by
        obtain ⟨t, ht, htg⟩ := Option.bind_eq_some_iff.1 hga
        refine List.countP_pos_iff.2 ⟨t, ?_, by simp [htg]⟩
        apply List.mem_of_getElem? (i := 0)
        rw [List.getElem?_drop, List.getElem?_take_of_lt (by omega)]
        simpa using ht
      omega

theorem setValue_tagged (eq : List Term) (i : Nat) (v : ℚ) : tagged (setValue eq i v) = tagged eq := by
  unfold setValue tagged
  induction eq generalizing i with
  | nil => cases i <;> rfl
  | cons t eq ih =>
    cases i with
    | zero => rfl
    | succ i => rw [List.modify_succ_cons, List.countP_cons, List.countP_cons, ih]

theorem clear_tagged (eq : List Term) : tagged (clearGroupValues eq) = tagged eq := by
  unfold clearGroupValues tagged
  rw [List.countP_map]
  congr 1
  funext t
  simp only [Function.comp]
  split <;> rfl

/-- two ways to evaluate groups that agree on equations with fewer terms in groups -/
def AgreeBelow (k : Nat) (ev ev' : List Term → Except RErr ℚ) : Prop := ∀ b, tagged b < k → ev b = ev' b

theorem runGroup_congr {ev ev' : List Term → Except RErr ℚ} {st : St} {g : String} {put : List Term → ℚ → Except RErr St}
    (h : AgreeBelow (tagged st.eq) ev ev') (hg : ∃ t ∈ st.eq, t.group = some g) : runGroup ev st g put = runGroup ev' st g put := by
  unfold runGroup
  cases hc : collectGroup st.eq g with
  | error e => rfl
  | ok b => simp only [bind, Except.bind, h b (collect_fewer hc hg)]

theorem groupPart_congr {ev ev' : List Term → Except RErr ℚ} {st : St} {i : Nat} {t : Term} (h : AgreeBelow (tagged st.eq) ev ev')
    (ht : st.eq[i]? = some t) : groupPart ev st i t = groupPart ev' st i t := by
  unfold groupPart
  split
  · cases hg : t.group with
    | some g => simp only [runGroup_congr h ⟨t, List.mem_of_getElem? ht, hg⟩]
    | none =>
      simp only
      cases hn : st.eq[i + 1]? with
      | none => rfl
      | some n =>
        simp only
        cases hng : n.group with
        | none => rfl
        | some g => simp only [runGroup_congr h ⟨n, List.mem_of_getElem? hn, hng⟩]
  · cases hg : t.group with
    | none => rfl
    | some g => simp only [runGroup_congr h ⟨t, List.mem_of_getElem? ht, hg⟩]

theorem runGroup_tagged {ev : List Term → Except RErr ℚ} {st st' : St} {g : String} {put : List Term → ℚ → Except RErr St}
    (hput : ∀ b r st', put b r = .ok st' → tagged st'.eq = tagged st.eq) (h : runGroup ev st g put = .ok st') : tagged st'.eq = tagged st.eq := by
  unfold runGroup at h
  obtain ⟨b, _, h⟩ := bind_ok.1 h
  obtain ⟨r, _, h⟩ := bind_ok.1 h
  obtain ⟨s, hs, h⟩ := bind_ok.1 h
  injection h with h
  subst h
  exact hput b r s hs

/-- the state a step goes on with -/
def Next.st : Next → St
  | .eval st => st
  | .skip st => st

theorem groupPart_tagged {ev : List Term → Except RErr ℚ} {st : St} {i : Nat} {t : Term} {r : Next} (h : groupPart ev st i t = .ok r) :
    tagged r.st.eq = tagged st.eq := by
  have hset : ∀ (i : Nat) (b : List Term) (r : ℚ) (st' : St), (Except.ok { st with eq := setValue st.eq i r } : Except RErr St) = .ok st' →
      tagged st'.eq = tagged st.eq := by
    intro i b r st' h
    injection h with h
    subst h
    exact setValue_tagged _ _ _
  unfold groupPart at h
  split at h
  · split at h
    · obtain ⟨s, hs, h⟩ := bind_ok.1 h
      injection h with h; subst h
      exact runGroup_tagged (fun b r => hset i b r) hs
    · split at h
      · cases h
      · split at h
        · injection h with h; subst h; rfl
        · obtain ⟨s, hs, h⟩ := bind_ok.1 h
          injection h with h; subst h
          exact runGroup_tagged (fun b r => hset i b r) hs
  · split at h
    · split at h
      · obtain ⟨s, hs, h⟩ := bind_ok.1 h
        injection h with h; subst h
        refine runGroup_tagged (fun b r st' h => ?_) hs
        split at h
        · cases h
        · split at h
          · exact hset _ b r st' h
          · obtain ⟨a, _, h⟩ := bind_ok.1 h
            injection h with h; subst h; rfl
      · injection h with h; subst h; rfl
    · injection h with h; subst h; rfl

theorem stepAt_congr {sqrt : ℚ → ℚ} {ev ev' : List Term → Except RErr ℚ} {st : St} {i : Nat} (h : AgreeBelow (tagged st.eq) ev ev') :
    stepAt sqrt ev st i = stepAt sqrt ev' st i := by
  unfold stepAt
  cases ht : st.eq[i]? with
  | none => rfl
  | some t => simp only [groupPart_congr h ht]

theorem stepAt_tagged {sqrt : ℚ → ℚ} {ev : List Term → Except RErr ℚ} {st st' : St} {i : Nat} (h : stepAt sqrt ev st i = .ok st') :
    tagged st'.eq = tagged st.eq := by
  unfold stepAt at h
  split at h
  · injection h with h; subst h; rfl
  · obtain ⟨r, hr, h⟩ := bind_ok.1 h
    have := groupPart_tagged hr
    split at h
    · injection h with h; subst h; exact this
    · split at h
      · injection h with h; subst h; exact this
      · split at h
        · injection h with h; subst h; exact this
        · obtain ⟨q, _, h⟩ := bind_ok.1 h
          injection h with h; subst h; exact this

theorem loop_congr {sqrt : ℚ → ℚ} {ev ev' : List Term → Except RErr ℚ} (is : List Nat) : ∀ (st : St), AgreeBelow (tagged st.eq) ev ev' →
    loop sqrt ev is st = loop sqrt ev' is st := by
  induction is with
  | nil => intros; rfl
  | cons i is ih =>
    intro st h
    simp only [loop, stepAt_congr h]
    cases hs : stepAt sqrt ev' st i with
    | error e => rfl
    | ok s =>
      simp only [bind, Except.bind]
      exact ih s (by rw [stepAt_tagged hs]; exact h)

/-- The calculator needs no deeper recursion than the number of terms in groups. -/
theorem rpnDepth_enough {sqrt : ℚ → ℚ} (n : Nat) : ∀ (m : Nat) (eq : List Term), tagged eq ≤ n → tagged eq ≤ m → rpnDepth sqrt n eq = rpnDepth sqrt m eq := by
  have hno : ∀ eq, tagged eq ≤ 0 → ∀ (ev ev' : List Term → Except RErr ℚ), rpnWith sqrt ev eq = rpnWith sqrt ev' eq := by
    intro eq h ev ev'
    refine loop_congr _ _ (fun b hb => ?_)
    simp only [clear_tagged] at hb
    omega
  induction n with
  | zero =>
    intro m eq h _
    cases m <;> simp only [rpnDepth]
    rw [hno eq h]
  | succ n ih =>
    intro m eq h1 h2
    cases m with
    | zero => simp only [rpnDepth]; rw [hno eq h2]
    | succ m =>
      simp only [rpnDepth]
      have : rpnWith sqrt (rpnDepth sqrt n) eq = rpnWith sqrt (rpnDepth sqrt m) eq := by
        refine loop_congr _ _ (fun b hb => ?_)
        simp only [clear_tagged] at hb
        exact ih m b (by omega) (by omega)
      rw [this]

theorem tagged_le (eq : List Term) : tagged eq ≤ eq.length := List.countP_le_length

/-- Any depth from the number of terms on gives the same result: the bound in the definition of `rpnCalc` is not a restriction. -/
theorem rpnCalc_depth {sqrt : ℚ → ℚ} {eq : List Term} {n : Nat} (h : tagged eq ≤ n) : rpnDepth sqrt n eq = rpnCalc sqrt eq :=
  rpnDepth_enough n _ eq h (tagged_le eq)

/-- values of headers left from an earlier evaluation do not matter -/
theorem rpnCalc_clear {sqrt : ℚ → ℚ} {eq : List Term} : rpnCalc sqrt (clearGroupValues eq) = rpnCalc sqrt eq := by
  have hlen : (clearGroupValues eq).length = eq.length := by simp [clearGroupValues]
  have : ∀ ev, rpnWith sqrt ev (clearGroupValues eq) = rpnWith sqrt ev eq := by
    intro ev
    unfold rpnWith
    rw [clear_clear, hlen]
  unfold rpnCalc
  rw [hlen]
  cases eq.length <;> simp only [rpnDepth, this]

/-- evaluating groups without limit of depth -/
theorem rpnCalc_eq {sqrt : ℚ → ℚ} {eq : List Term} : rpnCalc sqrt eq = (rpnWith sqrt (rpnCalc sqrt) eq).bind (fun st => top st.stack) := by
  rw [← rpnCalc_depth (n := tagged eq + 1) (by omega)]
  simp only [rpnDepth]
  congr 1
  refine loop_congr _ _ (fun b hb => ?_)
  simp only [clear_tagged] at hb
  exact rpnCalc_depth (by omega)

/-! ### Groups -/

theorem tag_length {g : String} {b : List Term} : (tag g b).length = b.length := by simp [tag]

/-- a member as written -/
def tag1 (g : String) (t : Term) : Term :=
  match t.group with
  | none => { t with group := some g }
  | some _ => t

theorem tag_eq {g : String} {b : List Term} : tag g b = b.map (tag1 g) := rfl

theorem tag1_typ {g : String} {t : Term} : (tag1 g t).typ = t.typ := by unfold tag1; split <;> rfl

theorem tag1_value {g : String} {t : Term} : (tag1 g t).value = t.value := by unfold tag1; split <;> rfl

theorem tag1_group {g : String} {t : Term} : (tag1 g t).group = some (t.group.getD g) := by
  unfold tag1
  split
  · rename_i h; rw [h]; rfl
  · rename_i h; rw [h]; rfl

theorem spanStep_other {eq : List Term} {g : String} {p : Span} {i : Nat} (hg : ∀ t, eq[i]? = some t → t.group ≠ some g) (hp : p.gFirst = false) :
    spanStep eq g p i = p := by
  unfold spanStep
  cases ht : eq[i]? with
  | none => rfl
  | some t =>
    have := hg t ht
    simp only [this, false_and, if_false]
    split
    · rename_i j _ _ 
      rw [if_neg]
      rintro ⟨_, _, _, h, _⟩
      rw [hp] at h; cases h
    · rfl

theorem span_other {eq : List Term} {g : String} {p : Span} (hp : p.gFirst = false) : ∀ (n i : Nat),
    (∀ j t, i ≤ j → j < i + n → eq[j]? = some t → t.group ≠ some g) → (List.range' i n).foldl (spanStep eq g) p = p := by
  intro n
  induction n with
  | zero => intros; rfl
  | succ n ih =>
    intro i h
    rw [List.range'_succ, List.foldl_cons, spanStep_other (fun t ht => h i t le_rfl (by omega) ht) hp]
    exact ih (i + 1) (fun j t h1 h2 => h j t (by omega) (by omega))

theorem spanStep_member {eq : List Term} {g : String} {p : Span} {i : Nat} {t : Term} (ht : eq[i]? = some t) (hg : t.group = some g)
    (hG : p.first = none → t.typ ≠ .G) (hp : p.gFirst = false) : spanStep eq g p i = ⟨some (p.first.getD i), some i, false⟩ := by
  unfold spanStep
  rw [ht]
  obtain ⟨a, l, gf⟩ := p
  simp only at hp
  subst hp
  cases a with
  | none =>
    simp only [hg, hG rfl, and_self, if_true, if_false, ne_eq, reduceCtorEq, not_false_eq_true]
    cases i <;> simp
  | some a =>
    simp only [hg, and_false, if_false, ne_eq, reduceCtorEq, not_false_eq_true, and_self, if_true]
    cases i <;> simp

theorem span_mid {eq : List Term} {g : String} {a : Nat} : ∀ (n i : Nat) (p : Span), p.gFirst = false → p.first = some a →
    ((List.range' i n).foldl (spanStep eq g) p).gFirst = false ∧ ((List.range' i n).foldl (spanStep eq g) p).first = some a := by
  intro n
  induction n with
  | zero => intro i p h1 h2; exact ⟨h1, h2⟩
  | succ n ih =>
    intro i p h1 h2
    rw [List.range'_succ, List.foldl_cons]
    by_cases hg : ∃ t, eq[i]? = some t ∧ t.group = some g
    · obtain ⟨t, ht, hg⟩ := hg
      rw [spanStep_member ht hg (by rw [h2]; simp) h1, h2]
      exact ih _ _ rfl rfl
    · rw [spanStep_other (fun t ht hc => hg ⟨t, ht, hc⟩) h1]
      exact ih _ _ h1 h2

theorem span_block {eq : List Term} {g : String} {p : Span} {i n : Nat} (hp : p.gFirst = false) (hp0 : p.first = none)
    (h0 : ∃ t, eq[i]? = some t ∧ t.group = some g ∧ t.typ ≠ .G) (hl : ∃ t, eq[i + n]? = some t ∧ t.group = some g) :
    (List.range' i (n + 1)).foldl (spanStep eq g) p = ⟨some i, some (i + n), false⟩ := by
  obtain ⟨t, ht, hg, hG⟩ := h0
  cases n with
  | zero =>
    rw [List.range'_one, List.foldl_cons, spanStep_member ht hg (fun _ => hG) hp, hp0]
    rfl
  | succ n =>
    obtain ⟨u, hu, hug⟩ := hl
    rw [List.range'_succ, List.foldl_cons, spanStep_member ht hg (fun _ => hG) hp, hp0, Option.getD_none]
    rw [← List.range'_append_1, List.foldl_append, List.range'_one]
    obtain ⟨h1, h2⟩ := span_mid (eq := eq) (g := g) (a := i) n (i + 1) ⟨some i, some i, false⟩ rfl rfl
    rw [List.foldl_cons, List.foldl_nil, show i + 1 + n = i + (n + 1) by omega, spanStep_member hu hug (by rw [h2]; simp) h1, h2]
    rfl

theorem members_ne {g : String} {b : List Term} (h : Members g b) : b ≠ [] := by
  obtain ⟨⟨t, ht, _⟩, _⟩ := h
  rintro rfl
  cases ht

theorem groupSpan_eq {pre b post : List Term} {g : String} (hpre : ∀ t ∈ pre, t.group ≠ some g) (hpost : ∀ t ∈ post, t.group ≠ some g)
    (hb : Members g b) :
    groupSpan (pre ++ tag g b ++ post) g = ⟨some pre.length, some (pre.length + b.length - 1), false⟩ := by
  obtain ⟨n, hn⟩ : ∃ n, b.length = n + 1 := ⟨b.length - 1, by have := List.length_pos_iff.2 (members_ne hb); omega⟩
  obtain ⟨⟨t0, h0, hg0, hG0⟩, ⟨t1, h1, hg1⟩, _⟩ := hb
  unfold groupSpan
  rw [List.range_eq_range', show (pre ++ tag g b ++ post).length = pre.length + ((n + 1) + post.length) by simp [tag_length, hn]]
  rw [← List.range'_append_1, ← List.range'_append_1, List.foldl_append, List.foldl_append]
  rw [span_other (p := {}) rfl]
  · rw [span_block rfl rfl]
    · rw [span_other rfl]
      · simp [hn]
      · intro j t h1 h2 ht
        rw [List.getElem?_append_right (by simp [tag_length]; omega)] at ht
        exact hpost t (List.mem_of_getElem? ht)
    · refine ⟨tag1 g t0, ?_, by rw [tag1_group, hg0]; rfl, by rw [tag1_typ]; exact hG0⟩
      rw [List.getElem?_append_left (by simp [tag_length]; omega), List.getElem?_append_right (by omega)]
      simp only [Nat.zero_add, Nat.sub_self, tag_eq, List.getElem?_map]
      rw [← List.head?_eq_getElem?, h0]; rfl
    · refine ⟨tag1 g t1, ?_, by rw [tag1_group, hg1]; rfl⟩
      rw [List.getElem?_append_left (by simp [tag_length]; omega), List.getElem?_append_right (by omega)]
      simp only [Nat.zero_add, Nat.add_sub_cancel_left, tag_eq, List.getElem?_map]
      rw [show n = b.length - 1 by omega, ← List.getLast?_eq_getElem?, h1]; rfl
  · intro j t h1 h2 ht
    rw [List.append_assoc, List.getElem?_append_left (by omega)] at ht
    exact hpre t (List.mem_of_getElem? ht)

theorem copyMembers_tag {g : String} {b : List Term} (hb : ∀ t ∈ b, t.group ≠ some g) : copyMembers g (tag g b) = .ok b := by
  induction b with
  | nil => rfl
  | cons t b ih =>
    have := ih (fun u hu => hb u (by simp [hu]))
    rw [tag_eq] at this ⊢
    rw [List.map_cons, copyMembers, tag1_group]
    simp only [this, bind, Except.bind]
    cases hg : t.group with
    | none =>
      simp only [Option.getD_none, if_true, Except.ok.injEq, List.cons.injEq, and_true, tag1, hg]
      cases t; simp_all
    | some k =>
      have : k ≠ g := fun hc => hb t (by simp) (by rw [hg, hc])
      simp only [Option.getD_some, this, if_false, tag1, hg]

theorem collect_eq {pre b post : List Term} {g : String} (hpre : ∀ t ∈ pre, t.group ≠ some g) (hpost : ∀ t ∈ post, t.group ≠ some g)
    (hb : Members g b) : collectGroup (pre ++ tag g b ++ post) g = .ok b := by
  unfold collectGroup
  have hbl : 0 < b.length := List.length_pos_iff.2 (members_ne hb)
  rw [groupSpan_eq hpre hpost hb]
  simp only
  rw [show ((pre ++ tag g b ++ post).take (pre.length + b.length - 1 + 1)).drop pre.length = tag g b by
    rw [show pre.length + b.length - 1 + 1 = (pre ++ tag g b).length by simp [tag]; omega]
    rw [List.take_left', List.drop_left']
    · rfl
    · rfl]
  exact copyMembers_tag hb.2.2

/-! ### Groups that begin with the header of a group within the group -/

theorem spanStepG_first {eq : List Term} {g : String} {i : Nat} {t : Term} (ht : eq[i]? = some t) (hg : t.group = some g) (hG : t.typ = .G) :
    spanStep eq g {} i = ⟨some i, some i, true⟩ := by
  unfold spanStep
  rw [ht]
  simp only [hg, hG, and_self, if_true, ne_eq, reduceCtorEq, not_false_eq_true]
  cases i <;> simp

theorem spanStepG_member {eq : List Term} {g : String} {a i : Nat} {l : Option Nat} {t : Term} (ht : eq[i]? = some t) (hg : t.group = some g) :
    spanStep eq g ⟨some a, l, true⟩ i = ⟨some a, some i, true⟩ := by
  unfold spanStep
  rw [ht]
  simp only [hg, and_false, if_false, ne_eq, reduceCtorEq, not_false_eq_true, and_self, if_true]
  cases i <;> simp

theorem spanStepG_keep {eq : List Term} {g : String} {a i : Nat} {l : Option Nat} :
    ∃ l', spanStep eq g ⟨some a, l, true⟩ i = ⟨some a, l', true⟩ := by
  cases ht : eq[i]? with
  | none => exact ⟨l, by unfold spanStep; rw [ht]⟩
  | some t =>
    by_cases hg : t.group = some g
    · exact ⟨_, spanStepG_member ht hg⟩
    · unfold spanStep
      rw [ht]
      simp only [hg, false_and, if_false]
      split
      · split <;> exact ⟨_, rfl⟩
      · exact ⟨_, rfl⟩

theorem spanG_keep {eq : List Term} {g : String} {a : Nat} : ∀ (n i : Nat) (l : Option Nat),
    ∃ l', (List.range' i n).foldl (spanStep eq g) ⟨some a, l, true⟩ = ⟨some a, l', true⟩ := by
  intro n
  induction n with
  | zero => exact fun _ l => ⟨l, rfl⟩
  | succ n ih =>
    intro i l
    rw [List.range'_succ, List.foldl_cons]
    obtain ⟨l', e⟩ := spanStepG_keep (eq := eq) (g := g) (a := a) (i := i) (l := l)
    rw [e]
    exact ih _ _

theorem spanStepG_linked {eq : List Term} {g : String} {a i : Nat} {s t : Term} (hs : eq[i]? = some s) (ht : eq[i + 1]? = some t)
    (hn : t.group ≠ none) (hg : t.group ≠ some g) (hl : s.typ = .G ∨ s.group = t.group) :
    spanStep eq g ⟨some a, some i, true⟩ (i + 1) = ⟨some a, some (i + 1), true⟩ := by
  unfold spanStep
  rw [ht]
  simp only [hg, false_and, if_false]
  rw [if_pos]
  refine ⟨trivial, hn, hg, trivial, ?_⟩
  rw [hs]
  rcases hl with h | h
  · exact Or.inl (by rw [Option.map_some, h])
  · exact Or.inr h

theorem spanStepG_other {eq : List Term} {g : String} {a k i : Nat} (hg : ∀ t, eq[i]? = some t → t.group ≠ some g)
    (hl : ∀ t s, eq[i]? = some t → k + 1 = i → eq[k]? = some s → s.typ ≠ .G ∧ (t.group ≠ none → s.group ≠ t.group)) (hk : k < eq.length) :
    spanStep eq g ⟨some a, some k, true⟩ i = ⟨some a, some k, true⟩ := by
  unfold spanStep
  cases ht : eq[i]? with
  | none => rfl
  | some t =>
    simp only [hg t ht, false_and, if_false]
    cases i with
    | zero => rfl
    | succ j =>
      dsimp only
      rw [if_neg]
      rintro ⟨rfl, h1, _, _, h3⟩
      obtain ⟨a1, a2⟩ := hl t eq[k] ht rfl (List.getElem?_eq_getElem hk)
      rw [List.getElem?_eq_getElem hk] at h3
      rcases h3 with h3 | h3
      · rw [Option.map_some] at h3; exact a1 (Option.some.inj h3)
      · exact a2 h1 h3

theorem spanG_other {eq : List Term} {g : String} {a k : Nat} (hk : k < eq.length) (hl : ∀ t s, eq[k + 1]? = some t → eq[k]? = some s →
    s.typ ≠ .G ∧ (t.group ≠ none → s.group ≠ t.group)) : ∀ (n i : Nat), (∀ j t, i ≤ j → eq[j]? = some t → t.group ≠ some g) →
      (List.range' i n).foldl (spanStep eq g) ⟨some a, some k, true⟩ = ⟨some a, some k, true⟩ := by
  intro n
  induction n with
  | zero => intros; rfl
  | succ n ih =>
    intro i h
    rw [List.range'_succ, List.foldl_cons, spanStepG_other (fun t ht => h i t le_rfl ht) (by rintro t s ht rfl hs; exact hl t s ht hs) hk]
    exact ih (i + 1) (fun j t h1 => h j t (by omega))

theorem spanG_chain {eq : List Term} {g : String} {a : Nat} : ∀ (tail : List Term) (m : Term) (i : Nat) (pre post : List Term),
    eq = pre ++ m :: tail ++ post → pre.length = i → (m :: tail).IsChain (fun a b => a.typ = .G ∨ a.group = b.group) →
    (∀ t ∈ tail, t.group ≠ none ∧ t.group ≠ some g) →
    (List.range' (i + 1) tail.length).foldl (spanStep eq g) ⟨some a, some i, true⟩ = ⟨some a, some (i + tail.length), true⟩ := by
  intro tail
  induction tail with
  | nil => intros; rfl
  | cons t tail ih =>
    intro m i pre post he hi hc hn
    subst hi
    rw [List.isChain_cons_cons] at hc
    rw [List.length_cons, List.range'_succ, List.foldl_cons,
      spanStepG_linked (s := m) (t := t) (by rw [he]; simp) (by rw [he]; simp [List.getElem?_append])
        (hn t (by simp)).1 (hn t (by simp)).2 hc.1]
    rw [ih t (pre.length + 1) (pre ++ [m]) post (by rw [he]; simp) (by simp) hc.2 (fun u hu => hn u (by simp [hu]))]
    congr 2
    omega

theorem headed_ne {g : String} {b : List Term} (h : HeadedMembers g b) : b ≠ [] := by
  obtain ⟨⟨t, ht, _⟩, _⟩ := h
  rintro rfl
  cases ht

theorem groupSpan_headed {pre b post : List Term} {g : String} (hpre : ∀ t ∈ pre, t.group ≠ some g) (hpost : ∀ t ∈ post, t.group ≠ some g)
    (hsub : ∀ k ∈ b.filterMap Term.group, ∀ t ∈ post, t.group ≠ some k) (hb : HeadedMembers g b) :
    groupSpan (pre ++ tag g b ++ post) g = ⟨some pre.length, some (pre.length + b.length - 1), true⟩ := by
  have hpos := List.length_pos_iff.2 (headed_ne hb)
  obtain ⟨⟨t0, h0, hg0, hG0⟩, ⟨t1, h1, hG1⟩, hne, front, m, tail, hfm, hm, htl, hch⟩ := hb
  have hgr : ∀ t ∈ post, ∀ s, (tag g b)[b.length - 1]? = some s → t.group ≠ none → s.group ≠ t.group := by
    intro t ht s hs hn hc
    rw [tag_eq, List.getElem?_map, ← List.getLast?_eq_getElem?, h1] at hs
    injection hs with hs
    subst hs
    rw [tag1_group] at hc
    cases hk : t1.group with
    | none => rw [hk] at hc; exact hpost t ht hc.symm
    | some k =>
      rw [hk] at hc
      exact hsub k (List.mem_filterMap.2 ⟨t1, List.mem_of_getLast? h1, hk⟩) t ht hc.symm
  have hlast : (pre ++ tag g b ++ post)[pre.length + b.length - 1]? = (tag g b)[b.length - 1]? := by
    rw [List.getElem?_append_left (by simp [tag_length]; omega), List.getElem?_append_right (by omega)]
    congr 1; omega
  unfold groupSpan
  rw [List.range_eq_range', show (pre ++ tag g b ++ post).length = pre.length + (b.length + post.length) by simp [tag_length]]
  rw [← List.range'_append_1, ← List.range'_append_1, List.foldl_append, List.foldl_append]
  rw [span_other (p := {}) rfl]
  swap
  · intro j t h1 h2 ht
    rw [List.append_assoc, List.getElem?_append_left (by omega)] at ht
    exact hpre t (List.mem_of_getElem? ht)
  have hblock : (List.range' (0 + pre.length) b.length).foldl (spanStep (pre ++ tag g b ++ post) g) {} =
      ⟨some pre.length, some (pre.length + b.length - 1), true⟩ := by
    rw [Nat.zero_add]
    have hfirst : (pre ++ tag g b ++ post)[pre.length]? = some (tag1 g t0) := by
      rw [List.getElem?_append_left (by simp [tag_length]; omega), List.getElem?_append_right (by omega)]
      simp only [Nat.sub_self, tag_eq, List.getElem?_map]
      rw [← List.head?_eq_getElem?, h0]; rfl
    have hstart := spanStepG_first (g := g) hfirst (by rw [tag1_group, hg0]; rfl) (by rw [tag1_typ]; exact hG0)
    have hmid : (pre ++ tag g b ++ post)[pre.length + front.length]? = some (tag1 g m) := by
      rw [List.getElem?_append_left (by simp [tag_length, hfm]), List.getElem?_append_right (by omega), hfm, tag_eq]
      simp
    -- up to the last own member
    have hown : (List.range' pre.length (front.length + 1)).foldl (spanStep (pre ++ tag g b ++ post) g) {} =
        ⟨some pre.length, some (pre.length + front.length), true⟩ := by
      cases hf : front.length with
      | zero => rw [List.range'_one, List.foldl_cons, hstart]; rfl
      | succ n =>
        rw [List.range'_succ, List.foldl_cons, hstart, ← List.range'_append_1, List.foldl_append, List.range'_one]
        obtain ⟨l', e⟩ := spanG_keep (eq := pre ++ tag g b ++ post) (g := g) (a := pre.length) n (pre.length + 1) (some pre.length)
        rw [e, List.foldl_cons, List.foldl_nil, show pre.length + 1 + n = pre.length + front.length by omega,
          spanStepG_member hmid (by rw [tag1_group, hm]; rfl)]
        rw [hf]
    have hlen : b.length = (front.length + 1) + tail.length := by rw [hfm]; simp; omega
    rw [hlen, ← List.range'_append_1, List.foldl_append, hown]
    have htag : ∀ t ∈ tail, tag1 g t = t := by
      intro t ht
      unfold tag1
      cases hk : t.group with
      | none => exact absurd hk (htl t ht)
      | some k => rfl
    have etail : tail.map (tag1 g) = tail := by rw [List.map_congr_left htag, List.map_id']
    rw [show pre.length + (front.length + 1) = pre.length + front.length + 1 by omega,
      spanG_chain tail (tag1 g m) (pre.length + front.length) (pre ++ front.map (tag1 g)) post]
    · congr 2
      omega
    · rw [hfm, tag_eq, List.map_append, List.map_cons, etail]; simp
    · simp
    · cases tail with
      | nil => exact List.IsChain.singleton _
      | cons t tail =>
        rw [List.isChain_cons_cons] at hch ⊢
        refine ⟨?_, hch.2⟩
        rw [tag1_typ]
        rcases hch.1 with h | h
        · exact Or.inl h
        · rw [hm] at h
          exact absurd h.symm (htl t (by simp))
    · intro t ht
      exact ⟨htl t ht, hne t (by rw [hfm]; simp [ht])⟩
  rw [hblock, spanG_other (by simp [tag_length]; omega)]
  · intro t s ht hs
    rw [hlast] at hs
    refine ⟨?_, fun hn => ?_⟩
    · rw [tag_eq, List.getElem?_map, ← List.getLast?_eq_getElem?, h1] at hs
      injection hs with hs
      subst hs
      rw [tag1_typ]; exact hG1
    · rw [List.getElem?_append_right (by simp [tag_length]; omega)] at ht
      exact hgr t (List.mem_of_getElem? ht) s hs hn
  · intro j t hj ht
    rw [List.getElem?_append_right (by simp [tag_length]; omega)] at ht
    exact hpost t (List.mem_of_getElem? ht)

theorem collect_headed {pre b post : List Term} {g : String} (hpre : ∀ t ∈ pre, t.group ≠ some g) (hpost : ∀ t ∈ post, t.group ≠ some g)
    (hsub : ∀ k ∈ b.filterMap Term.group, ∀ t ∈ post, t.group ≠ some k) (hb : HeadedMembers g b) :
    collectGroup (pre ++ tag g b ++ post) g = .ok b := by
  unfold collectGroup
  have hbl : 0 < b.length := List.length_pos_iff.2 (headed_ne hb)
  rw [groupSpan_headed hpre hpost hsub hb]
  simp only
  rw [show ((pre ++ tag g b ++ post).take (pre.length + b.length - 1 + 1)).drop pre.length = tag g b by
    rw [show pre.length + b.length - 1 + 1 = (pre ++ tag g b).length by simp [tag]; omega]
    rw [List.take_left', List.drop_left']
    · rfl
    · rfl]
  exact copyMembers_tag hb.2.2.1

theorem mem_subGroups {b : List Term} {g : String} : g ∈ subGroups b ↔ g ∈ b.filterMap Term.group := by
  have : ∀ (b : List Term) (l : List String), g ∈ b.foldl (fun l t => match t.group with
    | some g => if g ∈ l then l else l ++ [g]
    | none => l) l ↔ g ∈ l ∨ g ∈ b.filterMap Term.group := by
    intro b
    induction b with
    | nil => intro l; simp
    | cons t b ih =>
      intro l
      rw [List.foldl_cons, ih]
      cases hg : t.group with
      | none => simp [hg]
      | some k =>
        rw [List.filterMap_cons_some hg]
        simp only [List.mem_cons]
        by_cases hk : k ∈ l
        · rw [if_pos hk]
          constructor
          · rintro (h | h)
            · exact Or.inl h
            · exact Or.inr (Or.inr h)
          · rintro (h | rfl | h)
            · exact Or.inl h
            · exact Or.inl hk
            · exact Or.inr h
        · rw [if_neg hk, List.mem_append, List.mem_singleton, or_assoc]
  exact (this b []).trans (by simp)

/-- members of groups that are done are skipped -/
theorem loop_skip {sqrt : ℚ → ℚ} {ev : List Term → Except RErr ℚ} {st : St} : ∀ (n i : Nat),
    (∀ j, i ≤ j → j < i + n → ∃ t g, st.eq[j]? = some t ∧ t.group = some g ∧ g ∈ st.ignore) → loop sqrt ev (List.range' i n) st = .ok st := by
  intro n
  induction n with
  | zero => intros; rfl
  | succ n ih =>
    intro i h
    obtain ⟨t, g, ht, hg, hig⟩ := h i le_rfl (by omega)
    rw [List.range'_succ]
    simp only [loop]
    have : stepAt sqrt ev st i = .ok st := by
      unfold stepAt
      rw [ht]
      have : groupPart ev st i t = .ok (.eval st) := by
        unfold groupPart
        rw [if_neg]
        · rw [hg]; simp [hig]
        · rintro ⟨_, _, h | ⟨g', h1, h2⟩⟩
          · rw [hg] at h; cases h
          · rw [hg] at h1; injection h1 with h1; subst h1; exact h2 hig
      simp only [this, bind, Except.bind, ht, hg]
    rw [this]
    exact ih (i + 1) (fun j h1 h2 => h j (by omega) (by omega))

/-- the group of a member as written is the group or one of those within -/
theorem tag_groups {g k : String} {b : List Term} {t : Term} (ht : t ∈ tag g b) (hk : t.group = some k) : k ∈ g :: b.filterMap Term.group := by
  rw [tag_eq] at ht
  obtain ⟨w, hw, rfl⟩ := List.mem_map.1 ht
  rw [tag1_group] at hk
  injection hk with hk
  cases hg : w.group with
  | none => rw [hg] at hk; simp at hk; simp [hk]
  | some l =>
    rw [hg] at hk
    simp only [Option.getD_some] at hk
    subst hk
    exact List.mem_cons_of_mem _ (List.mem_filterMap.2 ⟨w, hw, hg⟩)

theorem tag_at {g : String} {b : List Term} {k : Nat} (hk : k < b.length) (ig : List String) :
    ∃ t l, (tag g b)[k]? = some t ∧ t.group = some l ∧ l ∈ ig ++ [g] ++ subGroups b := by
  refine ⟨tag1 g b[k], b[k].group.getD g, by rw [tag_eq]; simp [hk], tag1_group, ?_⟩
  cases hg : b[k].group with
  | none => simp
  | some l =>
    simp only [Option.getD_some, List.mem_append, mem_subGroups]
    exact Or.inr (List.mem_filterMap.2 ⟨b[k], List.getElem_mem hk, hg⟩)

/-- a header that got its value is evaluated like a measurement with that value -/
theorem evalTerm_header {sqrt : ℚ → ℚ} {f : Bool} {s : Stack} {t : Term} (ht : t.typ = .G) :
    evalTerm sqrt f s t = evalTerm sqrt f s { t with typ := .A } := by
  obtain ⟨id, typ, mult, op, value, dflt, group⟩ := t
  simp only at ht
  subst ht
  unfold evalTerm
  simp only [reduceCtorEq, false_and, if_false]
  cases op with
  | none => rfl
  | some o =>
    cases o <;> simp [stepOp, unary, withTop, divide, push, stackPop, defaultIfNeeded, valueOf, top]

theorem setValue_at {pre post : List Term} {t : Term} {v : ℚ} :
    setValue (pre ++ t :: post) pre.length v = pre ++ { t with value := some v } :: post := by
  unfold setValue
  induction pre with
  | nil => rfl
  | cons a pre ih => simp only [List.cons_append, List.length_cons, List.modify_succ_cons, ih]

/-- what an item does at the position where it starts -/
theorem loop_item {sqrt : ℚ → ℚ} {it : Item} {pre post : List Term} {st : St}
    (he : st.eq = pre ++ it.terms ++ post) (hv : it.Valid sqrt)
    (hclear : ∀ t ∈ it.terms, t.typ = .G → t.value = none)
    (hg : ∀ g ∈ it.groups, g ∉ st.ignore ∧ (∀ t ∈ pre, t.group ≠ some g) ∧ ∀ t ∈ post, t.group ≠ some g) :
    ∃ (T : List Term) (ig : List String), T.length = it.terms.length ∧ (∀ t ∈ T, ∀ g, t.group = some g → g ∈ it.groups) ∧
      (∀ g ∈ ig, g ∈ st.ignore ∨ g ∈ it.groups) ∧
      loop sqrt (rpnCalc sqrt) (List.range' pre.length it.terms.length) st =
        (evalTerm sqrt st.flag st.stack it.collapse).map
          (fun r => { eq := pre ++ T ++ post, stack := r.2, flag := r.1, ignore := ig }) := by
  cases it with
  | term t =>
    refine ⟨[t], st.ignore, rfl, ?_, fun g h => Or.inl h, ?_⟩
    · intro u hu g hgu
      simp only [List.mem_singleton] at hu
      subst hu
      rw [hv.1] at hgu; cases hgu
    · simp only [Item.terms, List.length_singleton, List.range'_one, loop, Item.collapse] at he ⊢
      have ht : st.eq[pre.length]? = some t := by rw [he]; simp
      rw [step_plain ht hv.1 (fun h => absurd h hv.2)]
      cases evalTerm sqrt st.flag st.stack t with
      | error e => rfl
      | ok r =>
        simp only [Except.map, bind, Except.bind, St.put, ← he]
  | lead h g b v =>
    obtain ⟨hG, hgr, hb, hevb⟩ := hv
    obtain ⟨hig, hpre, hpost⟩ := hg g (by simp [Item.groups])
    have hval : h.value = none := hclear h (by simp [Item.terms]) hG
    simp only [Item.terms, Item.collapse, Item.groups] at he ⊢
    refine ⟨{ h with value := some v } :: tag g b, st.ignore ++ [g] ++ subGroups b, rfl, ?_, ?_, ?_⟩
    · intro u hu g' hgu
      rcases List.mem_cons.1 hu with rfl | hu
      · simp only [hgr] at hgu; cases hgu
      · exact tag_groups hu hgu
    · intro k hk
      simp only [List.mem_append, mem_subGroups, List.mem_singleton] at hk
      simp only [List.mem_cons]
      tauto
    · rw [List.length_cons, List.range'_succ]
      simp only [loop]
      have ht : st.eq[pre.length]? = some h := by rw [he]; simp
      have hcol : collectGroup st.eq g = .ok b := by
        rw [he, show pre ++ (h :: tag g b) ++ post = (pre ++ [h]) ++ tag g b ++ post by simp]
        have hpre' : ∀ t ∈ pre ++ [h], t.group ≠ some g := by
          intro t ht
          rcases List.mem_append.1 ht with ht | ht
          · exact hpre t ht
          · simp only [List.mem_singleton] at ht; subst ht; rw [hgr]; simp
        rcases hb with hb | hb
        · exact collect_eq hpre' hpost hb
        · exact collect_headed hpre' hpost (fun k hk => (hg k (by simp only [Item.groups]; exact List.mem_cons_of_mem _ hk)).2.2) hb
      have hn : ∃ n, st.eq[pre.length + 1]? = some n ∧ n.group = some g := by
        obtain ⟨t, h0, hg0⟩ : ∃ t, b.head? = some t ∧ t.group = none := by
          rcases hb with hb | hb
          · exact ⟨_, hb.1.choose_spec.1, hb.1.choose_spec.2.1⟩
          · exact ⟨_, hb.1.choose_spec.1, hb.1.choose_spec.2.1⟩
        cases b with
        | nil => cases h0
        | cons u b =>
          simp only [List.head?_cons, Option.some.injEq] at h0
          subst h0
          exact ⟨tag1 g u, by rw [he, tag_eq]; simp [List.getElem?_append], by rw [tag1_group, hg0]; rfl⟩
      obtain ⟨n, hn1, hn2⟩ := hn
      have hset : setValue st.eq pre.length v = pre ++ { h with value := some v } :: tag g b ++ post := by
        rw [he, List.append_assoc, List.cons_append, setValue_at]; simp
      have hpart : groupPart (rpnCalc sqrt) st pre.length h = .ok (.eval { st with
          eq := pre ++ { h with value := some v } :: tag g b ++ post, ignore := st.ignore ++ [g] ++ subGroups b }) := by
        unfold groupPart
        rw [if_pos ⟨hG, hval, Or.inl hgr⟩]
        simp only [hgr, hn1, hn2, runGroup, hcol, hevb, bind, Except.bind, hset]
      have hstep : stepAt sqrt (rpnCalc sqrt) st pre.length = (evalTerm sqrt st.flag st.stack { h with typ := .A, value := some v }).map
          (fun r => { eq := pre ++ { h with value := some v } :: tag g b ++ post, stack := r.2, flag := r.1, ignore := st.ignore ++ [g] ++ subGroups b }) := by
        unfold stepAt
        rw [ht]
        simp only [hpart, bind, Except.bind]
        rw [show (pre ++ { h with value := some v } :: tag g b ++ post)[pre.length]? = some { h with value := some v } by simp]
        simp only [hgr]
        rw [evalTerm_header (t := { h with value := some v, group := none }) hG]
        cases evalTerm sqrt st.flag st.stack { h with typ := .A, value := some v, group := none } <;> rfl
      rw [hstep]
      cases evalTerm sqrt st.flag st.stack { h with typ := .A, value := some v } with
      | error e => rfl
      | ok r =>
        simp only [Except.map, bind, Except.bind]
        apply loop_skip
        intro j h1 h2
        rw [tag_length] at h2
        obtain ⟨k, rfl⟩ : ∃ k, j = pre.length + 1 + k := ⟨j - (pre.length + 1), by omega⟩
        obtain ⟨t, l, h3, h4, h5⟩ := tag_at (g := g) (b := b) (k := k) (by omega) st.ignore
        refine ⟨t, l, ?_, h4, h5⟩
        rw [List.append_assoc, List.getElem?_append_right (by omega), show pre.length + 1 + k - pre.length = k + 1 by omega, List.cons_append,
          List.getElem?_cons_succ, List.getElem?_append_left (by rw [tag_length]; omega)]
        exact h3
  | trail g b h v =>
    obtain ⟨hG, hgr, hb, hevb⟩ := hv
    obtain ⟨hig, hpre, hpost⟩ := hg g (by simp [Item.groups])
    have hval : h.value = none := hclear h (by simp [Item.terms]) hG
    simp only [Item.terms, Item.collapse, Item.groups] at he ⊢
    have htl : (tag g b).length = b.length := tag_length
    refine ⟨tag g b ++ [{ h with value := some v }], st.ignore ++ [g] ++ subGroups b, by simp, ?_, ?_, ?_⟩
    · intro u hu g' hgu
      rcases List.mem_append.1 hu with hu | hu
      · exact tag_groups hu hgu
      · simp only [List.mem_singleton] at hu; subst hu
        simp only [hgr] at hgu; cases hgu
    · intro k hk
      simp only [List.mem_append, mem_subGroups, List.mem_singleton] at hk
      simp only [List.mem_cons]
      tauto
    · obtain ⟨n, hbn⟩ : ∃ n, b.length = n + 1 := ⟨b.length - 1, by have := List.length_pos_iff.2 (members_ne hb); omega⟩
      have hmem : ∀ k, k < b.length → ∀ h', (pre ++ (tag g b ++ [h']) ++ post)[pre.length + k]? = (tag g b)[k]? := by
        intro k hk h'
        rw [List.append_assoc, List.append_assoc, List.getElem?_append_right (by omega), Nat.add_sub_cancel_left,
          List.getElem?_append_left (by omega)]
      rw [show (tag g b ++ [h]).length = 1 + (n + 1) by simp [htl, hbn]; omega, ← List.range'_append_1, List.range'_one]
      rw [List.cons_append, List.nil_append]
      have hfirst : ∃ t, (tag g b)[0]? = some t ∧ t.group = some g ∧ t.typ ≠ .G := by
        obtain ⟨⟨t, h0, hg0, hG0⟩, _⟩ := hb
        refine ⟨tag1 g t, ?_, by rw [tag1_group, hg0]; rfl, by rw [tag1_typ]; exact hG0⟩
        rw [tag_eq, List.getElem?_map, ← List.head?_eq_getElem?, h0]; rfl
      obtain ⟨t, ht0, htg, htG⟩ := hfirst
      have ht := hmem 0 (by omega) h
      rw [← he, Nat.add_zero, ht0] at ht
      have hcol : collectGroup st.eq g = .ok b := by
        rw [he, show pre ++ (tag g b ++ [h]) ++ post = pre ++ tag g b ++ (h :: post) by simp]
        apply collect_eq hpre _ hb
        intro t ht
        rcases List.mem_cons.1 ht with rfl | ht
        · rw [hgr]; simp
        · exact hpost t ht
      have hh : st.eq[pre.length + b.length]? = some h := by
        rw [he, List.append_assoc, List.append_assoc, List.getElem?_append_right (by omega), Nat.add_sub_cancel_left,
          List.getElem?_append_right (by omega), htl]; simp
      have hset : setValue st.eq (pre.length + b.length) v = pre ++ (tag g b ++ [{ h with value := some v }]) ++ post := by
        rw [he, show pre ++ (tag g b ++ [h]) ++ post = (pre ++ tag g b) ++ h :: post by simp,
          show pre.length + b.length = (pre ++ tag g b).length by simp [htl], setValue_at]; simp
      have hpart : groupPart (rpnCalc sqrt) st pre.length t = .ok (.eval { st with
          eq := pre ++ (tag g b ++ [{ h with value := some v }]) ++ post, ignore := st.ignore ++ [g] ++ subGroups b }) := by
        unfold groupPart
        rw [if_neg (fun hx => htG hx.1)]
        simp only [htg, hig, not_false_eq_true, if_true, hh, hG, runGroup, hcol, hevb, bind, Except.bind, hset]
      have ht' := hmem 0 (by omega) { h with value := some v }
      rw [Nat.add_zero, ht0] at ht'
      simp only [loop]
      have hstep : stepAt sqrt (rpnCalc sqrt) st pre.length = .ok { st with
          eq := pre ++ (tag g b ++ [{ h with value := some v }]) ++ post, ignore := st.ignore ++ [g] ++ subGroups b } := by
        unfold stepAt
        rw [ht]
        simp only [hpart, bind, Except.bind, ht', htg]
      rw [hstep]
      simp only [bind, Except.bind]
      rw [← List.range'_append_1, loop_append, loop_skip]
      · simp only [Except.bind, List.range'_one, loop, bind]
        rw [step_plain (t := { h with value := some v }) _ hgr (by simp)]
        · rw [evalTerm_header (t := { h with value := some v }) hG]
          cases evalTerm sqrt st.flag st.stack { h with typ := .A, value := some v } <;> rfl
        · have : pre.length + 1 + n = pre.length + b.length := by omega
          rw [this]
          simp only
          rw [List.append_assoc, List.append_assoc, List.getElem?_append_right (by omega), Nat.add_sub_cancel_left,
            List.getElem?_append_right (by omega), htl]; simp
      · intro j h1 h2
        obtain ⟨t, l, h3, h4, h5⟩ := tag_at (g := g) (b := b) (k := j - pre.length) (by omega) st.ignore
        refine ⟨t, l, ?_, h4, h5⟩
        rw [← h3, ← hmem (j - pre.length) (by omega) { h with value := some v }, show pre.length + (j - pre.length) = j by omega]

theorem terms_groups {sqrt : ℚ → ℚ} {it : Item} (hv : it.Valid sqrt) {t : Term} (ht : t ∈ it.terms) {g : String} (hg : t.group = some g) : g ∈ it.groups := by
  cases it with
  | term u =>
    simp only [Item.terms, List.mem_singleton] at ht
    subst ht
    rw [hv.1] at hg; cases hg
  | lead h g' b v =>
    rcases List.mem_cons.1 ht with rfl | ht
    · rw [hv.2.1] at hg; cases hg
    · exact tag_groups ht hg
  | trail g' b h v =>
    rcases List.mem_append.1 ht with ht | ht
    · exact tag_groups ht hg
    · simp only [List.mem_singleton] at ht
      subst ht
      rw [hv.2.1] at hg; cases hg

theorem loop_items {sqrt : ℚ → ℚ} (items : List Item) : ∀ (pre : List Term) (st : St),
    st.eq = pre ++ items.flatMap Item.terms → (∀ it ∈ items, it.Valid sqrt) →
    (∀ it ∈ items, ∀ t ∈ it.terms, t.typ = .G → t.value = none) →
    Apart items → (∀ it ∈ items, ∀ g ∈ it.groups, g ∉ st.ignore ∧ ∀ t ∈ pre, t.group ≠ some g) →
    (loop sqrt (rpnCalc sqrt) (List.range' pre.length (items.flatMap Item.terms).length) st).map (fun st => (st.flag, st.stack)) =
      evalAll sqrt (items.map Item.collapse) (st.flag, st.stack) := by
  induction items with
  | nil => intros; rfl
  | cons it items ih =>
    intro pre st he hv hcl hnd hg
    rw [List.flatMap_cons] at he
    rw [List.flatMap_cons, List.length_append, ← List.range'_append_1, loop_append, List.map_cons, evalAll]
    rw [← List.append_assoc] at he
    obtain ⟨hnd1, hnd2⟩ := List.pairwise_cons.1 hnd
    have hgrp : ∀ g ∈ it.groups, ∀ t ∈ items.flatMap Item.terms, t.group ≠ some g := by
      intro g hgi t ht hc
      obtain ⟨it', hit', ht⟩ := List.mem_flatMap.1 ht
      exact hnd1 it' hit' g hgi (terms_groups (hv it' (by simp [hit'])) ht hc)
    obtain ⟨T, ig, hT, hTg, hig, hl⟩ := loop_item he (hv it (by simp)) (hcl it (by simp))
      (fun g hgi => ⟨(hg it (by simp) g hgi).1, (hg it (by simp) g hgi).2, hgrp g hgi⟩)
    rw [hl]
    cases evalTerm sqrt st.flag st.stack it.collapse with
    | error e => rfl
    | ok r =>
      simp only [Except.map, Except.bind]
      have := ih (pre ++ T) { eq := pre ++ T ++ items.flatMap Item.terms, stack := r.2, flag := r.1, ignore := ig } rfl
        (fun i hi => hv i (by simp [hi])) (fun i hi => hcl i (by simp [hi])) hnd2 (by
          intro jt hjt g hgi
          have h0 := hg jt (by simp [hjt]) g hgi
          have hne : g ∉ it.groups := fun hc => hnd1 jt hjt g hc hgi
          refine ⟨fun hc => (hig g hc).elim h0.1 hne, fun t ht => ?_⟩
          rcases List.mem_append.1 ht with ht | ht
          · exact h0.2 t ht
          · exact fun hc => hne (hTg t ht g hc))
      rw [List.length_append, hT] at this
      exact this

/-- the item with the old values of headers removed -/
def Item.clear : Item → Item
  | .term t => .term t
  | .lead h g b v => .lead { h with value := none } g (clearGroupValues b) v
  | .trail g b h v => .trail g (clearGroupValues b) { h with value := none } v

/-- a term with the old value of a header removed -/
def clear1 (t : Term) : Term := if t.typ = .G ∧ t.value ≠ none then { t with value := none } else t

theorem clear_eq (eq : List Term) : clearGroupValues eq = eq.map clear1 := rfl

theorem clear1_group (t : Term) : (clear1 t).group = t.group := by unfold clear1; split <;> rfl

theorem clear1_typ (t : Term) : (clear1 t).typ = t.typ := by unfold clear1; split <;> rfl

theorem clear1_header {t : Term} (h : t.typ = .G) : clear1 t = { t with value := none } := by
  unfold clear1
  by_cases hv : t.value = none
  · rw [if_neg (by simp [hv])]; cases t; simp_all
  · rw [if_pos ⟨h, hv⟩]

theorem clear_tag {g : String} {b : List Term} : clearGroupValues (tag g b) = tag g (clearGroupValues b) := by
  rw [clear_eq, clear_eq, tag_eq, tag_eq, List.map_map, List.map_map]
  apply List.map_congr_left
  intro t _
  simp only [Function.comp, clear1, tag1_typ, tag1_value]
  unfold tag1
  cases hg : t.group with
  | none => simp only; split <;> simp [hg]
  | some k => simp only; split <;> simp [hg]

theorem clear_item {sqrt : ℚ → ℚ} {it : Item} (hv : it.Valid sqrt) : clearGroupValues it.terms = it.clear.terms := by
  cases it with
  | term t => exact clear_plain (fun u hu h => by simp only [Item.terms, List.mem_singleton] at hu; subst hu; exact absurd h hv.2)
  | lead h g b v =>
    simp only [Item.terms, Item.clear]
    rw [← clear_tag, clear_eq, List.map_cons, clear1_header hv.1, clear_eq]
  | trail g b h v =>
    simp only [Item.terms, Item.clear]
    rw [← clear_tag, clear_eq, List.map_append, List.map_cons, List.map_nil, clear1_header hv.1, clear_eq]

theorem clear_members {g : String} {b : List Term} (h : Members g b) : Members g (clearGroupValues b) := by
  obtain ⟨⟨t, h1, h2, h3⟩, ⟨u, h4, h5⟩, h6⟩ := h
  rw [clear_eq]
  refine ⟨⟨clear1 t, by rw [List.head?_map, h1]; rfl, by rw [clear1_group]; exact h2, by rw [clear1_typ]; exact h3⟩,
    ⟨clear1 u, by rw [List.getLast?_map, h4]; rfl, by rw [clear1_group]; exact h5⟩, ?_⟩
  intro w hw
  obtain ⟨w, hw', rfl⟩ := List.mem_map.1 hw
  rw [clear1_group]
  exact h6 w hw'

theorem clear_headed {g : String} {b : List Term} (h : HeadedMembers g b) : HeadedMembers g (clearGroupValues b) := by
  obtain ⟨⟨t, h1, h2, h3⟩, ⟨u, h4, h5⟩, h6, front, m, tail, h7, h8, h9, h10⟩ := h
  rw [clear_eq]
  refine ⟨⟨clear1 t, by rw [List.head?_map, h1]; rfl, by rw [clear1_group]; exact h2, by rw [clear1_typ]; exact h3⟩,
    ⟨clear1 u, by rw [List.getLast?_map, h4]; rfl, by rw [clear1_typ]; exact h5⟩, ?_, front.map clear1, clear1 m, tail.map clear1,
    by rw [h7, List.map_append, List.map_cons], by rw [clear1_group]; exact h8, ?_, ?_⟩
  · intro w hw
    obtain ⟨w, hw', rfl⟩ := List.mem_map.1 hw
    rw [clear1_group]
    exact h6 w hw'
  · intro w hw
    obtain ⟨w, hw', rfl⟩ := List.mem_map.1 hw
    rw [clear1_group]
    exact h9 w hw'
  · have key : ∀ l : List Term, l.IsChain (fun a b => a.typ = .G ∨ a.group = b.group) →
        (l.map clear1).IsChain (fun a b => a.typ = .G ∨ a.group = b.group) := by
      intro l
      induction l with
      | nil => exact fun h => h
      | cons a l ih =>
        intro h
        cases l with
        | nil => exact List.IsChain.singleton _
        | cons b l =>
          rw [List.isChain_cons_cons] at h
          rw [List.map_cons, List.map_cons, List.isChain_cons_cons]
          refine ⟨?_, ih h.2⟩
          rw [clear1_typ, clear1_group, clear1_group]
          exact h.1
    exact key _ h10

theorem clear_valid {sqrt : ℚ → ℚ} {it : Item} (h : it.Valid sqrt) : it.clear.Valid sqrt := by
  cases it with
  | term t => exact h
  | lead h' g b v => exact ⟨h.1, h.2.1, h.2.2.1.imp clear_members clear_headed, by rw [rpnCalc_clear]; exact h.2.2.2⟩
  | trail g b h' v => exact ⟨h.1, h.2.1, clear_members h.2.2.1, by rw [rpnCalc_clear]; exact h.2.2.2⟩

theorem clear_groups (it : Item) : it.clear.groups = it.groups := by
  have : ∀ b : List Term, (clearGroupValues b).filterMap Term.group = b.filterMap Term.group := by
    intro b
    rw [clear_eq, List.filterMap_map]
    congr 1
    funext t
    exact clear1_group t
  cases it with
  | term t => rfl
  | lead h g b v => simp only [Item.clear, Item.groups, this]
  | trail g b h v => simp only [Item.clear, Item.groups, this]

theorem collapse_plain {sqrt : ℚ → ℚ} {items : List Item} (hv : ∀ it ∈ items, it.Valid sqrt) :
    ∀ t ∈ items.map Item.collapse, t.group = none ∧ t.typ ≠ .G := by
  intro t ht
  obtain ⟨it, hit, rfl⟩ := List.mem_map.1 ht
  have := hv it hit
  cases it with
  | term t => exact this
  | lead h g b v => exact ⟨this.2.1, by simp [Item.collapse]⟩
  | trail g b h v => exact ⟨this.2.1, by simp [Item.collapse]⟩

theorem rpn_items {sqrt : ℚ → ℚ} {items : List Item} (hv : ∀ it ∈ items, it.Valid sqrt) (hn : Apart items) :
    rpnCalc sqrt (items.flatMap Item.terms) = rpnCalc sqrt (items.map Item.collapse) := by
  rw [rpnCalc_plain (collapse_plain hv)]
  have hclr : clearGroupValues (items.flatMap Item.terms) = (items.map Item.clear).flatMap Item.terms := by
    clear hn
    induction items with
    | nil => rfl
    | cons it items ih =>
      simp only [List.flatMap_cons, List.map_cons]
      rw [← ih (fun i hi => hv i (by simp [hi])), ← clear_item (hv it (by simp))]
      simp [clearGroupValues]
  have hlen : ((items.map Item.clear).flatMap Item.terms).length = (items.flatMap Item.terms).length := by
    rw [← hclr]; simp [clearGroupValues]
  have hcol : (items.map Item.clear).map Item.collapse = items.map Item.collapse := by
    rw [List.map_map]
    apply List.map_congr_left
    intro it _
    cases it <;> rfl
  have := loop_items (sqrt := sqrt) (items.map Item.clear) [] { eq := clearGroupValues (items.flatMap Item.terms) } (by rw [hclr]; rfl)
    (by
      intro it hit
      obtain ⟨jt, hjt, rfl⟩ := List.mem_map.1 hit
      exact clear_valid (hv jt hjt))
    (by
      intro it hit t ht hG
      obtain ⟨jt, hjt, rfl⟩ := List.mem_map.1 hit
      rw [← clear_item (hv jt hjt), clear_eq] at ht
      obtain ⟨u, _, rfl⟩ := List.mem_map.1 ht
      rw [clear1_typ] at hG
      rw [clear1_header hG])
    (by
      unfold Apart
      rw [List.pairwise_map]
      simp only [clear_groups]
      exact hn)
    (by intro it _ g hg; exact ⟨by simp, by simp⟩)
  rw [hlen, hcol] at this
  rw [rpnCalc_eq]
  simp only [rpnWith, List.range_eq_range']
  simp only [List.length_nil] at this
  rw [← this]
  cases loop sqrt (rpnCalc sqrt) (List.range' 0 (items.flatMap Item.terms).length) { eq := clearGroupValues (items.flatMap Item.terms) } <;> rfl

end Verif.Rpn
