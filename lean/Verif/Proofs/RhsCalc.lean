import Verif.Proofs.Tables
import Verif.Proofs.RpnRun
import Verif.Spec.RhsCalc

/-! # The stateful calculator computes the specified values -/

namespace Verif.Rpn

/-- the term gets its value from the data -/
def Data.sourced (d : Data) (t : Term) : Bool :=
  t.typ.measured || (d.source t.typ t.id).isSome || (decide (t.typ = .X) && d.generic.has t.id)

/-- forget what evaluations write -/
def Data.eraseTerm (d : Data) (t : Term) : Term :=
  if d.sourced t = true ∨ t.typ = .G then { t with value := none } else t

/-- forget what evaluations write in all stored equations -/
def eraseDict (f : Term → Term) (g : Dict String (List Term)) : Dict String (List Term) := g.map (fun p => (p.1, p.2.map f))

/-- forget what evaluations write in all stored equations -/
def Data.erase (d : Data) : Data :=
  { d with generic := eraseDict d.eraseTerm d.generic, rhs := eraseDict d.eraseTerm d.rhs }

theorem get?_eraseDict (f : Term → Term) (g : Dict String (List Term)) (id : String) :
    Dict.get? (eraseDict f g) id = (Dict.get? g id).map (List.map f) := by
  induction g with
  | nil => rfl
  | cons p g ih =>
    obtain ⟨k, v⟩ := p
    change Dict.get? ((k, v.map f) :: eraseDict f g) id = _
    simp only [Dict.get?]
    split
    · rfl
    · exact ih

theorem has_eraseDict (f : Term → Term) (g : Dict String (List Term)) (id : String) : Dict.has (eraseDict f g) id = Dict.has g id := by
  unfold Dict.has
  rw [get?_eraseDict]
  cases Dict.get? g id <;> rfl

theorem eraseDict_set (f : Term → Term) (g : Dict String (List Term)) (id : String) (eq : List Term) :
    eraseDict f (Dict.set g id eq) = Dict.set (eraseDict f g) id (eq.map f) := by
  induction g with
  | nil => rfl
  | cons p g ih =>
    obtain ⟨k, v⟩ := p
    change eraseDict f (Dict.set ((k, v) :: g) id eq) = Dict.set ((k, v.map f) :: eraseDict f g) id (eq.map f)
    simp only [Dict.set]
    split
    · rfl
    · change (k, v.map f) :: eraseDict f (Dict.set g id eq) = _
      rw [ih]

theorem set_get? {κ α : Type} [DecidableEq κ] {d : Dict κ α} {k : κ} {v : α} (h : Dict.get? d k = some v) : Dict.set d k v = d := by
  induction d with
  | nil => cases h
  | cons p d ih =>
    obtain ⟨k', v'⟩ := p
    simp only [Dict.get?, Dict.set] at h ⊢
    split
    · rename_i hk; rw [if_pos hk] at h; injection h with h; rw [h]
    · rename_i hk; rw [if_neg hk] at h; rw [ih h]

theorem has_set {κ α : Type} [DecidableEq κ] {d : Dict κ α} {k : κ} {v w : α} (h : Dict.get? d k = some w) (k' : κ) :
    Dict.has (Dict.set d k v) k' = Dict.has d k' := by
  unfold Dict.has
  by_cases hk : k = k'
  · subst hk; rw [Dict.get?_set_self, h]; rfl
  · rw [Dict.get?_set_ne _ _ hk]

theorem erase_sourced (d : Data) (t : Term) : d.erase.sourced t = d.sourced t := by
  unfold Data.sourced
  have : d.erase.generic.has t.id = d.generic.has t.id := has_eraseDict _ _ _
  rw [this]
  rfl

/-- `sourced` only looks at type and id -/
theorem sourced_congr (d : Data) {t u : Term} (h1 : t.typ = u.typ) (h2 : t.id = u.id) : d.sourced t = d.sourced u := by
  unfold Data.sourced
  rw [h1, h2]

theorem erase_term_eq (d : Data) : d.erase.eraseTerm = d.eraseTerm := by
  funext t
  unfold Data.eraseTerm
  rw [erase_sourced]

theorem eraseTerm_typ (d : Data) (t : Term) : (d.eraseTerm t).typ = t.typ := by unfold Data.eraseTerm; split <;> rfl

theorem eraseTerm_id (d : Data) (t : Term) : (d.eraseTerm t).id = t.id := by unfold Data.eraseTerm; split <;> rfl

theorem eraseTerm_idem (d : Data) (t : Term) : d.eraseTerm (d.eraseTerm t) = d.eraseTerm t := by
  conv_lhs => rw [Data.eraseTerm]
  rw [sourced_congr d (eraseTerm_typ d t) (eraseTerm_id d t), eraseTerm_typ]
  unfold Data.eraseTerm
  split <;> rfl

/-- the same calculator up to what evaluations write -/
def Same (d d' : Data) : Prop := d.erase = d'.erase

theorem Same.sourced {d d' : Data} (h : Same d d') (t : Term) : d.sourced t = d'.sourced t := by
  rw [← erase_sourced d, ← erase_sourced d', h]

theorem Same.eraseTerm {d d' : Data} (h : Same d d') : d.eraseTerm = d'.eraseTerm := by
  rw [← erase_term_eq d, ← erase_term_eq d', h]

theorem Same.source {d d' : Data} (h : Same d d') : d.source = d'.source := by
  have : d.erase.source = d'.erase.source := by rw [h]
  exact this

theorem Same.has {d d' : Data} (h : Same d d') (id : String) : d.generic.has id = d'.generic.has id := by
  have h1 : d.erase.generic.has id = d.generic.has id := has_eraseDict _ _ _
  have h2 : d'.erase.generic.has id = d'.generic.has id := has_eraseDict _ _ _
  rw [← h1, ← h2, h]

/-! ### The values only depend on what is not erased -/

theorem fill_congr {d d' : Data} (hs : d.source = d'.source) (hg : ∀ id, d.generic.has id = d'.generic.has id) (sub : String → Except RErr ℚ) (t : Term) :
    d.fill sub t = d'.fill sub t := by
  unfold Data.fill
  rw [hs, hg]

theorem fillAll_congr {d d' : Data} (hs : d.source = d'.source) (hg : ∀ id, d.generic.has id = d'.generic.has id) (sub : String → Except RErr ℚ) (eq : List Term) :
    d.fillAll sub eq = d'.fillAll sub eq := by
  induction eq with
  | nil => rfl
  | cons t eq ih => simp only [Data.fillAll, fill_congr hs hg, ih]

theorem fill_erase (d : Data) (sub : String → Except RErr ℚ) (t : Term) : d.fill sub (d.eraseTerm t) = (d.fill sub t).map clear1 := by
  unfold Data.fill
  rw [eraseTerm_typ, eraseTerm_id]
  have hne : d.sourced t = true → t.typ ≠ .G := by
    unfold Data.sourced
    intro h hG
    rw [hG] at h
    simp [SpdType.measured, Data.source] at h
  have hwith : ∀ v : ℚ, d.sourced t = true → (d.eraseTerm t).put v = clear1 (t.put v) := by
    intro v h
    unfold clear1 Data.eraseTerm
    rw [if_pos (Or.inl h), if_neg]
    · rfl
    · exact fun hc => hne h hc.1
  cases hs : d.source t.typ t.id with
  | some v =>
    simp only [Except.map]
    rw [hwith v (by simp [Data.sourced, hs])]
  | none =>
    simp only
    by_cases hm : t.typ.measured = true
    · rw [if_pos hm, if_pos hm]; rfl
    · rw [if_neg hm, if_neg hm]
      by_cases hx : t.typ = .X ∧ d.generic.has t.id = true
      · rw [if_pos hx, if_pos hx]
        have hsrc : d.sourced t = true := by simp [Data.sourced, hx]
        cases sub t.id with
        | error e => rfl
        | ok v =>
          simp only [Except.map]
          rw [hwith v hsrc]
      · rw [if_neg hx, if_neg hx]
        have hsrc : d.sourced t ≠ true := by
          have hm' : t.typ.measured = false := by simpa using hm
          simp only [Data.sourced, hm', hs, Option.isSome_none, Bool.or_false, Bool.false_or]
          intro hc
          rw [Bool.and_eq_true, decide_eq_true_eq] at hc
          exact hx hc
        simp only [Except.map]
        congr 1
        unfold Data.eraseTerm clear1
        by_cases hG : t.typ = .G
        · rw [if_pos (Or.inr hG)]
          by_cases hv : t.value = none
          · rw [if_neg (by simp [hv])]; cases t; simp_all
          · rw [if_pos ⟨hG, hv⟩]
        · rw [if_neg (by simp [hsrc, hG]), if_neg (by simp [hG])]

theorem fillAll_erase (d : Data) (sub : String → Except RErr ℚ) (eq : List Term) :
    d.fillAll sub (eq.map d.eraseTerm) = (d.fillAll sub eq).map (List.map clear1) := by
  induction eq with
  | nil => rfl
  | cons t eq ih =>
    simp only [List.map_cons, Data.fillAll, ih, fill_erase]
    cases d.fill sub t with
    | error e => rfl
    | ok u =>
      simp only [Except.map, Except.bind]
      cases d.fillAll sub eq <;> rfl

theorem value_erase (sqrt : ℚ → ℚ) (d : Data) (sub : String → Except RErr ℚ) (eq : List Term) :
    (d.erase.fillAll sub (eq.map d.eraseTerm)).bind (rpnCalc sqrt) = (d.fillAll sub eq).bind (rpnCalc sqrt) := by
  rw [fillAll_congr (d := d.erase) (d' := d) rfl (fun id => has_eraseDict _ _ _), fillAll_erase]
  cases d.fillAll sub eq with
  | error e => rfl
  | ok eq =>
    simp only [Except.map, Except.bind]
    rw [← clear_eq, rpnCalc_clear]

theorem genericValue_erase (sqrt : ℚ → ℚ) (d : Data) (n : Nat) (id : String) : d.erase.genericValue sqrt n id = d.genericValue sqrt n id := by
  induction n generalizing id with
  | zero => rfl
  | succ n ih =>
    simp only [Data.genericValue]
    rw [show d.erase.generic.get? id = (d.generic.get? id).map (List.map d.eraseTerm) from get?_eraseDict _ _ _]
    cases d.generic.get? id with
    | none => rfl
    | some eq =>
      simp only [Option.map]
      rw [show d.erase.genericValue sqrt n = d.genericValue sqrt n from funext ih]
      exact value_erase sqrt d _ eq

theorem rhsValue_erase (sqrt : ℚ → ℚ) (d : Data) (n : Nat) (id : String) : d.erase.rhsValue sqrt n id = d.rhsValue sqrt n id := by
  unfold Data.rhsValue
  rw [show d.erase.rhs.get? id = (d.rhs.get? id).map (List.map d.eraseTerm) from get?_eraseDict _ _ _]
  cases d.rhs.get? id with
  | none => rfl
  | some eq =>
    simp only [Option.map]
    rw [show d.erase.genericValue sqrt n = d.genericValue sqrt n from funext (genericValue_erase sqrt d n)]
    exact value_erase sqrt d _ eq

theorem Same.genericValue {d d' : Data} (h : Same d d') (sqrt : ℚ → ℚ) (n : Nat) (id : String) : d.genericValue sqrt n id = d'.genericValue sqrt n id := by
  rw [← genericValue_erase, ← genericValue_erase sqrt d', h]

theorem Same.rhsValue {d d' : Data} (h : Same d d') (sqrt : ℚ → ℚ) (n : Nat) (id : String) : d.rhsValue sqrt n id = d'.rhsValue sqrt n id := by
  rw [← rhsValue_erase, ← rhsValue_erase sqrt d', h]

/-! ### The calculator -/

theorem eqOf_erase (d : Data) (r : Ref) : d.erase.eqOf r = (d.eqOf r).map (List.map d.eraseTerm) := by
  cases r <;> exact get?_eraseDict _ _ _

theorem Same.eqOf {d d' : Data} (h : Same d d') (r : Ref) : (d.eqOf r).map (List.map d.eraseTerm) = (d'.eqOf r).map (List.map d.eraseTerm) := by
  have := eqOf_erase d' r
  rw [← h, ← h.eraseTerm, eqOf_erase] at this
  exact this

/-- a write that is forgotten -/
theorem modify_same {d : Data} {r : Ref} {f : List Term → List Term}
    (h : ∀ eq, d.eqOf r = some eq → (f eq).map d.eraseTerm = eq.map d.eraseTerm) : Same d (d.modify r f) := by
  cases r with
  | generic id =>
    cases hg : d.generic.get? id with
    | none =>
      have : d.modify (.generic id) f = d := by simp only [Data.modify, onKey, hg]
      rw [this]; rfl
    | some eq =>
      have hm : d.modify (.generic id) f = { d with generic := d.generic.set id (f eq) } := by simp only [Data.modify, onKey, hg]
      rw [hm]
      have herase : Data.eraseTerm { d with generic := d.generic.set id (f eq) } = d.eraseTerm := by
        funext t
        unfold Data.eraseTerm Data.sourced
        simp only [has_set hg]
        rfl
      unfold Same Data.erase
      rw [herase]
      simp only [eraseDict_set, h eq hg]
      rw [set_get? (by rw [get?_eraseDict, hg]; rfl)]
  | rhs id =>
    cases hg : d.rhs.get? id with
    | none =>
      have : d.modify (.rhs id) f = d := by simp only [Data.modify, onKey, hg]
      rw [this]; rfl
    | some eq =>
      have hm : d.modify (.rhs id) f = { d with rhs := d.rhs.set id (f eq) } := by simp only [Data.modify, onKey, hg]
      rw [hm]
      have herase : Data.eraseTerm { d with rhs := d.rhs.set id (f eq) } = d.eraseTerm := rfl
      unfold Same Data.erase
      rw [herase]
      simp only [eraseDict_set, h eq hg]
      rw [set_get? (by rw [get?_eraseDict, hg]; rfl)]

/-- a method that returns a value depending on what is not erased and changes only what is erased -/
def Clean (sub : String → Data → Res ℚ) (val : Data → String → Except RErr ℚ) : Prop :=
  ∀ id d, (sub id d).1 = val d id ∧ Same d (sub id d).2

/-- a term with the value found -/
def found (t : Term) : Except RErr (Option ℚ) → Except RErr Term
  | .error e => .error e
  | .ok none => .ok t
  | .ok (some v) => .ok (t.put v)

/-- finding the value of a term -/
def ResolveOk (sub : String → Data → Res ℚ) (val : Data → String → Except RErr ℚ) (t : Term) (d : Data) : Prop :=
  found t (resolveTerm sub t d).1 = d.fill (val d) t ∧ Same d (resolveTerm sub t d).2 ∧
    (∀ v, (resolveTerm sub t d).1 = .ok (some v) → d.sourced t = true)

theorem resolveTerm_eq {sub : String → Data → Res ℚ} {val : Data → String → Except RErr ℚ} (hs : Clean sub val) (t : Term) (d : Data) :
    ResolveOk sub val t d := by
  have hmeas : t.typ.measured = true → (∀ i, d.source t.typ i = (d.scada.get? (t.typ, i)).map (fun v => v.1 + v.2.sum)) →
      resolveTerm sub t d = (match d.scada.get? (t.typ, t.id) with
        | none => (.error .keyError, d)
        | some (v, vs) => (.ok (some (v + vs.sum)), d)) →
      ResolveOk sub val t d := by
    intro hm hsrc hr
    unfold ResolveOk
    rw [hr]
    have hsd : d.sourced t = true := by simp [Data.sourced, hm]
    unfold Data.fill
    rw [hsrc, hm]
    cases d.scada.get? (t.typ, t.id) with
    | none => exact ⟨rfl, rfl, fun v h => by cases h⟩
    | some v => exact ⟨rfl, rfl, fun _ _ => hsd⟩
  have hdict : ∀ o : Option ℚ, d.source t.typ t.id = o → t.typ.measured = false → t.typ ≠ .X → resolveTerm sub t d = (.ok o, d) →
      ResolveOk sub val t d := by
    intro o hsrc hm hX hr
    unfold ResolveOk
    rw [hr]
    unfold Data.fill
    rw [hsrc, hm]
    cases o with
    | none => exact ⟨by simp [hX, found], rfl, fun v h => by cases h⟩
    | some v => exact ⟨rfl, rfl, fun _ _ => by simp [Data.sourced, hsrc]⟩
  cases ht : t.typ
  case A | S | R | I | W =>
    refine hmeas (by rw [ht]; rfl) (fun i => by rw [ht]; rfl) ?_
    unfold resolveTerm
    rw [ht]
    rfl
  case X =>
    have hsrc : d.source t.typ t.id = none := by rw [ht]; rfl
    have hm : t.typ.measured = false := by rw [ht]; rfl
    unfold ResolveOk Data.fill
    rw [hsrc, hm]
    have hr : resolveTerm sub t d = (match d.generic.get? t.id with
      | none => (.ok none, d)
      | some _ =>
        match sub t.id d with
        | (.ok v, d) => (.ok (some v), d)
        | (.error e, d) => (.error e, d)) := by unfold resolveTerm; rw [ht]; rfl
    rw [hr]
    cases hg : d.generic.get? t.id with
    | none =>
      refine ⟨?_, rfl, fun v h => by cases h⟩
      simp [Dict.has, hg, found]
    | some eq =>
      obtain ⟨h1, h2⟩ := hs t.id d
      have hh : d.generic.has t.id = true := by simp [Dict.has, hg]
      cases hsub : sub t.id d with
      | mk r d2 =>
        rw [hsub] at h1 h2
        simp only at h1 h2
        simp only [ht, hh, and_self, if_true, ← h1]
        cases r with
        | error e => exact ⟨rfl, h2, fun v h => by cases h⟩
        | ok v => exact ⟨rfl, h2, fun _ _ => by simp [Data.sourced, ht, hh]⟩
  all_goals
    refine hdict _ rfl (by rw [ht]; rfl) (by rw [ht]; simp) ?_
    unfold resolveTerm
    rw [ht]
    rfl

theorem setValue_erase {d : Data} {eq : List Term} {i : Nat} {v : ℚ} (h : ∀ t, eq[i]? = some t → d.sourced t = true) :
    (setValue eq i v).map d.eraseTerm = eq.map d.eraseTerm := by
  unfold setValue
  induction eq generalizing i with
  | nil => cases i <;> rfl
  | cons t eq ih =>
    cases i with
    | zero =>
      simp only [List.modify_zero_cons, List.map_cons, List.cons.injEq, and_true]
      have h0 := h t rfl
      have h1 : d.sourced { t with value := some v } = true := by rw [← h0]; exact sourced_congr d rfl rfl
      unfold Data.eraseTerm
      rw [if_pos (Or.inl h0), if_pos (Or.inl h1)]
    | succ i =>
      simp only [List.modify_succ_cons, List.map_cons]
      rw [ih (fun u hu => h u (by simpa using hu))]

theorem resolveAll_eq {sub : String → Data → Res ℚ} {val : Data → String → Except RErr ℚ} (hs : Clean sub val)
    (hval : ∀ d d', Same d d' → val d = val d') (r : Ref) (ts : List Term) :
    ∀ (i : Nat) (d : Data), (∀ eq, d.eqOf r = some eq → (eq.drop i).map d.eraseTerm = ts.map d.eraseTerm) →
      (resolveAll sub r i ts d).1 = d.fillAll (val d) ts ∧ Same d (resolveAll sub r i ts d).2 := by
  induction ts with
  | nil => intro i d _; exact ⟨rfl, rfl⟩
  | cons t ts ih =>
    intro i d hst
    obtain ⟨h1, h2, h3⟩ := resolveTerm_eq hs t d
    rw [resolveAll, Data.fillAll, ← h1]
    cases hrt : resolveTerm sub t d with
    | mk o d1 =>
      rw [hrt] at h2 h3
      simp only at h2 h3
      have key : ∀ d2 : Data, Same d d2 →
          (resolveAll sub r (i + 1) ts d2).1 = d.fillAll (val d) ts ∧ Same d (resolveAll sub r (i + 1) ts d2).2 := by
        intro d2 hd2
        obtain ⟨h4, h5⟩ := ih (i + 1) d2 (by
          intro eq heq
          have he := hd2.eqOf r
          rw [heq] at he
          cases hd : d.eqOf r with
          | none => rw [hd] at he; cases he
          | some eq0 =>
            rw [hd] at he
            simp only [Option.map, Option.some.injEq] at he
            have h6 := hst eq0 hd
            rw [← hd2.eraseTerm, List.map_drop, ← he, ← List.map_drop]
            have h7 : ((eq0.drop i).map d.eraseTerm).tail = (eq0.drop (i + 1)).map d.eraseTerm := by
              rw [← List.map_tail, List.tail_drop]
            rw [← h7, h6]; rfl)
        refine ⟨?_, (show d.erase = _ from hd2.trans h5)⟩
        rw [h4, ← hval d d2 hd2]
        exact fillAll_congr hd2.source.symm (fun id => (hd2.has id).symm) _ _
      cases o with
      | error e => exact ⟨rfl, h2⟩
      | ok o =>
        cases o with
        | none =>
          obtain ⟨h4, h5⟩ := key d1 h2
          simp only [Except.bind]
          rw [← h4]
          cases hra : resolveAll sub r (i + 1) ts d1 with
          | mk o2 d3 =>
            rw [hra] at h5
            cases o2 <;> exact ⟨rfl, h5⟩
        | some v =>
          have hsrc := h3 v rfl
          have hw : Same d1 (d1.modify r (fun eq => setValue eq i v)) := by
            apply modify_same
            intro eq heq
            apply setValue_erase
            intro u hu
            have he := h2.eqOf r
            rw [heq] at he
            cases hd : d.eqOf r with
            | none => rw [hd] at he; cases he
            | some eq0 =>
              rw [hd] at he
              simp only [Option.map, Option.some.injEq] at he
              have h6 := hst eq0 hd
              rw [List.map_drop, he, ← List.map_drop] at h6
              have h8 : (eq.drop i)[0]? = some u := by rw [List.getElem?_drop]; simpa using hu
              have h9 : ((eq.drop i).map d.eraseTerm)[0]? = some (d.eraseTerm t) := by rw [h6]; rfl
              rw [List.getElem?_map, h8] at h9
              simp only [Option.map, Option.some.injEq] at h9
              rw [← h2.sourced, sourced_congr d (u := t) ?_ ?_]
              · exact hsrc
              · rw [← eraseTerm_typ d u, h9, eraseTerm_typ]
              · rw [← eraseTerm_id d u, h9, eraseTerm_id]
          obtain ⟨h4, h5⟩ := key _ (show d.erase = _ from h2.trans hw)
          simp only [Except.bind]
          rw [← h4]
          cases hra : resolveAll sub r (i + 1) ts (d1.modify r (fun eq => setValue eq i v)) with
          | mk o2 d3 =>
            rw [hra] at h5
            cases o2 <;> exact ⟨rfl, h5⟩

/-! ### Evaluating does not change anything else -/

theorem setValue_clear {eq : List Term} {i : Nat} {v : ℚ} (h : ∀ t, eq[i]? = some t → t.typ = .G) : clearGroupValues (setValue eq i v) = clearGroupValues eq := by
  unfold setValue
  rw [clear_eq, clear_eq]
  induction eq generalizing i with
  | nil => cases i <;> rfl
  | cons t eq ih =>
    cases i with
    | zero =>
      simp only [List.modify_zero_cons, List.map_cons, List.cons.injEq, and_true]
      rw [clear1_header (h t rfl), clear1_header (show ({ t with value := some v } : Term).typ = .G from h t rfl)]
    | succ i =>
      simp only [List.modify_succ_cons, List.map_cons]
      rw [ih (fun u hu => h u (by simpa using hu))]

theorem stepAt_clear {sqrt : ℚ → ℚ} {ev : List Term → Except RErr ℚ} {st st' : St} {i : Nat} (h : stepAt sqrt ev st i = .ok st') :
    clearGroupValues st'.eq = clearGroupValues st.eq := by
  have hrg : ∀ {g : String} {put : List Term → ℚ → Except RErr St} {s : St},
      (∀ b r st', put b r = .ok st' → clearGroupValues st'.eq = clearGroupValues st.eq) → runGroup ev st g put = .ok s →
      clearGroupValues s.eq = clearGroupValues st.eq := by
    intro g put s hput h
    unfold runGroup at h
    obtain ⟨b, _, h⟩ := bind_ok.1 h
    obtain ⟨r, _, h⟩ := bind_ok.1 h
    obtain ⟨s', hs, h⟩ := bind_ok.1 h
    injection h with h
    subst h
    exact hput b r s' hs
  have hgp : ∀ {t : Term} {r : Next}, st.eq[i]? = some t → groupPart ev st i t = .ok r → clearGroupValues r.st.eq = clearGroupValues st.eq := by
    intro t r ht h
    have hset : ∀ (i : Nat) (r : ℚ) (st' : St), (∀ t, st.eq[i]? = some t → t.typ = .G) → (Except.ok { st with eq := setValue st.eq i r } : Except RErr St) = .ok st' →
        clearGroupValues st'.eq = clearGroupValues st.eq := by
      intro i r st' hG h
      injection h with h
      subst h
      exact setValue_clear hG
    unfold groupPart at h
    split at h
    · rename_i hc
      have hG : ∀ u, st.eq[i]? = some u → u.typ = .G := by
        intro u hu; rw [ht] at hu; injection hu with hu; subst hu; exact hc.1
      split at h
      · obtain ⟨s, hs, h⟩ := bind_ok.1 h
        injection h with h; subst h
        exact hrg (fun b r st' h => hset i r st' hG h) hs
      · split at h
        · cases h
        · split at h
          · injection h with h; subst h; rfl
          · obtain ⟨s, hs, h⟩ := bind_ok.1 h
            injection h with h; subst h
            exact hrg (fun b r st' h => hset i r st' hG h) hs
    · split at h
      · split at h
        · obtain ⟨s, hs, h⟩ := bind_ok.1 h
          injection h with h; subst h
          refine hrg (fun b r st' h => ?_) hs
          split at h
          · cases h
          · rename_i n hn
            split at h
            · rename_i hG
              refine hset _ r st' (fun u hu => ?_) h
              rw [hn] at hu; injection hu with hu; subst hu; exact hG
            · obtain ⟨a, _, h⟩ := bind_ok.1 h
              injection h with h; subst h; rfl
        · injection h with h; subst h; rfl
      · injection h with h; subst h; rfl
  unfold stepAt at h
  split at h
  · injection h with h; subst h; rfl
  · rename_i t ht
    obtain ⟨r, hr, h⟩ := bind_ok.1 h
    have := hgp ht hr
    split at h
    · injection h with h; subst h; exact this
    · split at h
      · injection h with h; subst h; exact this
      · split at h
        · injection h with h; subst h; exact this
        · obtain ⟨q, _, h⟩ := bind_ok.1 h
          injection h with h; subst h; exact this

theorem loop_clear {sqrt : ℚ → ℚ} {ev : List Term → Except RErr ℚ} (is : List Nat) : ∀ (st st' : St), loop sqrt ev is st = .ok st' →
    clearGroupValues st'.eq = clearGroupValues st.eq := by
  induction is with
  | nil => intro st st' h; injection h with h; subst h; rfl
  | cons i is ih =>
    intro st st' h
    simp only [loop] at h
    obtain ⟨s, hs, h⟩ := bind_ok.1 h
    rw [ih s st' h, stepAt_clear hs]

theorem rpnWith_clear {sqrt : ℚ → ℚ} {ev : List Term → Except RErr ℚ} {eq : List Term} {st : St} (h : rpnWith sqrt ev eq = .ok st) :
    clearGroupValues st.eq = clearGroupValues eq := by
  rw [loop_clear _ _ _ h, clear_clear]

theorem fillAll_map_erase {d : Data} {sub : String → Except RErr ℚ} {eq eq' : List Term} (h : d.fillAll sub eq = .ok eq') :
    eq'.map d.eraseTerm = eq.map d.eraseTerm := by
  induction eq generalizing eq' with
  | nil => injection h with h; subst h; rfl
  | cons t eq ih =>
    simp only [Data.fillAll] at h
    obtain ⟨u, hu, h⟩ := bind_ok.1 h
    obtain ⟨us, hus, rfl⟩ := map_ok.1 h
    rw [List.map_cons, List.map_cons, ih hus]
    congr 1
    have hsrc : ∀ v : ℚ, d.sourced t = true → d.eraseTerm { t with value := some v } = d.eraseTerm t := by
      intro v h0
      have h1 : d.sourced { t with value := some v } = true := by rw [← h0]; exact sourced_congr d rfl rfl
      unfold Data.eraseTerm
      rw [if_pos (Or.inl h0), if_pos (Or.inl h1)]
    unfold Data.fill at hu
    split at hu
    · rename_i v hv
      injection hu with hu; subst hu
      exact hsrc v (by simp [Data.sourced, hv])
    · split at hu
      · cases hu
      · split at hu
        · rename_i hx
          obtain ⟨v, _, rfl⟩ := map_ok.1 hu
          exact hsrc v (by simp [Data.sourced, hx])
        · injection hu with hu; subst hu; rfl

theorem erase_of_clear {d : Data} {eq eq' : List Term} (h : clearGroupValues eq = clearGroupValues eq') : eq.map d.eraseTerm = eq'.map d.eraseTerm := by
  have : ∀ l : List Term, (clearGroupValues l).map d.eraseTerm = l.map d.eraseTerm := by
    intro l
    rw [clear_eq, List.map_map]
    apply List.map_congr_left
    intro t _
    simp only [Function.comp]
    unfold clear1
    split
    · rename_i hc
      unfold Data.eraseTerm
      rw [if_pos (Or.inr hc.1), if_pos (Or.inr hc.1)]
    · rfl
  rw [← this eq, h, this]

theorem computeEq_clean {sqrt : ℚ → ℚ} {sub : String → Data → Res ℚ} {val : Data → String → Except RErr ℚ} (hs : Clean sub val)
    (hval : ∀ d d', Same d d' → val d = val d') (r : Ref) (d : Data) :
    (computeEq sqrt sub r d).1 = (match d.eqOf r with
      | none => .error .keyError
      | some eq => (d.fillAll (val d) eq).bind (rpnCalc sqrt)) ∧ Same d (computeEq sqrt sub r d).2 := by
  unfold computeEq
  cases hd : d.eqOf r with
  | none => exact ⟨rfl, rfl⟩
  | some eq =>
    simp only
    obtain ⟨h1, h2⟩ := resolveAll_eq hs hval r eq 0 d (by intro e he; rw [hd] at he; injection he with he; subst he; rfl)
    rw [← h1]
    cases hra : resolveAll sub r 0 eq d with
    | mk o d1 =>
      rw [hra] at h1 h2
      simp only at h1 h2
      cases o with
      | error e => exact ⟨rfl, h2⟩
      | ok eq' =>
        simp only [Except.bind]
        have herase := fillAll_map_erase h1.symm
        rw [rpnCalc_eq]
        have hput : ∀ eq2, clearGroupValues eq2 = clearGroupValues eq' → Same d1 (d1.modify r (fun _ => eq2)) := by
          intro eq2 hc
          apply modify_same
          intro e he
          have h3 := h2.eqOf r
          rw [hd, he] at h3
          simp only [Option.map, Option.some.injEq] at h3
          rw [← h2.eraseTerm, ← h3, ← herase]
          exact erase_of_clear hc
        cases hw : rpnWith sqrt (rpnCalc sqrt) eq' with
        | error e => exact ⟨rfl, (show d.erase = _ from h2.trans (hput _ (clear_clear _)))⟩
        | ok st => exact ⟨rfl, (show d.erase = _ from h2.trans (hput _ (rpnWith_clear hw)))⟩

theorem computeGeneric_clean (sqrt : ℚ → ℚ) (n : Nat) : Clean (computeGeneric sqrt n) (fun d => d.genericValue sqrt n) := by
  induction n with
  | zero => intro id d; exact ⟨rfl, rfl⟩
  | succ n ih =>
    intro id d
    exact computeEq_clean ih (fun d d' h => funext (fun id => h.genericValue sqrt n id)) (.generic id) d

theorem computeRhs_clean (sqrt : ℚ → ℚ) (n : Nat) : Clean (computeRhs sqrt n) (fun d => d.rhsValue sqrt n) := by
  intro id d
  exact computeEq_clean (computeGeneric_clean sqrt n) (fun d d' h => funext (fun id => h.genericValue sqrt n id)) (.rhs id) d

theorem computeRhsList_same (sqrt : ℚ → ℚ) (n : Nat) (ids : List String) (d : Data) : Same d (computeRhsList sqrt n ids d).2 := by
  induction ids generalizing d with
  | nil => exact rfl
  | cons id ids ih =>
    have h1 := (computeRhs_clean sqrt n id d).2
    rw [computeRhsList]
    cases hc : computeRhs sqrt n id d with
    | mk o d1 =>
      rw [hc] at h1
      cases o with
      | error e => exact h1
      | ok v =>
        simp only
        have h2 := ih d1
        cases hl : computeRhsList sqrt n ids d1 with
        | mk o d2 =>
          rw [hl] at h2
          cases o <;> exact (show d.erase = _ from h1.trans h2)

end Verif.Rpn
