import Verif.Proofs.RhsCalc

/-! # Properties C53, C54 and C55: the right hand side calculator -/

namespace Verif.Rpn

/-- A small data set: a constraint with a measurement, a group and a generic equation that has an entered value. -/
def demoData : Data :=
  { scada := [((.A, "FLOW"), (30, [12])), ((.S, "STATUS"), (1, []))]
    entered := [("LIMIT", 100)]
    generic := [("GEN", [{ id := "LIMIT", typ := .E, mult := 2 }, { typ := .C, mult := 5 }])]
    rhs := [("CON", [{ id := "FLOW", typ := .A, mult := -1 }, { id := "GEN", typ := .X, mult := 1 }, { id := "H", typ := .G, mult := 10 },
        { id := "STATUS", typ := .S, mult := 3, group := some "g" }, { typ := .C, mult := 1 }]),
      ("OTHER", [{ id := "STATUS", typ := .S, mult := 3 }])] }

/-! ## C54 -/

/-- What `compute_constraint_rhs` returns: the value of the equation of the constraint with the current input values and the
values of generic equations filled in.  This is the sense in which values are used. -/
theorem C54_values_used (sqrt : ℚ → ℚ) (n : Nat) (id : String) (d : Data) : (computeRhs sqrt n id d).1 = d.rhsValue sqrt n id :=
  (computeRhs_clean sqrt n id d).1

example : (computeRhs id 1 "CON" demoData).1 = .ok 194 := by decide +kernel

/-- **C54**.  After an update the new value is the input value with this id and type, every other input value is as before and so
are the equations. -/
theorem C54_update_local (d d' : Data) (id : String) (typ : SpdType) (v : ℚ) (h : updateValue d id typ v = .ok d') :
    d'.source typ id = some v ∧ (∀ typ' id', (typ', id') ≠ (typ, id) → d'.source typ' id' = d.source typ' id') ∧
      d'.generic = d.generic ∧ d'.rhs = d.rhs := by
  have hscada : ∀ (vs : List ℚ), vs = [] → typ.measured = true → updateValue d id typ v = .ok { d with scada := d.scada.set (typ, id) (v, vs) } →
      d'.source typ id = some v ∧ (∀ typ' id', (typ', id') ≠ (typ, id) → d'.source typ' id' = d.source typ' id') ∧
      d'.generic = d.generic ∧ d'.rhs = d.rhs := by
    intro vs hvs hm hu
    subst hvs
    rw [h] at hu; injection hu with hu; subst hu
    refine ⟨?_, ?_, rfl, rfl⟩
    · cases typ <;> simp [SpdType.measured] at hm <;> simp [Data.source]
    · intro typ' id' hne
      have : Dict.get? (d.scada.set (typ, id) (v, [])) (typ', id') = Dict.get? d.scada (typ', id') := Dict.get?_set_ne _ _ (Ne.symm hne)
      cases typ' <;> simp [Data.source, this]
  have h0 := h
  unfold updateValue at h
  cases typ with
  | A | S | I | W =>
    all_goals
      simp only at h
      split at h
      · cases h
      · rename_i w vs hg
        split at h
        · cases h
        · rename_i hl
          have hvs : vs = [] := by cases vs <;> simp at hl ⊢
          injection h with h
          exact hscada vs hvs rfl (by rw [h0, h])
  | T =>
    simp only at h
    split at h
    · cases h
    · injection h with h; subst h
      refine ⟨by simp [Data.source], ?_, rfl, rfl⟩
      intro typ' id' hne
      by_cases ht : typ' = .T
      · subst ht
        exact Dict.get?_set_ne _ _ (fun hc => hne (by rw [hc]))
      · cases typ' <;> first | rfl | exact absurd rfl ht
  | E =>
    simp only at h
    split at h
    · cases h
    · injection h with h; subst h
      refine ⟨by simp [Data.source], ?_, rfl, rfl⟩
      intro typ' id' hne
      by_cases ht : typ' = .E
      · subst ht
        exact Dict.get?_set_ne _ _ (fun hc => hne (by rw [hc]))
      · cases typ' <;> first | rfl | exact absurd rfl ht
  | M =>
    simp only at h
    split at h
    · cases h
    · injection h with h; subst h
      refine ⟨by simp [Data.source], ?_, rfl, rfl⟩
      intro typ' id' hne
      by_cases ht : typ' = .M
      · subst ht
        exact Dict.get?_set_ne _ _ (fun hc => hne (by rw [hc]))
      · cases typ' <;> first | rfl | exact absurd rfl ht
  | N =>
    simp only at h
    split at h
    · cases h
    · injection h with h; subst h
      refine ⟨by simp [Data.source], ?_, rfl, rfl⟩
      intro typ' id' hne
      by_cases ht : typ' = .N
      · subst ht
        exact Dict.get?_set_ne _ _ (fun hc => hne (by rw [hc]))
      · cases typ' <;> first | rfl | exact absurd rfl ht
  | _ => cases h

example : ∃ d', updateValue demoData "LIMIT" .E 150 = .ok d' ∧ (computeRhs id 1 "CON" d').1 = .ok 294 := ⟨_, rfl, by decide +kernel⟩

/-- **C54**, rejected updates (partial: the property wants ValueError for every id that does not exist; missing SCADA ids raise
KeyError, see `C54_scada_negation`).  Types C, R and X raise ValueError, and so do missing ids of types T, E, M and N. -/
theorem C54_rejected_partial (d : Data) (id : String) (typ : SpdType) (v : ℚ)
    (h : typ = .C ∨ typ = .R ∨ typ = .X ∨ typ.measured = false ∧ d.source typ id = none) : updateValue d id typ v = .error .valueError := by
  unfold updateValue
  rcases h with rfl | rfl | rfl | ⟨hm, hs⟩
  · rfl
  · rfl
  · rfl
  · cases typ <;> simp [SpdType.measured] at hm <;> simp only [Data.source] at hs <;> simp [hs]

example : updateValue demoData "STATUS" .C 1 = .error .valueError ∧ updateValue demoData "STATUS" .E 1 = .error .valueError := ⟨rfl, rfl⟩

/-- **C54 fails for SCADA ids**: a missing id raises KeyError, not ValueError. -/
theorem C54_scada_negation : demoData.source .A "MISSING" = none ∧ updateValue demoData "MISSING" .A 1 = .error .keyError := ⟨rfl, rfl⟩

/-! ## C53 -/

theorem update_erase (d : Data) (id : String) (typ : SpdType) (v : ℚ) : updateValue d.erase id typ v =
    (updateValue d id typ v).map (fun d2 => { d2 with generic := d.erase.generic, rhs := d.erase.rhs }) := by
  unfold updateValue
  have hs : d.erase.scada = d.scada := rfl
  have h1 : d.erase.unitMw = d.unitMw := rfl
  have h2 : d.erase.entered = d.entered := rfl
  have h3 : d.erase.mnspFrom = d.mnspFrom := rfl
  have h4 : d.erase.mnspTo = d.mnspTo := rfl
  cases typ with
  | A | S | I | W =>
    all_goals
      simp only [hs]
      split
      · rfl
      · split <;> rfl
  | T => simp only [h1]; split <;> rfl
  | E => simp only [h2]; split <;> rfl
  | M => simp only [h3]; split <;> rfl
  | N => simp only [h4]; split <;> rfl
  | _ => rfl

theorem update_same {d d' : Data} (h : Same d d') (id : String) (typ : SpdType) (v : ℚ) :
    Same (RCall.run (fun x => x) d (.update id typ v)) (RCall.run (fun x => x) d' (.update id typ v)) := by
  have herase : ∀ d : Data, (RCall.run (fun x => x) d (.update id typ v)).erase = RCall.run (fun x => x) d.erase (.update id typ v) := by
    intro d
    have hk : ∀ d1 : Data, d1.generic = d.generic → d1.rhs = d.rhs → (∀ t i, (d1.source t i).isSome = (d.source t i).isSome) →
        d1.erase = { d1 with generic := d.erase.generic, rhs := d.erase.rhs } := by
      intro d1 h1 h2 h3
      have : d1.eraseTerm = d.eraseTerm := by
        funext t
        unfold Data.eraseTerm Data.sourced
        rw [h1, h3]
      unfold Data.erase
      rw [this, h1, h2]
    have hrun : ∀ d2 : Data, updateValue d id typ v = .ok d2 → d2.erase = { d2 with generic := d.erase.generic, rhs := d.erase.rhs } := by
      intro d2 h2
      obtain ⟨h3, h4, h5, h6⟩ := C54_update_local d d2 id typ v h2
      refine hk d2 h5 h6 (fun t i => ?_)
      by_cases hc : (t, i) = (typ, id)
      · injection hc with hc1 hc2
        subst hc1; subst hc2
        rw [h3]
        have hrej : d.source t i ≠ none ∨ updateValue d i t v ≠ .ok d2 := by
          by_contra hcon
          push Not at hcon
          obtain ⟨hn, hu⟩ := hcon
          by_cases hm : t.measured = true
          · unfold updateValue at hu
            cases t <;> simp [SpdType.measured] at hm <;> simp only [Data.source, Option.map_eq_none_iff] at hn <;> simp [hn] at hu
          · rw [C54_rejected_partial d i t v (Or.inr (Or.inr (Or.inr ⟨by simpa using hm, hn⟩)))] at hu
            cases hu
        rcases hrej with hr | hr
        · rw [Option.isSome_some, Option.isSome_iff_ne_none.2 hr]
        · exact absurd h2 hr
      · rw [h4 t i hc]
    simp only [RCall.run]
    rw [update_erase]
    cases hu : updateValue d id typ v with
    | error e => rfl
    | ok d2 => exact hrun d2 hu
  unfold Same
  rw [herase, herase, h]

theorem run_same (sqrt : ℚ → ℚ) (calls : List RCall) : ∀ (d d' : Data), Same d d' →
    Same (calls.foldl (RCall.run sqrt) d) ((calls.filter RCall.isUpdate).foldl (RCall.run sqrt) d') := by
  induction calls with
  | nil => intro d d' h; exact h
  | cons c calls ih =>
    intro d d' h
    cases c with
    | compute n id =>
      exact ih _ d' (show _ = _ from (computeRhs_clean sqrt n id d).2.symm.trans h)
    | computeList n ids =>
      exact ih _ d' (show _ = _ from (computeRhsList_same sqrt n ids d).symm.trans h)
    | update id typ v =>
      exact ih _ _ (update_same h id typ v)

/-- **C53**.  After any sequence of computations and updates, including those that raised, `compute_constraint_rhs` returns what it
would return if only the updates had been made. -/
theorem C53_history_independent (sqrt : ℚ → ℚ) (calls : List RCall) (d : Data) (n : Nat) (id : String) :
    (computeRhs sqrt n id (calls.foldl (RCall.run sqrt) d)).1 =
      (computeRhs sqrt n id ((calls.filter RCall.isUpdate).foldl (RCall.run sqrt) d)).1 := by
  rw [C54_values_used, C54_values_used]
  exact (run_same sqrt calls d d rfl).rhsValue sqrt n id

/-- **C53**, twice.  Computing a right hand side again gives the same value. -/
theorem C53_twice (sqrt : ℚ → ℚ) (d : Data) (n : Nat) (id : String) :
    (computeRhs sqrt n id (computeRhs sqrt n id d).2).1 = (computeRhs sqrt n id d).1 := by
  rw [C54_values_used, C54_values_used]
  exact ((computeRhs_clean sqrt n id d).2.rhsValue sqrt n id).symm

/-- **C53**, lists.  Computing a list of right hand sides gives for each the value it has on its own. -/
theorem C53_list (sqrt : ℚ → ℚ) (d : Data) (n : Nat) (ids : List String) (r : List (String × ℚ)) (h : (computeRhsList sqrt n ids d).1 = .ok r) :
    r.map Prod.fst = ids ∧ ∀ p ∈ r, (computeRhs sqrt n p.1 d).1 = .ok p.2 := by
  induction ids generalizing d r with
  | nil => injection h with h; subst h; exact ⟨rfl, by simp⟩
  | cons id ids ih =>
    have h1 := computeRhs_clean sqrt n id d
    rw [computeRhsList] at h
    cases hc : computeRhs sqrt n id d with
    | mk o d1 =>
      rw [hc] at h h1
      cases o with
      | error e => cases h
      | ok v =>
        simp only at h h1
        cases hl : computeRhsList sqrt n ids d1 with
        | mk o2 d2 =>
          rw [hl] at h
          cases o2 with
          | error e => cases h
          | ok vs =>
            injection h with h; subst h
            obtain ⟨h2, h3⟩ := ih d1 vs (by rw [hl])
            refine ⟨by rw [List.map_cons, h2], ?_⟩
            intro p hp
            rcases List.mem_cons.1 hp with rfl | hp
            · rw [hc]
            · rw [← h3 p hp, C54_values_used, C54_values_used]
              exact h1.2.rhsValue sqrt n p.1

/-- the evaluations write to the equations: the calculator is not the same afterwards, but the value is -/
example : (computeRhs id 1 "CON" demoData).2 ≠ demoData ∧
    (computeRhs id 1 "CON" (([.compute 1 "CON", .update "LIMIT" .E 150, .computeList 1 ["OTHER", "CON"], .compute 1 "MISSING"] : List RCall).foldl (RCall.run id) demoData)).1 = .ok 294 ∧
    (computeRhs id 1 "CON" (([.update "LIMIT" .E 150] : List RCall).foldl (RCall.run id) demoData)).1 = .ok 294 := by
  refine ⟨by decide +kernel, by decide +kernel, by decide +kernel⟩

/-! ## C55 -/

theorem foldl_keeps {α β : Type} (f : List β → α → List β) (hf : ∀ l a, ∀ b ∈ l, b ∈ f l a) (as : List α) : ∀ l, ∀ b ∈ l, b ∈ as.foldl f l := by
  induction as with
  | nil => intro l b hb; exact hb
  | cons a as ih => intro l b hb; exact ih _ b (hf l a b hb)

theorem mem_inner {k : String} (P : List String → Term → Prop) [∀ l t, Decidable (P l t)] (ts : List Term) (hP : ∃ t ∈ ts, ∀ l, k ∉ l → P l t) :
    ∀ l, k ∈ ts.foldl (fun l t => if P l t then l ++ [k] else l) l := by
  induction ts with
  | nil => obtain ⟨t, ht, _⟩ := hP; cases ht
  | cons t ts ih =>
    intro l
    rw [List.foldl_cons]
    have hkeep := foldl_keeps (fun l t => if P l t then l ++ [k] else l) (by intro l a b hb; split <;> simp [hb]) ts
    by_cases hk : k ∈ (if P l t then l ++ [k] else l)
    · exact hkeep _ k hk
    · obtain ⟨u, hu, hPu⟩ := hP
      rcases List.mem_cons.1 hu with rfl | hu
      · exfalso
        apply hk
        by_cases hkl : k ∈ l
        · split <;> simp [hkl]
        · rw [if_pos (hPu l hkl)]; simp
      · exact ih ⟨u, hu, hPu⟩ _

theorem mem_outer (P : String → List String → Term → Prop) [∀ k l t, Decidable (P k l t)] (g : Dict String (List Term)) {k : String} {eq : List Term}
    (hg : (k, eq) ∈ g) (hP : ∃ t ∈ eq, ∀ l, k ∉ l → P k l t) :
    ∀ l, k ∈ g.foldl (fun l p => p.2.foldl (fun l t => if P p.1 l t then l ++ [p.1] else l) l) l := by
  induction g with
  | nil => cases hg
  | cons p g ih =>
    intro l
    rw [List.foldl_cons]
    rcases List.mem_cons.1 hg with rfl | hg
    · refine foldl_keeps _ ?_ g _ k (mem_inner (P k) eq hP l)
      intro l p b hb
      exact foldl_keeps (fun l t => if P p.1 l t then l ++ [p.1] else l) (by intro l a b hb; split <;> simp [hb]) p.2 l b hb
    · exact ih hg _

theorem get?_mem' {α : Type} {d : Dict String α} {k : String} {v : α} (h : d.get? k = some v) : (k, v) ∈ d := by
  induction d with
  | nil => cases h
  | cons p d ih =>
    obtain ⟨k', v'⟩ := p
    simp only [Dict.get?] at h
    split at h
    · rename_i hk; injection h with h; subst h; subst hk; simp
    · simp [ih h]

/-- **C55** (partial: generic equations that use generic equations are missing, see `C55_nested_negation`).  If a constraint is not
among those returned for an id and type, updating that value does not change its right hand side, provided the generic
equations it uses do not use further generic equations. -/
theorem C55_complete_partial (sqrt : ℚ → ℚ) (d d' : Data) (id : String) (typ : SpdType) (v : ℚ) (con : String) (n : Nat)
    (hu : updateValue d id typ v = .ok d') (hc : con ∉ dependents d id typ)
    (hflat : ∀ eq, d.rhs.get? con = some eq → ∀ t ∈ eq, t.typ = .X → ∀ geq, d.generic.get? t.id = some geq → ∀ u ∈ geq, u.typ = .X → d.generic.get? u.id = none) :
    (computeRhs sqrt n con d').1 = (computeRhs sqrt n con d).1 := by
  obtain ⟨-, h2, h3, h4⟩ := C54_update_local d d' id typ v hu
  rw [C54_values_used, C54_values_used]
  unfold Data.rhsValue
  rw [h4]
  cases hr : d.rhs.get? con with
  | none => rfl
  | some eq =>
    simp only
    congr 1
    have hno : ∀ t ∈ eq, (t.id = id ∧ t.typ = typ → False) ∧ (t.typ = .X → t.id ∉ dependentGenerics d id typ) := by
      intro t ht
      have hdep := fun h => hc (mem_outer (fun k l t => t.id = id ∧ t.typ = typ ∧ k ∉ l ∨ t.id ∈ dependentGenerics d id typ ∧ t.typ = .X)
        d.rhs (get?_mem' hr) ⟨t, ht, h⟩ [])
      exact ⟨fun h => hdep (fun l hl => Or.inl ⟨h.1, h.2, hl⟩), fun h1 h2 => hdep (fun l _ => Or.inr ⟨h2, h1⟩)⟩
    have hfill : ∀ (sub sub' : String → Except RErr ℚ) (t : Term), (t.id = id ∧ t.typ = typ → False) → (t.typ = .X → d.generic.has t.id = true → sub t.id = sub' t.id) →
        d'.fill sub t = d.fill sub' t := by
      intro sub sub' t h5 h6
      unfold Data.fill
      rw [h2 t.typ t.id (fun h => h5 ⟨(Prod.mk.inj h).2, (Prod.mk.inj h).1⟩), h3]
      cases d.source t.typ t.id with
      | some v => rfl
      | none =>
        simp only
        split
        · rfl
        · split
          · rename_i hx; rw [h6 hx.1 hx.2]
          · rfl
    have hfillAll : ∀ (sub sub' : String → Except RErr ℚ) (ts : List Term), (∀ t ∈ ts, d'.fill sub t = d.fill sub' t) → d'.fillAll sub ts = d.fillAll sub' ts := by
      intro sub sub' ts h
      induction ts with
      | nil => rfl
      | cons t ts ih => simp only [Data.fillAll, h t (by simp), ih (fun u hu => h u (by simp [hu]))]
    apply hfillAll
    intro t ht
    refine hfill _ _ t (hno t ht).1 (fun hX hh => ?_)
    cases n with
    | zero => rfl
    | succ n =>
      simp only [Data.genericValue]
      rw [h3]
      cases hg : d.generic.get? t.id with
      | none => rfl
      | some geq =>
        simp only
        congr 1
        apply hfillAll
        intro u hu
        refine hfill _ _ u (fun h => ?_) (fun hX' hh' => ?_)
        · exact (hno t ht).2 hX (mem_outer (fun k l t => t.id = id ∧ t.typ = typ ∧ k ∉ l) d.generic (get?_mem' hg) ⟨u, hu, fun l hl => ⟨h.1, h.2, hl⟩⟩ [])
        · have := hflat eq hr t ht hX geq hg u hu hX'
          unfold Dict.has at hh'
          rw [this] at hh'
          cases hh'

/-- the constraint that uses the value through a generic equation is found, the other keeps its value -/
example : dependents demoData "LIMIT" .E = ["CON"] ∧ (∃ d', updateValue demoData "LIMIT" .E 150 = .ok d' ∧ (computeRhs id 1 "OTHER" d').1 = .ok 3) := by
  refine ⟨by decide +kernel, _, rfl, by decide +kernel⟩

/-- A constraint that uses a generic equation that uses a generic equation. -/
def nestedData : Data :=
  { entered := [("LIMIT", 100)]
    generic := [("INNER", [{ id := "LIMIT", typ := .E }]), ("OUTER", [{ id := "INNER", typ := .X }])]
    rhs := [("CON", [{ id := "OUTER", typ := .X }])] }

/-- **C55 fails for generic equations within generic equations.**  The constraint uses a generic equation that uses another one
with the value; it is not returned, and its right hand side changes. -/
theorem C55_nested_negation : ∃ d d' : Data, dependents d "LIMIT" .E = [] ∧ updateValue d "LIMIT" .E 150 = .ok d' ∧
    (computeRhs id 2 "CON" d).1 = .ok 100 ∧ (computeRhs id 2 "CON" d').1 = .ok 150 := by
  refine ⟨nestedData, _, by decide +kernel, rfl, by decide +kernel, by decide +kernel⟩

end Verif.Rpn
