import Verif.Proofs.RhsInit

/-! # Property C93: the right hand side calculator computes with the data of the NEMDE file -/

namespace Verif.Rpn

open Verif.Xml (Coll)

/-- A file: a single term that is not in a list, a constraint without terms, a measurement that is marked as bad, a market
interconnector and another one. -/
def demoFile : RhsFile :=
  { scada := [⟨.A, .many [("FLOW", 30), ("OTHER", 1)], some (.one ("FLOW", 12))⟩, ⟨.S, .one ("STATUS", 1), none⟩]
    generic := [⟨"GEN", some (.many [{ id := "LIMIT", typ := .E, mult := 2 }, { typ := .C, mult := 5 }])⟩, ⟨"EMPTY", none⟩]
    constraints :=
      [⟨"CON", some (.many [{ id := "FLOW", typ := .A, mult := -1 }, { id := "GEN", typ := .X, mult := 1 },
        { id := "BASS", typ := .M, mult := 1 }])⟩, ⟨"NONE", none⟩, ⟨"UNIT", some (.one { id := "U", typ := .T, mult := 3 })⟩]
    initial := [("U", 7)]
    entered := [("LIMIT", 99), ("LIMIT", 100)]
    inters := [⟨"V-SA", false, "VIC1", "SA1", []⟩, ⟨"BASS", true, "TAS1", "VIC1", [("VIC1", 478), ("TAS1", 594)]⟩]
    nemde := [("CON", 757)] }

theorem has_iff (d : Dict String (List Term)) (l : List (String × List Term)) (h : ∀ id, d.get? id = lastOf l id) (id : String) :
    d.has id = (lastOf l id).isSome := by rw [← h]; rfl

theorem fillAll_file {f : RhsFile} {c : Calc} (h : initCalc f = .ok c) (hn : (f.scada.map (·.typ)).Nodup)
    (g g' : String → Except RErr ℚ) (hg : ∀ id, g id = g' id) (eq : List Term) : c.data.fillAll g eq = f.fillAll g' eq := by
  have hfill : ∀ t, c.data.fill g t = f.fill g' t := by
    intro t
    have hd : c.data.generic = formatEquations f.generic := by rw [(init_data h).1]
    unfold Data.fill RhsFile.fill
    rw [init_source h hn, hg, hd, has_iff _ _ (formatEquations_get? f.generic)]
    cases f.source t.typ t.id <;> rfl
  induction eq with
  | nil => rfl
  | cons t ts ih => simp only [Data.fillAll, RhsFile.fillAll, hfill, ih]

theorem generic_file {f : RhsFile} {c : Calc} (h : initCalc f = .ok c) (hn : (f.scada.map (·.typ)).Nodup) (sqrt : ℚ → ℚ) (n : Nat) :
    ∀ id, c.data.genericValue sqrt n id = f.genericValue sqrt n id := by
  have hd : c.data.generic = formatEquations f.generic := by rw [(init_data h).1]
  induction n with
  | zero => intro id; rfl
  | succ n ih =>
    intro id
    unfold Data.genericValue RhsFile.genericValue
    rw [hd, formatEquations_get?]
    cases lastOf (equationsIn f.generic) id with
    | none => rfl
    | some eq => simp only []; rw [fillAll_file h hn _ _ ih]

/-- **C93**.  For every file the right hand side of a constraint is the value of the constraint's terms in the file, with the sum of
all measurements of an id, good and bad, the last initial output or entered value, the availability offered by a market
interconnector in the region of the term, and generic equations computed in the same way.  A constraint without terms has none. -/
theorem C93_rhs {f : RhsFile} {c : Calc} (h : initCalc f = .ok c) (hn : (f.scada.map (·.typ)).Nodup) (sqrt : ℚ → ℚ) (n : Nat)
    (id : String) : (computeRhs sqrt n id c.data).1 = f.rhsValue sqrt n id := by
  rw [(computeRhs_clean sqrt n id c.data).1]
  have hd : c.data.rhs = formatEquations f.constraints := by rw [(init_data h).1]
  unfold Data.rhsValue RhsFile.rhsValue
  dsimp only
  rw [hd, formatEquations_get?]
  cases lastOf (equationsIn f.constraints) id with
  | none => rfl
  | some eq => simp only []; rw [fillAll_file h hn _ _ (generic_file h hn sqrt n)]

/-- **C93**, single values. -/
theorem C93_values {f : RhsFile} {c : Calc} (h : initCalc f = .ok c) (hn : (f.scada.map (·.typ)).Nodup) (typ : SpdType) (id : String) :
    c.data.source typ id = f.source typ id := init_source h hn typ id

example : ∃ c, initCalc demoFile = .ok c ∧ (demoFile.scada.map (·.typ)).Nodup ∧ (computeRhs id 1 "CON" c.data).1 = .ok 757 ∧
    (computeRhs id 1 "UNIT" c.data).1 = .ok 21 ∧ (computeRhs id 1 "NONE" c.data).1 = .error .keyError ∧
    demoFile.rhsValue id 1 "CON" = .ok 757 ∧ demoFile.source .N "BASS" = some 478 :=
  ⟨_, rfl, by decide +kernel, by decide +kernel, by decide +kernel, by decide +kernel, by decide +kernel, by decide +kernel⟩

/-- **C93**, rejected files: the calculator cannot be created exactly if a market interconnector has an offer for a region that it
does not connect. -/
theorem C93_rejected (f : RhsFile) : (BadOffer f.inters → initCalc f = .error .valueError) ∧
    (¬ BadOffer f.inters → ∃ c, initCalc f = .ok c) := by
  unfold initCalc
  refine ⟨fun hb => ?_, fun hb => ?_⟩
  · have : mnspAvailability f.inters = .error .valueError := (inters_fold f.inters ([], [])).2 hb
    rw [this]
  · rw [mnsp_ok f hb]
    exact ⟨_, rfl⟩

example : BadOffer [⟨"BASS", true, "TAS1", "VIC1", [("SA1", 478)]⟩] :=
  ⟨_, List.mem_singleton.2 rfl, rfl, _, List.mem_singleton.2 rfl, by decide, by decide⟩

/-- **C93**, right hand sides found by NEMDE. -/
theorem C93_nemde {f : RhsFile} {c : Calc} (h : initCalc f = .ok c) (id : String) (v : ℚ) :
    c.nemdeRhs id = .ok v ↔ lastOf f.nemde id = some v := by
  unfold Calc.nemdeRhs
  rw [(init_data h).2, lastValues_get?]
  cases lastOf f.nemde id <;> simp

example : ∃ c, initCalc demoFile = .ok c ∧ c.nemdeRhs "CON" = .ok 757 := ⟨_, rfl, by decide +kernel⟩

theorem refersGeneric_iff (d : Data) (eq : List Term) : refersGeneric d eq = false ↔ ∀ t ∈ eq, d.generic.get? t.id = none := by
  unfold refersGeneric
  induction eq using List.reverseRecOn with
  | nil => simp
  | append_singleton eq t ih =>
    rw [List.foldl_append, List.foldl_cons, List.foldl_nil]
    by_cases hg : Dict.get? d.generic t.id = none
    · have hh : d.generic.has t.id = false := by unfold Dict.has; rw [hg]; rfl
      rw [hh]
      simp only [Bool.false_eq_true, if_false, List.mem_append, List.mem_singleton]
      rw [ih]
      exact ⟨fun h t' ht' => ht'.elim (h t') (fun e => e ▸ hg), fun h t' ht' => h t' (Or.inl ht')⟩
    · have hh : d.generic.has t.id = true := by
        unfold Dict.has
        cases h : Dict.get? d.generic t.id with
        | none => exact absurd h hg
        | some v => rfl
      rw [hh]
      simp only [if_true, Bool.true_eq_false, false_iff]
      intro h
      exact hg (h t (List.mem_append.2 (Or.inr (List.mem_singleton.2 rfl))))

theorem withoutGeneric_eq (d : Data) : withoutGeneric d = (d.rhs.filter (fun p => refersGeneric d p.2 = false)).map (·.1) := by
  unfold withoutGeneric
  generalize d.rhs = l
  induction l using List.reverseRecOn with
  | nil => rfl
  | append_singleton l p ih =>
    rw [List.foldl_append, List.foldl_cons, List.foldl_nil, ih, List.filter_append, List.map_append]
    by_cases h : refersGeneric d p.2 = false <;> simp [h]

/-- **C93**, the constraints that are listed as not referring to generic equations are those of the file with terms none of which
names a generic equation that has terms; their value does not depend on how deep generic equations may be. -/
theorem C93_without_generic {f : RhsFile} {c : Calc} (h : initCalc f = .ok c) (id : String) (hid : id ∈ withoutGeneric c.data) :
    ∃ eq, lastOf (equationsIn f.constraints) id = some eq ∧ (∀ t ∈ eq, lastOf (equationsIn f.generic) t.id = none) ∧
      ∀ sqrt n m, (computeRhs sqrt n id c.data).1 = (computeRhs sqrt m id c.data).1 := by
  rw [withoutGeneric_eq] at hid
  obtain ⟨p, hp, rfl⟩ := List.mem_map.1 hid
  obtain ⟨hp, hr⟩ := List.mem_filter.1 hp
  have hr := (refersGeneric_iff c.data p.2).1 (of_decide_eq_true hr)
  have hd : c.data.rhs = formatEquations f.constraints := by rw [(init_data h).1]
  have hgd : c.data.generic = formatEquations f.generic := by rw [(init_data h).1]
  have hnd : (formatEquations f.constraints).NodupKeys := by
    unfold formatEquations
    generalize f.constraints = l
    induction l using List.reverseRecOn with
    | nil => exact List.nodup_nil
    | append_singleton l e ih =>
      rw [List.foldl_append, List.foldl_cons, List.foldl_nil]
      unfold addEquation
      cases e.terms with
      | none => exact ih
      | some t => exact ih.set _ _
  have hget : c.data.rhs.get? p.1 = some p.2 := by rw [hd] at hp ⊢; exact Dict.get?_of_mem hnd hp
  refine ⟨p.2, ?_, ?_, ?_⟩
  · rw [← formatEquations_get?, ← hd]; exact hget
  · intro t ht
    rw [← formatEquations_get?, ← hgd]
    exact hr t ht
  · intro sqrt n m
    have hfill : ∀ (g g' : String → Except RErr ℚ) (eq : List Term), (∀ t ∈ eq, c.data.generic.get? t.id = none) →
        c.data.fillAll g eq = c.data.fillAll g' eq := by
      intro g g' eq heq
      induction eq with
      | nil => rfl
      | cons t ts ih =>
        have ht : c.data.generic.has t.id = false := by
          unfold Dict.has; rw [heq t (List.mem_cons_self)]; rfl
        simp only [Data.fillAll, Data.fill, ht, ih (fun t ht => heq t (List.mem_cons_of_mem _ ht)), Bool.false_eq_true, and_false, if_false]
    rw [(computeRhs_clean sqrt n _ c.data).1, (computeRhs_clean sqrt m _ c.data).1]
    unfold Data.rhsValue
    dsimp only
    rw [hget]
    simp only []
    rw [hfill _ _ p.2 hr]

example : ∃ c, initCalc demoFile = .ok c ∧ withoutGeneric c.data = ["UNIT"] := ⟨_, rfl, by decide +kernel⟩

end Verif.Rpn
