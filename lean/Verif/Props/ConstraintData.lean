import Verif.Spec.ConstraintData
import Verif.Proofs.Tables

/-!
# Generic constraint data (C65)
-/

namespace Verif.Cons

theorem bind_ok {α β : Type} {x : Except Err α} {f : α → Except Err β} {b : β} :
    (x >>= f) = .ok b ↔ ∃ a, x = .ok a ∧ f a = .ok b := by
  cases x with
  | error e => simp [bind, Except.bind]
  | ok a => simp [bind, Except.bind]

theorem mapM_ok {α β : Type} {f : α → Except Err β} {l : List α} {m : List β} :
    l.mapM f = .ok m ↔ List.Forall₂ (fun a b => f a = .ok b) l m := by
  induction l generalizing m with
  | nil =>
    rw [List.mapM_nil]
    constructor
    · intro h
      cases h
      exact .nil
    · intro h
      cases h
      rfl
  | cons a l ih =>
    rw [List.mapM_cons, bind_ok]
    constructor
    · rintro ⟨b, hb, h⟩
      rw [bind_ok] at h
      obtain ⟨m', hm', h⟩ := h
      cases h
      exact .cons hb (ih.1 hm')
    · intro h
      cases h with
      | cons hb h => exact ⟨_, hb, bind_ok.2 ⟨_, ih.2 h, rfl⟩⟩

theorem forall₂_mem {α β : Type} {R : α → β → Prop} {l : List α} {m : List β} (h : List.Forall₂ R l m) {b : β} :
    b ∈ m → ∃ a ∈ l, R a b := by
  induction h with
  | nil => simp
  | cons h0 _ ih =>
    intro hb
    rcases List.mem_cons.1 hb with rfl | hb
    · exact ⟨_, List.mem_cons_self, h0⟩
    · obtain ⟨a, ha, hr⟩ := ih hb
      exact ⟨a, List.mem_cons_of_mem _ ha, hr⟩

theorem forall₂_mem' {α β : Type} {R : α → β → Prop} {l : List α} {m : List β} (h : List.Forall₂ R l m) {a : α} :
    a ∈ l → ∃ b ∈ m, R a b := by
  induction h with
  | nil => simp
  | cons h0 _ ih =>
    intro hb
    rcases List.mem_cons.1 hb with rfl | hb
    · exact ⟨_, List.mem_cons_self, h0⟩
    · obtain ⟨a, ha, hr⟩ := ih hb
      exact ⟨a, List.mem_cons_of_mem _ ha, hr⟩

theorem typeMap_ok {c s : String} :
    typeMap c = .ok s ↔ (c = "LE" ∧ s = "<=") ∨ (c = "EQ" ∧ s = "=") ∨ (c = "GE" ∧ s = ">=") := by
  constructor
  · intro h
    unfold typeMap at h
    split at h <;> cases h <;> simp
  · rintro (⟨rfl, rfl⟩ | ⟨rfl, rfl⟩ | ⟨rfl, rfl⟩) <;> rfl

theorem serviceMap_ok {c : String} :
    (∃ s, serviceMap c = .ok s) ↔
      c ∈ ["ENOF", "LDOF", "DROF", "BDOF", "L5RE", "R5RE", "R5MI", "L5MI", "R60S", "L60S", "R6SE", "L6SE", "R1SE", "L1SE"] := by
  constructor
  · rintro ⟨s, h⟩
    unfold serviceMap at h
    split at h <;> first | cases h; done | simp
  · intro h
    simp only [List.mem_cons, List.not_mem_nil, or_false] at h
    rcases h with rfl | rfl | rfl | rfl | rfl | rfl | rfl | rfl | rfl | rfl | rfl | rfl | rfl | rfl <;> exact ⟨_, rfl⟩

theorem symbol_ok {r q : RhsType} : r.symbol = .ok q ↔ typeMap r.type = .ok q.type ∧ q.set = r.set ∧ q.rhs = r.rhs := by
  unfold RhsType.symbol
  cases h : typeMap r.type with
  | ok s =>
    constructor
    · intro h
      cases h
      exact ⟨rfl, rfl, rfl⟩
    · rintro ⟨h1, h2, h3⟩
      cases h1
      cases q
      simp only at h2 h3
      rw [h2, h3]
  | error e => simp

theorem mapService_ok {r q : LhsRow} :
    r.mapService = .ok q ↔ serviceMap r.service = .ok q.service ∧ q.set = r.set ∧ q.who = r.who ∧ q.coef = r.coef := by
  unfold LhsRow.mapService
  cases h : serviceMap r.service with
  | ok s =>
    constructor
    · intro h
      cases h
      exact ⟨rfl, rfl, rfl, rfl⟩
    · rintro ⟨h1, h2, h3, h4⟩
      cases h1
      cases q
      simp only at h2 h3 h4
      rw [h2, h3, h4]
  | error e => simp

theorem load_parts {r : Raw} {d : Data} (h : load r = .ok d) :
    List.Forall₂ (fun a b => RhsType.symbol a = .ok b) (mergeTypes r.rhs r.types) d.generic ∧
    List.Forall₂ (fun a b => LhsRow.mapService a = .ok b) r.unitLhs d.unitLhs ∧
    List.Forall₂ (fun a b => LhsRow.mapService a = .ok b) r.regionLhs d.regionLhs ∧ d.types = r.types := by
  unfold load at h
  obtain ⟨g, hg, h⟩ := bind_ok.1 h
  obtain ⟨u, hu, h⟩ := bind_ok.1 h
  obtain ⟨s, hs, h⟩ := bind_ok.1 h
  cases h
  exact ⟨mapM_ok.1 hg, mapM_ok.1 hu, mapM_ok.1 hs, rfl⟩

theorem mem_generic {r : Raw} {d : Data} (h : load r = .ok d) {g : RhsType} :
    g ∈ d.generic ↔ Published r g.set g.rhs g.type := by
  obtain ⟨hg, -⟩ := load_parts h
  constructor
  · intro hm
    obtain ⟨q, hq, e⟩ := forall₂_mem hg hm
    obtain ⟨e1, e2, e3⟩ := symbol_ok.1 e
    unfold mergeTypes at hq
    simp only [List.mem_flatMap, List.mem_map, List.mem_filter, decide_eq_true_eq] at hq
    obtain ⟨a, ha, t, ⟨ht, et⟩, rfl⟩ := hq
    dsimp only at e1 e2 e3
    refine ⟨?_, t, ht, by rw [et, e2], typeMap_ok.1 e1⟩
    rw [e2, e3]
    exact ha
  · rintro ⟨h1, t, ht, et, h2⟩
    have hq : (⟨g.set, g.rhs, t.type⟩ : RhsType) ∈ mergeTypes r.rhs r.types := by
      unfold mergeTypes
      simp only [List.mem_flatMap, List.mem_map, List.mem_filter, decide_eq_true_eq]
      exact ⟨_, h1, t, ⟨ht, et⟩, rfl⟩
    obtain ⟨q, hm, e⟩ := forall₂_mem' hg hq
    have : g = q := by
      have e' : RhsType.symbol ⟨g.set, g.rhs, t.type⟩ = .ok g := symbol_ok.2 ⟨typeMap_ok.2 h2, rfl, rfl⟩
      rw [e'] at e
      exact Except.ok.inj e
    rw [this]
    exact hm

theorem mem_requirements {r : Raw} {d : Data} (h : load r = .ok d) {q : Requirement} :
    q ∈ d.requirements ↔ Published r q.set q.volume q.type ∧ Regional r q.set q.service q.region := by
  obtain ⟨-, -, hr, -⟩ := load_parts h
  unfold Data.requirements
  simp only [List.mem_flatMap, List.mem_map, List.mem_filter, decide_eq_true_eq]
  constructor
  · rintro ⟨l, hl, g, ⟨hg, e⟩, rfl⟩
    obtain ⟨l0, hl0, e0⟩ := forall₂_mem hr hl
    obtain ⟨e1, e2, e3, -⟩ := mapService_ok.1 e0
    refine ⟨?_, l0, hl0, e2.symm, e3.symm, e1⟩
    have := (mem_generic h).1 hg
    rwa [e] at this
  · rintro ⟨hp, l0, hl0, e1, e2, e3⟩
    obtain ⟨l, hl, e⟩ := forall₂_mem' hr hl0
    obtain ⟨f1, f2, f3, -⟩ := mapService_ok.1 e
    refine ⟨l, hl, ⟨q.set, q.volume, q.type⟩, ⟨(mem_generic h).2 hp, by rw [f2, e1]⟩, ?_⟩
    rw [e3] at f1
    cases q
    simp only at e1 e2 f1 ⊢
    rw [f2, e1, f3, e2, ← Except.ok.inj f1]

/-- Every published right hand side is in exactly one of the two lists: with the regional requirements when the set has a
coefficient for a region (in every such region and service, with the direction and volume of the set), and otherwise in the
list of the other generic constraints.  Nothing else is in the lists. -/
theorem C65_partition {r : Raw} {d : Data} (h : load r = .ok d) :
    (∀ set rhs symbol, (⟨set, rhs, symbol⟩ : RhsType) ∈ d.excluding ↔
      Published r set rhs symbol ∧ ∀ l ∈ r.regionLhs, l.set ≠ set) ∧
    (∀ set service region symbol volume, (⟨set, service, region, symbol, volume⟩ : Requirement) ∈ d.requirements ↔
      Published r set volume symbol ∧ Regional r set service region) ∧
    (∀ a ∈ d.excluding, ∀ b ∈ d.requirements, a.set ≠ b.set) ∧
    (∀ set rhs symbol, Published r set rhs symbol →
      (⟨set, rhs, symbol⟩ : RhsType) ∈ d.excluding ∨
      ∃ service region, (⟨set, service, region, symbol, rhs⟩ : Requirement) ∈ d.requirements) := by
  have hex : ∀ set rhs symbol, (⟨set, rhs, symbol⟩ : RhsType) ∈ d.excluding ↔
      Published r set rhs symbol ∧ ∀ l ∈ r.regionLhs, l.set ≠ set := by
    intro set rhs symbol
    unfold Data.excluding
    rw [List.mem_filter, mem_generic h]
    refine and_congr_right (fun hp => ?_)
    simp only [Bool.not_eq_true', decide_eq_false_iff_not, List.mem_map, not_exists, not_and]
    constructor
    · intro hq l hl el
      obtain ⟨l', hl', e⟩ := forall₂_mem' (load_parts h).2.2.1 hl
      obtain ⟨f1, f2, f3, -⟩ := mapService_ok.1 e
      exact hq ⟨set, l'.service, l.who, symbol, rhs⟩ ((mem_requirements h).2 ⟨hp, l, hl, el, rfl, f1⟩) rfl
    · rintro hl q hq rfl
      obtain ⟨-, l, hl0, e, -⟩ := (mem_requirements h).1 hq
      exact hl l hl0 e
  refine ⟨hex, fun _ _ _ _ _ => mem_requirements h, ?_, ?_⟩
  · intro a ha b hb e
    have ha' : (⟨a.set, a.rhs, a.type⟩ : RhsType) ∈ d.excluding := ha
    obtain ⟨-, l, hl, el, -⟩ := (mem_requirements h).1 hb
    exact ((hex _ _ _).1 ha').2 l hl (el.trans e.symm)
  · intro set rhs symbol hp
    by_cases hl : ∃ l ∈ r.regionLhs, l.set = set
    · obtain ⟨l, hl, el⟩ := hl
      obtain ⟨l', hl', e⟩ := forall₂_mem' (load_parts h).2.2.1 hl
      obtain ⟨f1, f2, f3, -⟩ := mapService_ok.1 e
      exact .inr ⟨l'.service, l.who, (mem_requirements h).2 ⟨hp, l, hl, el, rfl, f1⟩⟩
    · push Not at hl
      exact .inl ((hex _ _ _).2 ⟨hp, hl⟩)

theorem mapM_exists {α β : Type} {f : α → Except Err β} {l : List α} :
    (∃ m, l.mapM f = .ok m) ↔ ∀ a ∈ l, ∃ b, f a = .ok b := by
  constructor
  · rintro ⟨m, h⟩ a ha
    obtain ⟨b, _, hb⟩ := forall₂_mem' (mapM_ok.1 h) ha
    exact ⟨b, hb⟩
  · intro h
    induction l with
    | nil => exact ⟨[], rfl⟩
    | cons a l ih =>
      obtain ⟨b, hb⟩ := h a List.mem_cons_self
      obtain ⟨m, hm⟩ := ih (fun x hx => h x (List.mem_cons_of_mem _ hx))
      exact ⟨b :: m, mapM_ok.2 (.cons hb (mapM_ok.1 hm))⟩

/-- Loading fails exactly when a code is not known. -/
theorem C65_no_error (r : Raw) : (∃ d, load r = .ok d) ↔ KnownCodes r := by
  have hs : ∀ l : LhsRow, (∃ q, l.mapService = .ok q) ↔ ∃ s, serviceMap l.service = .ok s := by
    intro l
    constructor
    · rintro ⟨q, hq⟩
      exact ⟨_, (mapService_ok.1 hq).1⟩
    · rintro ⟨s, hs⟩
      exact ⟨⟨l.set, l.who, s, l.coef⟩, mapService_ok.2 ⟨hs, rfl, rfl, rfl⟩⟩
  have ht : ∀ g : RhsType, (∃ q, g.symbol = .ok q) ↔ g.type = "LE" ∨ g.type = "EQ" ∨ g.type = "GE" := by
    intro g
    constructor
    · rintro ⟨q, hq⟩
      rcases typeMap_ok.1 (symbol_ok.1 hq).1 with h | h | h
      · exact .inl h.1
      · exact .inr (.inl h.1)
      · exact .inr (.inr h.1)
    · rintro (h | h | h)
      · exact ⟨⟨g.set, g.rhs, "<="⟩, symbol_ok.2 ⟨by rw [h]; rfl, rfl, rfl⟩⟩
      · exact ⟨⟨g.set, g.rhs, "="⟩, symbol_ok.2 ⟨by rw [h]; rfl, rfl, rfl⟩⟩
      · exact ⟨⟨g.set, g.rhs, ">="⟩, symbol_ok.2 ⟨by rw [h]; rfl, rfl, rfl⟩⟩
  have hm : (∀ g ∈ mergeTypes r.rhs r.types, g.type = "LE" ∨ g.type = "EQ" ∨ g.type = "GE") ↔
      ∀ q ∈ r.rhs, ∀ t ∈ r.types, t.set = q.set → t.type = "LE" ∨ t.type = "EQ" ∨ t.type = "GE" := by
    unfold mergeTypes
    simp only [List.mem_flatMap, List.mem_map, List.mem_filter, decide_eq_true_eq]
    constructor
    · intro h q hq t ht e
      exact h _ ⟨q, hq, t, ⟨ht, e⟩, rfl⟩
    · rintro h g ⟨q, hq, t, ⟨ht, e⟩, rfl⟩
      exact h q hq t ht e
  unfold KnownCodes
  constructor
  · rintro ⟨d, h⟩
    unfold load at h
    obtain ⟨g, hg, h⟩ := bind_ok.1 h
    obtain ⟨u, hu, h⟩ := bind_ok.1 h
    obtain ⟨s, hs', h⟩ := bind_ok.1 h
    refine ⟨hm.1 (fun g' hg' => (ht g').1 (mapM_exists.1 ⟨_, hg⟩ g' hg')), ?_⟩
    rintro l (hl | hl)
    · exact serviceMap_ok.1 ((hs l).1 (mapM_exists.1 ⟨_, hu⟩ l hl))
    · exact serviceMap_ok.1 ((hs l).1 (mapM_exists.1 ⟨_, hs'⟩ l hl))
  · rintro ⟨h1, h2⟩
    obtain ⟨g, hg⟩ := mapM_exists.2 (fun g hg => (ht g).2 (hm.2 h1 g hg))
    obtain ⟨u, hu⟩ := mapM_exists.2 (fun l hl => (hs l).2 (serviceMap_ok.2 (h2 l (.inl hl))))
    obtain ⟨s, hs'⟩ := mapM_exists.2 (fun l hl => (hs l).2 (serviceMap_ok.2 (h2 l (.inr hl))))
    exact ⟨⟨g, u, s, r.types⟩, bind_ok.2 ⟨g, hg, bind_ok.2 ⟨u, hu, bind_ok.2 ⟨s, hs', rfl⟩⟩⟩⟩

/-- With one right hand side and one type per set, no set is repeated. -/
theorem C65_once {r : Raw} {d : Data} (h : load r = .ok d) (h1 : (r.rhs.map RhsRow.set).Nodup)
    (h2 : (r.types.map TypeRow.set).Nodup) : (d.generic.map RhsType.set).Nodup ∧ (d.excluding.map RhsType.set).Nodup := by
  have hg : (d.generic.map RhsType.set).Nodup := by
    obtain ⟨hg, -⟩ := load_parts h
    have e : d.generic.map RhsType.set = (mergeTypes r.rhs r.types).map RhsType.set := by
      clear h
      generalize mergeTypes r.rhs r.types = ms at hg ⊢
      generalize d.generic = gs at hg ⊢
      induction hg with
      | nil => rfl
      | cons h0 _ ih => rw [List.map_cons, List.map_cons, ih, (symbol_ok.1 h0).2.1]
    rw [e]
    have hsub : ((mergeTypes r.rhs r.types).map RhsType.set).Sublist (r.rhs.map RhsRow.set) := by
      unfold mergeTypes
      clear h1
      induction r.rhs with
      | nil => simp
      | cons q qs ih =>
        rw [List.flatMap_cons, List.map_append, List.map_cons, List.map_map]
        have hone : ((r.types.filter (fun t => decide (t.set = q.set))).map
            (RhsType.set ∘ fun t => (⟨q.set, q.rhs, t.type⟩ : RhsType))).Sublist [q.set] := by
          have hle : (r.types.filter (fun t => decide (t.set = q.set))).length ≤ 1 := by
            clear ih
            generalize r.types = ts at h2
            induction ts with
            | nil => simp
            | cons t ts iht =>
              rw [List.map_cons, List.nodup_cons] at h2
              rw [List.filter_cons]
              split
              · rename_i he
                have he : t.set = q.set := by simpa using he
                have : ts.filter (fun t => decide (t.set = q.set)) = [] := by
                  rw [List.filter_eq_nil_iff]
                  intro x hx hx'
                  exact h2.1 (List.mem_map.2 ⟨x, hx, by rw [he]; simpa using hx'⟩)
                rw [this]
                simp
              · exact iht h2.2
          generalize r.types.filter (fun t => decide (t.set = q.set)) = fs at hle ⊢
          rcases fs with _ | ⟨t, _ | ⟨t', ts⟩⟩
          · simp
          · simp
          · simp at hle
        exact (hone.append ih)
    exact h1.sublist hsub
  exact ⟨hg, hg.sublist (List.filter_sublist.map _)⟩

/-- The coefficients of regions do not reach the requirements: whatever they are, the requirements are the same. -/
theorem C65_region_coefficients_unused {r : Raw} {d : Data} (h : load r = .ok d) (f : LhsRow → ℚ) :
    ∃ d', load { r with regionLhs := r.regionLhs.map (fun l => { l with coef := f l }) } = .ok d' ∧
      ∀ q, q ∈ d'.requirements ↔ q ∈ d.requirements := by
  have hk : KnownCodes { r with regionLhs := r.regionLhs.map (fun l => { l with coef := f l }) } := by
    obtain ⟨k1, k2⟩ := (C65_no_error r).1 ⟨d, h⟩
    refine ⟨k1, ?_⟩
    rintro l (hl | hl)
    · exact k2 l (.inl hl)
    · obtain ⟨l0, hl0, rfl⟩ := List.mem_map.1 hl
      exact k2 l0 (.inr hl0)
  obtain ⟨d', h'⟩ := (C65_no_error _).2 hk
  refine ⟨d', h', fun q => ?_⟩
  rw [mem_requirements h', mem_requirements h]
  unfold Regional Published
  refine and_congr_right (fun _ => ?_)
  simp only [List.mem_map]
  constructor
  · rintro ⟨l, ⟨l0, hl0, rfl⟩, e⟩
    exact ⟨l0, hl0, e⟩
  · rintro ⟨l, hl, e⟩
    exact ⟨_, ⟨l, hl, rfl⟩, e⟩

/-! A unit limit, a requirement in two regions and a set without type -/

def demoRaw : Raw where
  rhs := [⟨"#UNIT_E", 50⟩, ⟨"F_REG", 130⟩, ⟨"NO_TYPE", 3⟩]
  types := [⟨"#UNIT_E", "LE", 6300⟩, ⟨"F_REG", "GE", 525⟩, ⟨"OTHER", "EQ", 1⟩]
  unitLhs := [⟨"#UNIT_E", "U", "ENOF", 1⟩]
  regionLhs := [⟨"F_REG", "NSW1", "R5RE", 1⟩, ⟨"F_REG", "VIC1", "R5RE", 1⟩]

def demoData : Data where
  generic := [⟨"#UNIT_E", 50, "<="⟩, ⟨"F_REG", 130, ">="⟩]
  unitLhs := [⟨"#UNIT_E", "U", "energy", 1⟩]
  regionLhs := [⟨"F_REG", "NSW1", "raise_reg", 1⟩, ⟨"F_REG", "VIC1", "raise_reg", 1⟩]
  types := demoRaw.types

example : load demoRaw = .ok demoData := by rfl

example : demoData.excluding = [⟨"#UNIT_E", 50, "<="⟩] ∧
    demoData.requirements = [⟨"F_REG", "raise_reg", "NSW1", ">=", 130⟩, ⟨"F_REG", "raise_reg", "VIC1", ">=", 130⟩] ∧
    (demoRaw.rhs.map RhsRow.set).Nodup ∧ (demoRaw.types.map TypeRow.set).Nodup := by decide +kernel

example : load { demoRaw with types := [⟨"F_REG", "GT", 1⟩] } = .error .keyError := by rfl

end Verif.Cons
