import Verif.Proofs.Tables
import Verif.Spec.History

/-! Every call is a sequence of a few primitive updates (`Prim`).  Invariants and frame properties are
proved once per primitive update. -/

namespace Verif

/-- A freshly numbered unit level constraint set. -/
structure FreshUnit (n : Nat) (t : List Row × List ConUnit) : Prop where
  nodup : (t.1.map Row.cid).Nodup
  ge : ∀ r ∈ t.1, n ≤ r.cid
  sub : ∀ c ∈ t.2, ∃ r ∈ t.1, r.cid = c.cid
  ctype : ∀ r ∈ t.1, r.ctype ≠ .other
  one : ∀ c ∈ t.2, ∀ c' ∈ t.2, c.cid = c'.cid → c.unit = c'.unit

/-- A freshly numbered market constraint set. -/
structure FreshReg (n : Nat) (t : List Row × List ConReg) : Prop where
  nodup : (t.1.map Row.cid).Nodup
  ge : ∀ r ∈ t.1, n ≤ r.cid
  sub : ∀ c ∈ t.2, ∃ r ∈ t.1, r.cid = c.cid
  ctype : ∀ r ∈ t.1, r.ctype ≠ .other
  one : ∀ c ∈ t.2, ∃ r ∈ t.1, r.cid = c.cid ∧ (r.set = none → r.region = some c.region)

theorem same_index {α : Type} {l : List α} {n i j : Nat} {a b : α} (ha : l[i]? = some a) (hb : l[j]? = some b)
    (h : n + i = n + j) : a = b := by
  have : i = j := by omega
  subst this
  rw [ha] at hb; injection hb

theorem nodup_range' (n len : Nat) : (List.range' n len).Nodup := List.nodup_range'

theorem freshUnit_createConstraints (ls : List Lim) (n : Nat) (d : CType) (hd : d ≠ .other) :
    FreshUnit n (createConstraints ls n d) := by
  refine ⟨?_, ?_, ?_, ?_, ?_⟩
  · simp only [createConstraints, map_saveIndex, saveIndex_ids]; exact nodup_range' _ _
  · intro r hr
    obtain ⟨i, l, _, h1, _, rfl⟩ := mem_saveIndex_lt hr
    exact h1
  · intro c hc
    obtain ⟨i, l, h, rfl⟩ := mem_saveIndex.1 hc
    exact ⟨_, mem_saveIndex.2 ⟨i, l, h, rfl⟩, rfl⟩
  · intro r hr
    obtain ⟨i, l, _, h1, _, rfl⟩ := mem_saveIndex_lt hr
    exact hd
  · intro c hc c' hc' e
    obtain ⟨i, l, h, rfl⟩ := mem_saveIndex.1 hc
    obtain ⟨j, l', h', rfl⟩ := mem_saveIndex.1 hc'
    rw [same_index h h' e]

theorem freshUnit_capacity (ls : List Lim) (n : Nat) (bidi : List String) :
    FreshUnit n (capacityConstraints ls n bidi) := by
  have h := freshUnit_createConstraints ls n .le (by decide)
  refine ⟨h.nodup, h.ge, ?_, h.ctype, ?_⟩
  · intro c hc
    simp only [capacityConstraints, List.mem_map] at hc
    obtain ⟨c', hc', rfl⟩ := hc
    exact h.sub c' hc'
  · intro a ha b hb e
    simp only [capacityConstraints, List.mem_map] at ha hb
    obtain ⟨a', ha', rfl⟩ := ha
    obtain ⟨b', hb', rfl⟩ := hb
    exact h.one a' ha' b' hb' e

theorem FreshUnit.append {n n' : Nat} {t t' : List Row × List ConUnit} (h : FreshUnit n t) (h' : FreshUnit n' t')
    (hlt : ∀ r ∈ t.1, r.cid < n') (hn : n ≤ n') : FreshUnit n (t.1 ++ t'.1, t.2 ++ t'.2) := by
  refine ⟨?_, ?_, ?_, ?_, ?_⟩
  · rw [List.map_append, List.nodup_append]
    refine ⟨h.nodup, h'.nodup, ?_⟩
    intro a ha b hb
    obtain ⟨r, hr, rfl⟩ := List.mem_map.1 ha
    obtain ⟨r', hr', rfl⟩ := List.mem_map.1 hb
    have := hlt r hr; have := h'.ge r' hr'; omega
  · intro r hr
    rcases List.mem_append.1 hr with hr | hr
    · exact h.ge r hr
    · exact le_trans hn (h'.ge r hr)
  · intro c hc
    rcases List.mem_append.1 hc with hc | hc
    · obtain ⟨r, hr, e⟩ := h.sub c hc; exact ⟨r, List.mem_append_left _ hr, e⟩
    · obtain ⟨r, hr, e⟩ := h'.sub c hc; exact ⟨r, List.mem_append_right _ hr, e⟩
  · intro r hr
    rcases List.mem_append.1 hr with hr | hr
    · exact h.ctype r hr
    · exact h'.ctype r hr
  · have hx : ∀ a ∈ t.2, ∀ b ∈ t'.2, a.cid ≠ b.cid := by
      intro a ha b hb e
      obtain ⟨r, hr, e1⟩ := h.sub a ha
      obtain ⟨r', hr', e2⟩ := h'.sub b hb
      have := hlt r hr; have := h'.ge r' hr'; omega
    intro a ha b hb e
    rcases List.mem_append.1 ha with ha | ha <;> rcases List.mem_append.1 hb with hb | hb
    · exact h.one a ha b hb e
    · exact absurd e (hx a ha b hb)
    · exact absurd e.symm (hx b hb a ha)
    · exact h'.one a ha b hb e

theorem createConstraints_lt (ls : List Lim) (n : Nat) (d : CType) :
    ∀ r ∈ (createConstraints ls n d).1, r.cid < n + ls.length := by
  intro r hr
  obtain ⟨i, l, _, _, h1, rfl⟩ := mem_saveIndex_lt hr
  exact h1

theorem freshUnit_fastStart (ps : List FsProfile) (n : Nat) : FreshUnit n (fastStartConstraints ps n) := by
  have h1 := freshUnit_createConstraints (fsModeOne ps) n .le (by decide)
  have h2a := freshUnit_createConstraints (fsModeTwo ps) (n + (fsModeOne ps).length) .ge (by decide)
  have h2b := freshUnit_createConstraints (fsModeTwo ps) (n + (fsModeOne ps).length + (fsModeTwo ps).length) .le (by decide)
  have h3 := freshUnit_createConstraints (fsModeThree ps)
    (n + (fsModeOne ps).length + (fsModeTwo ps).length + (fsModeTwo ps).length) .ge (by decide)
  have h4 := freshUnit_createConstraints (fsModeFour ps)
    (n + (fsModeOne ps).length + (fsModeTwo ps).length + (fsModeTwo ps).length + (fsModeThree ps).length) .ge (by decide)
  have l1 := createConstraints_lt (fsModeOne ps) n .le
  have l2a := createConstraints_lt (fsModeTwo ps) (n + (fsModeOne ps).length) .ge
  have l2b := createConstraints_lt (fsModeTwo ps) (n + (fsModeOne ps).length + (fsModeTwo ps).length) .le
  have l3 := createConstraints_lt (fsModeThree ps)
    (n + (fsModeOne ps).length + (fsModeTwo ps).length + (fsModeTwo ps).length) .ge
  have a1 := h1.append h2a l1 (by omega)
  have a2 := a1.append h2b (by
    intro r hr; rcases List.mem_append.1 hr with hr | hr
    · have := l1 r hr; omega
    · have := l2a r hr; omega) (by omega)
  have a3 := a2.append h3 (by
    intro r hr; rcases List.mem_append.1 hr with hr | hr
    · rcases List.mem_append.1 hr with hr | hr
      · have := l1 r hr; omega
      · have := l2a r hr; omega
    · have := l2b r hr; omega) (by omega)
  have a4 := a3.append h4 (by
    intro r hr; rcases List.mem_append.1 hr with hr | hr
    · rcases List.mem_append.1 hr with hr | hr
      · rcases List.mem_append.1 hr with hr | hr
        · have := l1 r hr; omega
        · have := l2a r hr; omega
      · have := l2b r hr; omega
    · have := l3 r hr; omega) (by omega)
  refine ⟨a4.nodup, a4.ge, ?_, a4.ctype, ?_⟩
  · intro c hc
    apply a4.sub c
    simp only [fastStartConstraints, List.mem_append] at hc ⊢
    tauto
  · intro a ha b hb
    apply a4.one a _ b
    · simp only [fastStartConstraints, List.mem_append] at hb ⊢
      tauto
    · simp only [fastStartConstraints, List.mem_append] at ha ⊢
      tauto

theorem mem_jrGeneric_row {cs : List (Nat × RegRate)} {s : JrSettings} {di : ℚ} {r : Row}
    (h : r ∈ (jrGeneric cs s di).1) : ∃ c ∈ cs, r.cid = c.1 ∧ r.ctype = s.ctype := by
  obtain ⟨c, hc, rfl⟩ := List.mem_map.1 h
  exact ⟨c, hc, rfl, rfl⟩

theorem freshUnit_jr (rs : List RegRate) (di : ℚ) (n : Nat) (g l : JrSettings) (hg : g.ctype ≠ .other)
    (hl : l.ctype ≠ .other) : FreshUnit n (jrConstructor rs di n g l) := by
  have hnd : ((saveIndex rs n (fun i r => (i, r))).map Prod.fst).Nodup := by
    rw [map_saveIndex, saveIndex_ids]; exact nodup_range' _ _
  have hinj : ∀ a ∈ saveIndex rs n (fun i r => (i, r)), ∀ b ∈ saveIndex rs n (fun i r => (i, r)), a.1 = b.1 → a = b := by
    intro a ha b hb hab
    obtain ⟨i, r, h1, rfl⟩ := mem_saveIndex.1 ha
    obtain ⟨j, r', h2, rfl⟩ := mem_saveIndex.1 hb
    have hij : i = j := by simpa using hab
    subst hij
    rw [h1] at h2; injection h2 with h2; subst h2; rfl
  refine ⟨?_, ?_, ?_, ?_, ?_⟩
  · simp only [jrConstructor, jrGeneric, List.map_append, List.map_map]
    rw [List.nodup_append]
    refine ⟨?_, ?_, ?_⟩
    · exact hnd.sublist (List.filter_sublist.map _)
    · exact hnd.sublist (List.filter_sublist.map _)
    · intro a ha b hb hab
      obtain ⟨x, hx, rfl⟩ := List.mem_map.1 ha
      obtain ⟨y, hy, rfl⟩ := List.mem_map.1 hb
      simp only [List.mem_filter, decide_eq_true_eq] at hx hy
      have := hinj x hx.1 y hy.1 hab
      subst this
      rw [hx.2] at hy; exact absurd hy.2 (by decide)
  · intro r hr
    simp only [jrConstructor, List.mem_append] at hr
    rcases hr with hr | hr <;>
    · obtain ⟨c, hc, e, _⟩ := mem_jrGeneric_row hr
      obtain ⟨i, r', _, h1, _, rfl⟩ := mem_saveIndex_lt (List.mem_filter.1 hc).1
      rw [e]; exact h1
  · intro c hc
    simp only [jrConstructor, jrGeneric, List.mem_append, List.mem_map] at hc ⊢
    rcases hc with (⟨x, hx, rfl⟩ | ⟨x, hx, rfl⟩) | (⟨x, hx, rfl⟩ | ⟨x, hx, rfl⟩)
    · exact ⟨_, Or.inl ⟨x, hx, rfl⟩, rfl⟩
    · exact ⟨_, Or.inl ⟨x, hx, rfl⟩, rfl⟩
    · exact ⟨_, Or.inr ⟨x, hx, rfl⟩, rfl⟩
    · exact ⟨_, Or.inr ⟨x, hx, rfl⟩, rfl⟩
  · intro r hr
    simp only [jrConstructor, List.mem_append] at hr
    rcases hr with hr | hr
    · obtain ⟨c, hc, _, e⟩ := mem_jrGeneric_row hr; rw [e]; exact hg
    · obtain ⟨c, hc, _, e⟩ := mem_jrGeneric_row hr; rw [e]; exact hl
  · have hm : ∀ c ∈ (jrConstructor rs di n g l).2, ∃ x ∈ saveIndex rs n (fun i r => (i, r)), c.cid = x.1 ∧ c.unit = x.2.unit := by
      intro c hc
      simp only [jrConstructor, jrGeneric, List.mem_append, List.mem_map] at hc
      rcases hc with (⟨x, hx, rfl⟩ | ⟨x, hx, rfl⟩) | (⟨x, hx, rfl⟩ | ⟨x, hx, rfl⟩) <;>
        exact ⟨x, (List.mem_filter.1 hx).1, rfl, rfl⟩
    intro a ha b hb e
    obtain ⟨x, hx, e1, e2⟩ := hm a ha
    obtain ⟨y, hy, e3, e4⟩ := hm b hb
    rw [e2, e4, hinj x hx y hy (by rw [← e1, ← e3, e])]

theorem freshUnit_jrBdu (rs : List RegRate) (di : ℚ) (n : Nat) (ct : CType) (s : ℚ) (h : ct ≠ .other) :
    FreshUnit n (jrBdu rs di n ct s) := by
  refine ⟨?_, ?_, ?_, ?_, ?_⟩
  · simp only [jrBdu, map_saveIndex, saveIndex_ids]
    exact nodup_range' _ _
  · intro r hr
    simp only [jrBdu, List.mem_map] at hr
    obtain ⟨c, hc, rfl⟩ := hr
    obtain ⟨i, r', _, h1, _, rfl⟩ := mem_saveIndex_lt hc
    exact h1
  · intro c hc
    simp only [jrBdu, List.mem_append, List.mem_map, List.mem_flatMap] at hc ⊢
    rcases hc with ⟨x, hx, y, _, rfl⟩ | ⟨c', ⟨x, hx, y, _, rfl⟩, rfl⟩
    · exact ⟨_, ⟨x, hx, rfl⟩, rfl⟩
    · exact ⟨_, ⟨x, hx, rfl⟩, rfl⟩
  · intro r hr
    simp only [jrBdu, List.mem_map] at hr
    obtain ⟨c, hc, rfl⟩ := hr
    exact h
  · have hm : ∀ c ∈ (jrBdu rs di n ct s).2, ∃ x ∈ saveIndex (dropDup (·.unit) rs) n (fun i r => (i, r)), c.cid = x.1 ∧ c.unit = x.2.unit := by
      intro c hc
      simp only [jrBdu, List.mem_append, List.mem_map, List.mem_flatMap, List.mem_filter, decide_eq_true_eq] at hc
      rcases hc with ⟨x, hx, y, hy, rfl⟩ | ⟨c', ⟨x, hx, y, hy, rfl⟩, rfl⟩
      · exact ⟨x, hx, rfl, hy.2⟩
      · exact ⟨x, hx, rfl, hy.2⟩
    intro a ha b hb e
    obtain ⟨x, hx, e1, e2⟩ := hm a ha
    obtain ⟨y, hy, e3, e4⟩ := hm b hb
    obtain ⟨i, r, h1, rfl⟩ := mem_saveIndex.1 hx
    obtain ⟨j, r', h2, rfl⟩ := mem_saveIndex.1 hy
    rw [e2, e4, same_index h1 h2 (by rw [e1, e3] at e; exact e)]

theorem jcMap_cid {bidi : List String} {i : Nat} {t : Trap} {c : ConUnit} :
    (c ∈ jcUpperMap bidi i t → c.cid = i) ∧ (c ∈ jcLowerMap bidi i t → c.cid = i) := by
  constructor <;>
  · intro h
    simp only [jcUpperMap, jcLowerMap, List.mem_append, List.mem_cons, List.not_mem_nil, or_false] at h
    rcases h with (rfl | rfl | rfl) | h
    · rfl
    · rfl
    · rfl
    · split at h
      · simp only [List.mem_cons, List.not_mem_nil, or_false] at h
        rcases h with rfl | rfl <;> rfl
      · simp at h

theorem jcMap_unit {bidi : List String} {i : Nat} {t : Trap} {c : ConUnit} :
    (c ∈ jcUpperMap bidi i t → c.unit = t.unit) ∧ (c ∈ jcLowerMap bidi i t → c.unit = t.unit) := by
  constructor <;>
  · intro h
    simp only [jcUpperMap, jcLowerMap, List.mem_append, List.mem_cons, List.not_mem_nil, or_false] at h
    rcases h with (rfl | rfl | rfl) | h
    · rfl
    · rfl
    · rfl
    · split at h
      · simp only [List.mem_cons, List.not_mem_nil, or_false] at h
        rcases h with rfl | rfl <;> rfl
      · simp at h

theorem freshUnit_two (ts : List Trap) (n : Nat) (f g : Nat → Trap → List ConUnit)
    (hf : ∀ i t c, c ∈ f i t → c.cid = i) (hg : ∀ i t c, c ∈ g i t → c.cid = i)
    (hfu : ∀ i t c, c ∈ f i t → c.unit = t.unit) (hgu : ∀ i t c, c ∈ g i t → c.unit = t.unit) :
    FreshUnit n (saveIndex ts n (fun i t => ({ cid := i, ctype := .le, rhs := t.emax } : Row)) ++
      saveIndex ts (n + ts.length) (fun i t => ({ cid := i, ctype := .ge, rhs := t.emin } : Row)),
      (saveIndex ts n f).flatten ++ (saveIndex ts (n + ts.length) g).flatten) := by
  refine ⟨?_, ?_, ?_, ?_, ?_⟩
  · simp only [List.map_append, map_saveIndex, saveIndex_ids]
    rw [List.nodup_append]
    refine ⟨nodup_range' _ _, nodup_range' _ _, ?_⟩
    intro a ha b hb
    simp only [List.mem_range'_1] at ha hb
    omega
  · intro r hr
    rcases List.mem_append.1 hr with hr | hr <;>
    · obtain ⟨i, l, _, h1, _, rfl⟩ := mem_saveIndex_lt hr
      show n ≤ i
      omega
  · intro c hc
    rcases List.mem_append.1 hc with hc | hc
    · obtain ⟨l, hl, hc⟩ := List.mem_flatten.1 hc
      obtain ⟨i, t, h, rfl⟩ := mem_saveIndex.1 hl
      exact ⟨_, List.mem_append_left _ (mem_saveIndex.2 ⟨i, t, h, rfl⟩), (hf _ _ _ hc).symm⟩
    · obtain ⟨l, hl, hc⟩ := List.mem_flatten.1 hc
      obtain ⟨i, t, h, rfl⟩ := mem_saveIndex.1 hl
      exact ⟨_, List.mem_append_right _ (mem_saveIndex.2 ⟨i, t, h, rfl⟩), (hg _ _ _ hc).symm⟩
  · intro r hr
    rcases List.mem_append.1 hr with hr | hr <;>
    · obtain ⟨i, l, _, h1, _, rfl⟩ := mem_saveIndex_lt hr
      simp
  · intro a ha b hb e
    rcases List.mem_append.1 ha with ha | ha <;> rcases List.mem_append.1 hb with hb | hb <;>
    · obtain ⟨l, hl, ha⟩ := List.mem_flatten.1 ha
      obtain ⟨l', hl', hb⟩ := List.mem_flatten.1 hb
      obtain ⟨i, t, h, rfl⟩ := mem_saveIndex.1 hl
      obtain ⟨j, t', h', rfl⟩ := mem_saveIndex.1 hl'
      have hi := (List.getElem?_eq_some_iff.1 h).1
      have hj := (List.getElem?_eq_some_iff.1 h').1
      first
        | rw [hf _ _ _ ha, hf _ _ _ hb] at e
          rw [hfu _ _ _ ha, hfu _ _ _ hb, same_index h h' e]
        | rw [hg _ _ _ ha, hg _ _ _ hb] at e
          rw [hgu _ _ _ ha, hgu _ _ _ hb, same_index h h' e]
        | rw [hf _ _ _ ha, hg _ _ _ hb] at e; omega
        | rw [hg _ _ _ ha, hf _ _ _ hb] at e; omega

theorem freshUnit_jointCapacity (ts : List Trap) (bidi : List String) (n : Nat) :
    FreshUnit n (jointCapacityConstraints ts bidi n) :=
  freshUnit_two ts n _ _ (fun _ _ _ h => jcMap_cid.1 h) (fun _ _ _ h => jcMap_cid.2 h)
    (fun _ _ _ h => jcMap_unit.1 h) (fun _ _ _ h => jcMap_unit.2 h)

theorem freshUnit_energyReg (ts : List Trap) (n : Nat) : FreshUnit n (energyRegConstraints ts n) := by
  apply freshUnit_two ts n <;>
  · intro i t c h
    simp only [List.mem_cons, List.not_mem_nil, or_false] at h
    rcases h with rfl | rfl <;> rfl

theorem freshUnit_biRamp (rs : List BiRamp) (u : Bool) (n : Nat) (di : ℚ) :
    FreshUnit n (biRampConstraints rs u n di) := by
  refine ⟨?_, ?_, ?_, ?_, ?_⟩
  · simp only [biRampConstraints, map_saveIndex, saveIndex_ids]
    exact nodup_range' _ _
  · intro r hr
    simp only [biRampConstraints] at hr
    obtain ⟨i, l, _, h1, _, rfl⟩ := mem_saveIndex_lt hr
    exact h1
  · intro c hc
    simp only [biRampConstraints, List.mem_append, List.mem_map, List.mem_flatMap] at hc ⊢
    rcases hc with ⟨r, _, x, hx, rfl⟩ | ⟨r, _, x, hx, rfl⟩ <;>
    · obtain ⟨i, l, h, rfl⟩ := mem_saveIndex.1 (List.mem_filter.1 hx).1
      exact ⟨_, mem_saveIndex.2 ⟨i, l, h, rfl⟩, rfl⟩
  · intro r hr
    simp only [biRampConstraints] at hr
    obtain ⟨i, l, _, h1, _, rfl⟩ := mem_saveIndex_lt hr
    cases u <;> simp
  · have hm : ∀ c ∈ (biRampConstraints rs u n di).2, ∃ x ∈ saveIndex (dropDup (·.unit) rs) n (fun i r => (i, r.unit)),
        c.cid = x.1 ∧ c.unit = x.2 := by
      intro c hc
      simp only [biRampConstraints, List.mem_append, List.mem_map, List.mem_flatMap, List.mem_filter, decide_eq_true_eq] at hc
      rcases hc with ⟨r, _, x, hx, rfl⟩ | ⟨r, _, x, hx, rfl⟩ <;> exact ⟨x, hx.1, rfl, hx.2.symm⟩
    intro a ha b hb e
    obtain ⟨x, hx, e1, e2⟩ := hm a ha
    obtain ⟨y, hy, e3, e4⟩ := hm b hb
    obtain ⟨i, r, h1, rfl⟩ := mem_saveIndex.1 hx
    obtain ⟨j, r', h2, rfl⟩ := mem_saveIndex.1 hy
    rw [e2, e4, same_index h1 h2 (by rw [e1, e3] at e; exact e)]

theorem freshReg_energy (ds : List Demand) (n : Nat) : FreshReg n (energyConstraints ds n) := by
  refine ⟨?_, ?_, ?_, ?_, ?_⟩
  · simp only [energyConstraints, map_saveIndex, saveIndex_ids]; exact nodup_range' _ _
  · intro r hr
    obtain ⟨i, l, _, h1, _, rfl⟩ := mem_saveIndex_lt hr
    exact h1
  · intro c hc
    obtain ⟨i, l, h, rfl⟩ := mem_saveIndex.1 hc
    exact ⟨_, mem_saveIndex.2 ⟨i, l, h, rfl⟩, rfl⟩
  · intro r hr
    obtain ⟨i, l, _, h1, _, rfl⟩ := mem_saveIndex_lt hr
    simp
  · intro c hc
    obtain ⟨i, l, h, rfl⟩ := mem_saveIndex.1 hc
    exact ⟨_, mem_saveIndex.2 ⟨i, l, h, rfl⟩, rfl, fun _ => rfl⟩

theorem freshReg_fcas (rs : List FcasReq) (n : Nat) (ht : ∀ r ∈ rs, r.ctype ≠ .other) :
    FreshReg n (fcasConstraints rs n) := by
  refine ⟨?_, ?_, ?_, ?_, ?_⟩
  · simp only [fcasConstraints, fcasRows, map_saveIndex, saveIndex_ids]; exact nodup_range' _ _
  · intro r hr
    simp only [fcasConstraints, fcasRows] at hr
    obtain ⟨i, l, _, h1, _, rfl⟩ := mem_saveIndex_lt hr
    exact h1
  · intro c hc
    simp only [fcasConstraints, List.mem_flatMap, List.mem_map] at hc
    obtain ⟨r, _, t, htm, rfl⟩ := hc
    exact ⟨t, (List.mem_filter.1 htm).1, rfl⟩
  · intro r hr
    simp only [fcasConstraints, fcasRows] at hr
    obtain ⟨i, l, hl, h1, _, rfl⟩ := mem_saveIndex_lt hr
    exact ht l (mem_of_mem_dropDup hl)
  · intro c hc
    simp only [fcasConstraints, List.mem_flatMap, List.mem_map, List.mem_filter, decide_eq_true_eq] at hc
    obtain ⟨r, _, t, ⟨htm, e⟩, rfl⟩ := hc
    exact ⟨t, htm, rfl, fun h => by rw [h] at e; cases e⟩

/-! ## Primitive updates -/

/-- the keys used for market (regional) constraint sets -/
def CKey.isMarket : CKey → Bool
  | .demand => true
  | .fcas => true
  | _ => false

/-- the keys used for unit level constraint sets -/
def CKey.isUnit : CKey → Bool
  | .demand => false
  | .fcas => false
  | .generic => false
  | .tieBreak => false
  | .interpWeights => false
  | .other _ => false
  | _ => true

/-- Primitive updates; the list holds the keys of the constraint sets that may be written. -/
inductive Prim (good : Prop) : List Part → Market → Market → Prop
  | bids (m : Market) (b : List BidRow) : Prim good [.bids] m (m.setVolumeBids b).1
  | prices (m : Market) (b : List BidRow) : Prim good [.prices] m (m.setPriceBids b).1
  | unitSet (m : Market) (k : CKey) (t : List Row × List ConUnit) (hk : k.isUnit = true)
      (ht : FreshUnit m.nextCon t) : Prim good [.set k] m (m.addUnitSet k t).1
  | regSet (m : Market) (k : CKey) (t : List Row × List ConReg) (hk : k.isMarket = true)
      (ht : FreshReg m.nextCon t) : Prim good [.set k] m (m.addRegSet k t).1
  | elastic (m : Market) (k : CKey) (c : VCost) : Prim good [.set k] m (m.makeElastic k c).1
  | removeFs (m : Market) : Prim good [.set .fastStart] m m.removeFastStart.1
  | inters (m : Market) (d : List InterDef) : Prim good [.inters] m (m.setInterconnectors d).1
  | losses (m : Market) (f : List LossFn) (b : List BreakPt) (h : good → LinksKnown m b) :
      Prim good [.set .interpWeights] m (m.setLosses f b).1
  | generic (m : Market) (g : List GenericRow) : Prim good [.set .generic] m (m.setGeneric g none).1
  | linkUnits (m : Market) (g : List GUnit) : Prim good [.gUnit] m (m.linkUnits g).1
  | linkRegions (m : Market) (g : List GRegion) : Prim good [.gRegion] m (m.linkRegions g).1
  | linkInters (m : Market) (g : List GInter) : Prim good [.gInter] m (m.linkInters g).1
  | tie (m : Market) (ps : List (TieBid × TieBid)) (hne : ps ≠ [])
      (hp : ∃ costs vars, m.bidCost = some costs ∧ m.bids = some vars ∧ ps = tiePairs (tieBids costs vars m.units)) :
      Prim good [.set .tieBreak] m
      { m with tieLhs := some (tieConstraints ps m.nextCon).1,
               conRhs := m.conRhs.set .tieBreak (tieConstraints ps m.nextCon).2,
               nextCon := nextAfter ((tieConstraints ps m.nextCon).2.map Row.cid) }

/-- Sequences of primitive updates writing only the constraint sets `ks`. -/
inductive Steps (good : Prop) (ks : List Part) : Market → Market → Prop
  | refl (m : Market) : Steps good ks m m
  | tail {m m1 m2 : Market} {ks' : List Part} (h : Steps good ks m m1) (h' : Prim good ks' m1 m2)
      (hk : ks' ⊆ ks) : Steps good ks m m2

section
variable {good : Prop} {ks : List Part}

theorem Steps.prim {m m' : Market} {ks' : List Part} (h : Prim good ks' m m') (hk : ks' ⊆ ks) : Steps good ks m m' :=
  .tail (.refl m) h hk

theorem Steps.trans {m m1 m2 : Market} (h : Steps good ks m m1) (h' : Steps good ks m1 m2) : Steps good ks m m2 := by
  induction h' with
  | refl => exact h
  | tail _ p hk ih => exact .tail ih p hk

theorem Steps.andThen {m : Market} {r : Res} {f : Market → Res} (h : Steps good ks m r.1)
    (hf : Steps good ks r.1 (f r.1).1) : Steps good ks m (r.andThen f).1 := by
  unfold Res.andThen
  cases hr : r.2 with
  | none => exact h.trans hf
  | some e => exact h

theorem Steps.elastic (m : Market) {k : CKey} (c : VCost) (hk : Part.set k ∈ ks) : Steps good ks m (m.makeElastic k c).1 :=
  .prim (.elastic m k c) (by simpa using hk)

theorem Steps.elasticOpt (m : Market) {k : CKey} (vc : Option VCost) (hk : Part.set k ∈ ks) :
    Steps good ks m (m.elasticOpt k vc).1 := by
  cases vc with
  | none => exact .refl m
  | some c => exact Steps.elastic m c hk

theorem Steps.elasticIf (m : Market) {k : CKey} (c : VCost) (hk : Part.set k ∈ ks) :
    Steps good ks m (m.elasticIfPresent k c).1 := by
  unfold Market.elasticIfPresent
  split
  · exact Steps.elastic m c hk
  · exact .refl m

theorem Steps.unitSet (m : Market) {k : CKey} {t : List Row × List ConUnit} (hu : k.isUnit = true)
    (ht : FreshUnit m.nextCon t) (hk : Part.set k ∈ ks) : Steps good ks m (m.addUnitSet k t).1 :=
  .prim (.unitSet m k t hu ht) (by simpa using hk)

theorem Steps.unitSetIf (m : Market) {k : CKey} {t : List Row × List ConUnit} (b : Bool) (hu : k.isUnit = true)
    (ht : FreshUnit m.nextCon t) (hk : Part.set k ∈ ks) : Steps good ks m (m.addUnitSetIf k b t).1 := by
  unfold Market.addUnitSetIf
  split
  · exact Steps.unitSet m hu ht hk
  · exact .refl m

theorem step_steps (m : Market) (op : Op) (hb : good → op.benign m) : Steps good op.parts m (m.step op).1 := by
  unfold Market.step
  split
  · exact .refl m
  cases op with
  | volumeBids b => exact .prim (.bids m b) (by simp [Op.parts])
  | priceBids b => exact .prim (.prices m b) (by simp [Op.parts])
  | capacity l vc =>
    simp only [Market.setCapacity]
    split
    · exact .refl m
    split
    · exact .refl m
    · exact .andThen (.unitSet m rfl (freshUnit_capacity ..) (by simp [Op.parts])) (.elasticOpt _ _ (by simp [Op.parts]))
  | uigf l vc =>
    simp only [Market.setUigf]
    split
    · exact .refl m
    split
    · exact .refl m
    · exact .andThen (.unitSet m rfl (freshUnit_createConstraints _ _ _ (by decide)) (by simp [Op.parts]))
        (.elasticOpt _ _ (by simp [Op.parts]))
  | rampRates r sc ps rt vc =>
    simp only [Market.setRampRates]
    split
    · exact .refl m
    split
    · exact .refl m
    split
    · exact .refl m
    split
    · exact .refl m
    split
    · exact .refl m
    · refine .andThen (.unitSet m rfl (freshUnit_createConstraints _ _ _ (by decide)) (by simp [Op.parts])) ?_
      refine .andThen (.unitSet _ rfl (freshUnit_createConstraints _ _ _ (by decide)) (by simp [Op.parts])) ?_
      refine .andThen ?_ ?_
      · unfold Market.addBiRamps
        split
        · exact .refl _
        · exact .andThen (.unitSet _ rfl (freshUnit_biRamp ..) (by simp [Op.parts]))
            (.unitSet _ rfl (freshUnit_biRamp ..) (by simp [Op.parts]))
      · unfold Market.elasticRamps
        split
        · exact .refl _
        · refine .andThen (.elastic _ _ (by simp [Op.parts])) ?_
          refine .andThen (.elastic _ _ (by simp [Op.parts])) ?_
          exact .andThen (.elasticIf _ _ (by simp [Op.parts])) (.elasticIf _ _ (by simp [Op.parts]))
  | fastStart p vc =>
    simp only [Market.setFastStart]
    split
    · exact .refl m
    split
    · exact .refl m
    · exact .andThen (.unitSet m rfl (freshUnit_fastStart ..) (by simp [Op.parts])) (.elasticOpt _ _ (by simp [Op.parts]))
  | removeFastStart => exact .prim (.removeFs m) (by simp [Op.parts])
  | demand d vc =>
    simp only [Market.setDemand]
    split
    · exact .refl m
    · exact .andThen (.prim (.regSet m .demand _ rfl (freshReg_energy ..)) (by simp [Op.parts]))
        (.elasticOpt _ _ (by simp [Op.parts]))
  | fcasReq r vc =>
    simp only [Market.setFcasReq]
    split
    · exact .refl m
    · rename_i h
      refine .andThen (.prim (.regSet m .fcas _ rfl (freshReg_fcas _ _ ?_)) (by simp [Op.parts]))
        (.elasticOpt _ _ (by simp [Op.parts]))
      simp at h
      intro x hx; exact (h.1 x hx).2
  | fcasMaxAvail l vc =>
    simp only [Market.setFcasMaxAvail]
    split
    · exact .refl m
    · exact .andThen (.unitSet m rfl (freshUnit_createConstraints _ _ _ (by decide)) (by simp [Op.parts]))
        (.elasticOpt _ _ (by simp [Op.parts]))
  | jointRamping r ps rt vc =>
    simp only [Market.setJointRamping]
    split
    · exact .refl m
    split
    · exact .refl m
    split
    · exact .refl m
    split
    · exact .refl m
    · refine .andThen (.unitSetIf _ _ rfl (freshUnit_jr _ _ _ _ _ (by decide) (by decide)) (by simp [Op.parts])) ?_
      refine .andThen (.unitSetIf _ _ rfl (freshUnit_jrBdu _ _ _ _ _ (by decide)) (by simp [Op.parts])) ?_
      refine .andThen (.unitSetIf _ _ rfl (freshUnit_jr _ _ _ _ _ (by decide) (by decide)) (by simp [Op.parts])) ?_
      refine .andThen (.unitSetIf _ _ rfl (freshUnit_jrBdu _ _ _ _ _ (by decide)) (by simp [Op.parts])) ?_
      unfold Market.elasticJr
      split
      · exact .refl _
      · refine .andThen (.elastic _ _ (by simp [Op.parts])) ?_
        refine .andThen (.elastic _ _ (by simp [Op.parts])) ?_
        exact .andThen (.elasticIf _ _ (by simp [Op.parts])) (.elasticIf _ _ (by simp [Op.parts]))
  | jointCapacity t vc =>
    simp only [Market.setJointCapacity]
    split
    · exact .refl m
    split
    · exact .refl m
    · exact .andThen (.unitSet m rfl (freshUnit_jointCapacity ..) (by simp [Op.parts])) (.elasticOpt _ _ (by simp [Op.parts]))
  | energyReg t vc =>
    simp only [Market.setEnergyReg]
    split
    · exact .refl m
    split
    · exact .refl m
    · exact .andThen (.unitSet m rfl (freshUnit_energyReg ..) (by simp [Op.parts])) (.elasticOpt _ _ (by simp [Op.parts]))
  | interconnectors d => exact .prim (.inters m d) (by simp [Op.parts])
  | losses f b => exact .prim (.losses m f b hb) (by simp [Op.parts])
  | generic g vc =>
    have h : (m.setGeneric g vc).1 = (m.setGeneric g none).1 ∨
        (m.setGeneric g vc).1 = ((m.setGeneric g none).1.elasticOpt .generic vc).1 := by
      simp only [Market.setGeneric]
      split
      · exact Or.inl rfl
      · exact Or.inr rfl
    rcases h with h | h
    · rw [h]; exact .prim (.generic m g) (by simp [Op.parts])
    · rw [h]; exact .trans (.prim (.generic m g) (by simp [Op.parts])) (.elasticOpt _ _ (by simp [Op.parts]))
  | linkUnits g => exact .prim (.linkUnits m g) (by simp [Op.parts])
  | linkRegions g => exact .prim (.linkRegions m g) (by simp [Op.parts])
  | linkInters g => exact .prim (.linkInters m g) (by simp [Op.parts])
  | elastic k c => exact .elastic m c (by simp [Op.parts])
  | tieBreak c =>
    simp only [Market.setTieBreak]
    split
    · split
      · exact .refl m
      · rename_i h
        exact .trans (.prim (.tie m _ (by intro e; rw [e] at h; simp at h) ⟨_, _, ‹_›, ‹_›, rfl⟩) (by simp [Op.parts]))
          (.elastic _ _ (by simp [Op.parts]))
    · exact .refl m

/-- Induction principle for invariants. -/
theorem steps_invariant {P : Market → Prop}
    (hp : ∀ (m m' : Market) (ks : List Part), Prim good ks m m' → P m → P m')
    {m m' : Market} (h : Steps good ks m m') (h0 : P m) : P m' := by
  induction h with
  | refl => exact h0
  | tail _ p _ ih => exact hp _ _ _ p ih

theorem run_invariant {P : Market → Prop}
    (hp : ∀ (m m' : Market) (ks : List Part), Prim good ks m m' → P m → P m')
    {m : Market} {ops : List Op} (hb : good → Benign m ops) (h0 : P m) : P (m.run ops) := by
  induction ops generalizing m with
  | nil => exact h0
  | cons op ops ih =>
    exact ih (m := (m.step op).1) (fun g => (hb g).2) (steps_invariant hp (step_steps m op (fun g => (hb g).1)) h0)

theorem run_cons (m : Market) (op : Op) (ops : List Op) : m.run (op :: ops) = (m.step op).1.run ops := rfl

theorem run_append (m : Market) (a b : List Op) : m.run (a ++ b) = (m.run a).run b := by
  simp [Market.run, List.foldl_append]

theorem benign_append {m : Market} {a b : List Op} : Benign m (a ++ b) ↔ Benign m a ∧ Benign (m.run a) b := by
  induction a generalizing m with
  | nil => simp [Benign, Market.run]
  | cons op a ih => simp only [List.cons_append, Benign, ih, run_cons, and_assoc]

end

end Verif
