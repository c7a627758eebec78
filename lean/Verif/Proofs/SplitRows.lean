import Verif.Proofs.Split
import Verif.Proofs.Alike

/-! Every row of the program of a market that falls apart is about one side. -/

namespace Verif

variable {m : Market} {G : String → Prop}

/-- the numbers of the three kinds of loss rows -/
def lossRange (nc n1 n2 n0 c : Nat) : Prop := (n0 = nc ∧ nc ≤ c ∧ c < n1) ∨ (n0 = n1 ∧ n1 ≤ c ∧ c < n2) ∨ (n0 = n2 ∧ n2 ≤ c)

theorem lossRange_unique {nc n1 n2 a b c : Nat} (h1 : nc ≤ n1) (h2 : n1 ≤ n2) (ha : lossRange nc n1 n2 a c) (hb : lossRange nc n1 n2 b c) :
    a = b := by
  unfold lossRange at *; omega

section
variable {fs : List LossFn} {bs : List BreakPt} {ds : List InterDef} {n nv nc n1 n2 nw : Nat}

theorem LossTables.lhs_at (h : LossTables m fs bs ds n nv nc n1 n2 nw) {t : Term} (ht : t ∈ m.lossLhs.getD []) :
    ∃ n0, lossRange nc n1 n2 n0 t.cid ∧ ∃ q ∈ weightConIds (weightVariables bs nw) n0, q.1 = t.cid ∧
      ∃ w ∈ m.weights.getD [], w.vid = t.vid ∧ w.inter = q.2.1 := by
  rw [h.lossLhs, Option.getD_some] at ht
  rw [h.weights, Option.getD_some]
  rcases List.mem_append.1 ht with ht | ht
  · rcases List.mem_append.1 ht with ht | ht
    · simp only [weightsSumToOne, weightTerms, List.mem_flatMap, List.mem_map, List.mem_filter, decide_eq_true_eq] at ht
      obtain ⟨w, hw, q, ⟨hq, e⟩, rfl⟩ := ht
      exact ⟨nc, Or.inl ⟨rfl, h.range_s hq⟩, q, hq, rfl, w, hw, rfl, e.1.symm⟩
    · simp only [linkWeightsToFlow, weightTerms, List.mem_flatMap, List.mem_map, List.mem_filter, decide_eq_true_eq] at ht
      obtain ⟨w, hw, q, ⟨hq, e⟩, rfl⟩ := ht
      exact ⟨n2, Or.inr (Or.inr ⟨rfl, (weightConIds_facts _ _).2.1 q hq⟩), q, hq, rfl, w, hw, rfl, e.1.symm⟩
  · have hr := mem_lossTerm ht h.known
    simp only [linkLossToWeights, List.mem_flatMap, List.mem_map, List.mem_filter, decide_eq_true_eq] at ht
    obtain ⟨w, hw, q, ⟨hq, e⟩, f, _, rfl⟩ := ht
    refine ⟨n1, Or.inr (Or.inl ⟨rfl, hr.1, ?_⟩), q, hq, rfl, w, hw, rfl, e.1.symm⟩
    rw [h.next2]
    exact lt_nextAfter hr.2

theorem LossTables.dyn_at (h : LossTables m fs bs ds n nv nc n1 n2 nw) {d : DynRow} (hd : d ∈ m.dynRhs.getD []) :
    ∃ n0, lossRange nc n1 n2 n0 d.cid ∧ ∃ q ∈ weightConIds (weightVariables bs nw) n0, q.1 = d.cid ∧
      (d.rhsVid, Owner.inter q.2.1) ∈ m.owners := by
  rw [h.dyn, Option.getD_some] at hd
  rcases List.mem_append.1 hd with hd | hd
  · simp only [linkWeightsToFlow, List.mem_flatMap, List.mem_map, List.mem_filter, decide_eq_true_eq] at hd
    obtain ⟨q, hq, v, ⟨hv, e⟩, rfl⟩ := hd
    refine ⟨n2, Or.inr (Or.inr ⟨rfl, (weightConIds_facts _ _).2.1 q hq⟩), q, hq, rfl, ?_⟩
    rw [← e.1]
    exact owns_inter (by rw [h.inters]; exact hv)
  · have hr : d.cid < n2 := by rw [h.next2]; exact lt_nextAfter (List.mem_map_of_mem hd)
    simp only [linkLossToWeights, List.mem_flatMap, List.mem_map, List.mem_filter, decide_eq_true_eq] at hd
    obtain ⟨q, hq, v, ⟨hv, e⟩, rfl⟩ := hd
    refine ⟨n1, Or.inr (Or.inl ⟨rfl, (weightConIds_facts _ _).2.1 q hq, hr⟩), q, hq, rfl, ?_⟩
    rw [← e.1]
    exact owns_loss (by rw [h.losses]; exact hv)

theorem LossTables.side (h : LossTables m fs bs ds n nv nc n1 n2 nw) (hm : Reached m) (c : Nat) :
    ∃ p : Prop, (∀ t ∈ m.lossLhs.getD [], t.cid = c → (m.varIn G t.vid ↔ p)) ∧
      ∀ d ∈ m.dynRhs.getD [], d.cid = c → (m.varIn G d.rhsVid ↔ p) := by
  have hn := h.next_le
  have key : ∀ n0 q, lossRange nc n1 n2 n0 c → q ∈ weightConIds (weightVariables bs nw) n0 → q.1 = c →
      (m.interIn G q.2.1 ↔ ∃ n0 q, lossRange nc n1 n2 n0 c ∧ q ∈ weightConIds (weightVariables bs nw) n0 ∧ q.1 = c ∧ m.interIn G q.2.1) := by
    intro n0 q h1 h2 h3
    constructor
    · intro h4; exact ⟨n0, q, h1, h2, h3, h4⟩
    · rintro ⟨a, b, b1, b2, b3, b4⟩
      have := lossRange_unique hn.2 hn.1 h1 b1
      subst this
      have := List.inj_on_of_nodup_map (weightConIds_facts _ _).1 h2 b2 (by rw [h3, b3])
      rw [this]; exact b4
  refine ⟨∃ n0 q, lossRange nc n1 n2 n0 c ∧ q ∈ weightConIds (weightVariables bs nw) n0 ∧ q.1 = c ∧ m.interIn G q.2.1, ?_, ?_⟩
  rotate_left
  · intro d hd e
    obtain ⟨n0, h1, q, h2, h3, h4⟩ := h.dyn_at hd
    rw [e] at h1 h3
    exact (varIn_iff hm h4).trans (key n0 q h1 h2 h3)
  · intro t ht e
    obtain ⟨n0, h1, q, h2, h3, w, hw, e1, e2⟩ := h.lhs_at ht
    rw [e] at h1 h3
    rw [← e1, varIn_iff hm (owns_weight hw)]
    show m.interIn G w.inter ↔ _
    rw [e2]
    exact key n0 q h1 h2 h3
end

theorem noLosses_tables_split (h : NoLosses m) : m.lossLhs = none ∧ m.dynRhs = none ∧ m.weights = none := by
  obtain ⟨r, u, d, m0, ops, h1, h2, h3, rfl⟩ := h
  have := (part_run (m := m0) (ops := ops) (p := .set .interpWeights) h3)
  simp only [SamePart] at this
  obtain ⟨a, b, c, h4, h5⟩ := this.loss rfl
  rw [a, b, c, (init_fresh h1).1]
  exact ⟨rfl, rfl, rfl⟩

/-- the loss rows -/
theorem loss_side (hm : Reached m) {fs : List LossFn} (hl : LossFunctions fs m) (c : Nat) :
    ∃ p : Prop, (∀ t ∈ m.lossLhs.getD [], t.cid = c → (m.varIn G t.vid ↔ p)) ∧
      ∀ d ∈ m.dynRhs.getD [], d.cid = c → (m.varIn G d.rhsVid ↔ p) := by
  rcases hl with ⟨_, h⟩ | ⟨bs, h⟩
  · obtain ⟨h1, h2, _⟩ := noLosses_tables_split h
    refine ⟨True, ?_, ?_⟩
    · rw [h1]; simp
    · rw [h2]; simp
  · obtain ⟨ds, n, nv, nc, n1, n2, nw, h⟩ := losses_set (by simp) h
    exact h.side hm c

/-- the rows of a set with named rows: their side -/
def rowIn (G : String → Prop) (side : String → Prop) (rows : List Row) (c : Nat) : Prop :=
  ∃ r ∈ rows, r.cid = c ∧ ((∃ s, r.set = some s ∧ side s) ∨ (r.set = none ∧ ∃ g, r.region = some g ∧ G g))

/-- Every constraint of the market is about one side. -/
theorem row_side (hm : Reached m) {fs : List LossFn} (hl : LossFunctions fs m) (ha : Unconnected m G) {k : CKey} {c : Nat} (hk : InTab m k c) :
    ∃ p : Prop, (∀ t ∈ m.ownTerms k, t.cid = c → (∃ o, (t.vid, o) ∈ m.owners) → (m.varIn G t.vid ↔ p)) ∧
      (∀ d ∈ m.dynRhs.getD [], d.cid = c → (m.varIn G d.rhsVid ↔ p)) ∧
      (∀ rows, m.mktRhs.get? k = some rows → ∀ r ∈ rows, r.cid = c → r.set = none → (p ↔ ∃ g, r.region = some g ∧ G g)) ∧
      (∀ cs, m.unitCon.get? k = some cs → ∀ e ∈ cs, e.cid = c → p → m.unitIn G e.unit) := by
  have hw := hm.wf
  have hmkt : k.isMarket = false → m.mktRhs.get? k = none := by
    intro h
    apply get?_none_of_keys
    intro e he h'
    have := hw.con.mktMkt e he
    rw [h', h] at this; cases this
  obtain ⟨own, ho⟩ := hw.con.own
  have hone := hm.one
  have hrefs := hm.refs
  have hdyn : k ≠ .interpWeights → ∀ d ∈ m.dynRhs.getD [], d.cid ≠ c := by
    intro hne d hd e
    have h1 : InTab m .interpWeights c := Or.inr (Or.inr (Or.inr (Or.inr (Or.inr (Or.inl ⟨rfl, Or.inr ⟨d, hd, e⟩⟩)))))
    exact hne ((ho k c hk).1.symm.trans (ho _ c h1).1)
  have hdef : ∀ t ∈ (m.deficits.get? k).elim [] (·.2), ¬ ∃ o, (t.vid, o) ∈ m.owners := by
    rintro t ht ⟨o, h1⟩
    cases hd : m.deficits.get? k with
    | none => rw [hd] at ht; simp at ht
    | some d =>
      rw [hd] at ht
      have he := Dict.mem_of_get? hd
      have := hrefs.own (k, d) he t ht
      exact def_not_owned hm h1 (List.mem_flatMap.2 ⟨(k, d), he, this⟩)
  have hunit : k.isUnit = false → m.unitCon.get? k = none := by
    intro h
    apply get?_none_of_keys
    intro e he h'
    have := hw.key.1 e he
    rw [h', h] at this; cases this
  have hreg : k.isMarket = false → m.regCon.get? k = none := by
    intro h
    apply get?_none_of_keys
    intro e he h'
    have := hw.key.2 e he
    rw [h', h] at this; cases this
  obtain ⟨side, s1, s2, s3, s4⟩ := ha.sets
  -- unit level sets
  by_cases hu : k.isUnit = true
  · have hne : k ≠ .interpWeights ∧ k ≠ .tieBreak ∧ k ≠ .generic ∧ k ≠ .fcas ∧ k.isMarket = false := by
      cases k <;> simp_all [CKey.isUnit, CKey.isMarket]
    refine ⟨∃ e ∈ (m.unitCon.get? k).getD [], e.cid = c ∧ m.unitIn G e.unit, ?_, fun d hd e => absurd e (hdyn hne.1 d hd), ?_, ?_⟩
    rotate_left
    · intro rows h; rw [hmkt hne.2.2.2.2] at h; cases h
    · rintro cs h e he e1 ⟨q, hq, e2, e3⟩
      rw [h, Option.getD_some] at hq
      rw [hone.unit _ (Dict.mem_of_get? h) e he q hq (e1.trans e2.symm)]
      exact e3
    intro t ht e hown
    unfold Market.ownTerms Market.genericRows at ht
    rw [if_neg hne.1, if_neg hne.2.1, if_neg hne.2.2.1, if_neg hne.2.2.2.1, hreg hne.2.2.2.2] at ht
    have hg : m.genericTermsFor (setIds []) = [] := genericTermsFor_nil m
    simp only [hg, List.nil_append, List.append_nil, List.mem_append, Option.getD_none, createLhsReg, List.flatMap_nil] at ht
    rcases ht with ht | ht
    · exact absurd hown (hdef t ht)
    · simp only [createLhsUnit, List.mem_flatMap, List.mem_map, List.mem_filter, decide_eq_true_eq] at ht
      obtain ⟨q, hq, v, ⟨hv, e1⟩, rfl⟩ := ht
      rw [varIn_iff hm (bidUnit_owner hw hv).1]
      show m.unitIn G v.unit ↔ _
      rw [e1.1]
      constructor
      · intro h; exact ⟨q, hq, e, h⟩
      · rintro ⟨q', hq', e', h⟩
        cases hc : m.unitCon.get? k with
        | none => rw [hc] at hq; simp at hq
        | some cs =>
          rw [hc, Option.getD_some] at hq hq'
          have := hone.unit _ (Dict.mem_of_get? hc) q hq q' hq' (by rw [e']; exact e)
          rw [this]; exact h
  -- sets of regional or named rows
  by_cases hmk : k.isMarket = true
  · have hne : k ≠ .interpWeights ∧ k ≠ .tieBreak ∧ k ≠ .generic := by
      cases k <;> simp_all [CKey.isUnit, CKey.isMarket]
    refine ⟨rowIn G side ((m.mktRhs.get? k).getD []) c, ?_, fun d hd e => absurd e (hdyn hne.1 d hd), ?_, ?_⟩
    rotate_left
    · intro rows h r hr e1 e2
      refine ⟨?_, fun h' => ⟨r, by rw [h]; exact hr, e1, Or.inr ⟨e2, h'⟩⟩⟩
      rintro ⟨r', hr', e1', h'⟩
      rw [h, Option.getD_some] at hr'
      have := mktRows_inj hw.con h hr hr' (e1.trans e1'.symm)
      subst this
      rcases h' with ⟨s, es, _⟩ | ⟨_, h'⟩
      · rw [e2] at es; cases es
      · exact h'
    · intro cs h; rw [hunit (by simpa using hu)] at h; cases h
    intro t ht e hown
    unfold Market.ownTerms at ht
    rw [if_neg hne.1, if_neg hne.2.1, hunit (by simpa using hu)] at ht
    simp only [List.nil_append, List.mem_append, Option.getD_none, createLhsUnit, List.flatMap_nil, List.not_mem_nil, or_false] at ht
    rcases ht with (ht | ht) | ht
    · exact absurd hown (hdef t ht)
    · obtain ⟨r, hr, e1, s, e2, e3⟩ := generic_side hm s1 s2 s3 ha ht
      unfold Market.genericRows at hr
      rw [if_neg hne.2.2] at hr
      split at hr
      · rename_i hf
        subst hf
        cases hc : m.mktRhs.get? .fcas with
        | none => rw [hc] at hr; simp at hr
        | some rows =>
          rw [hc, Option.getD_some] at hr
          rw [Option.getD_some, e3]
          constructor
          · intro h; exact ⟨r, hr, e1.trans e, Or.inl ⟨s, e2, h⟩⟩
          · rintro ⟨r', hr', e', h⟩
            have := mktRows_inj hw.con hc hr hr' (by rw [e1, e', e])
            subst this
            rcases h with ⟨s', es, h⟩ | ⟨es, _⟩
            · rw [e2] at es; injection es with es; rw [es]; exact h
            · rw [e2] at es; cases es
      · simp at hr
    · simp only [createLhsReg, List.mem_flatMap, List.mem_map, List.mem_filter, decide_eq_true_eq] at ht
      obtain ⟨q, hq, v, ⟨hv, e1⟩, rfl⟩ := ht
      rw [regVar_side hm hl ha hv, e1.1]
      cases hc : m.regCon.get? k with
      | none => rw [hc] at hq; simp at hq
      | some cs =>
        obtain ⟨rows, hrows, hr⟩ := hone.reg k cs hc
        have hq2 := hq
        rw [hc, Option.getD_some] at hq
        obtain ⟨r, hrm, e2, e3⟩ := hr q hq
        have e : q.cid = c := e
        rw [hrows, Option.getD_some]
        have hreq : ∀ s, r.set = some s → (G q.region ↔ side s) := by
          intro s hs
          exact s4 s q.region ⟨k, r, by rw [hrows]; exact hrm, q, hq2, hs, e2.symm, rfl⟩
        constructor
        · intro h
          refine ⟨r, hrm, e2.trans e, ?_⟩
          cases hs : r.set with
          | none => exact Or.inr ⟨rfl, _, e3 hs, h⟩
          | some s => exact Or.inl ⟨s, rfl, (hreq s hs).1 h⟩
        · rintro ⟨r', hr', e', h⟩
          have := mktRows_inj hw.con hrows hrm hr' (by rw [e2, e', e])
          subst this
          rcases h with ⟨s', es, h⟩ | ⟨es, g, eg, h⟩
          · exact (hreq s' es).2 h
          · rw [e3 es] at eg; injection eg with eg; rw [eg]; exact h
  have hnom : ∀ {p : Prop}, ∀ rows, m.mktRhs.get? k = some rows → ∀ r ∈ rows, r.cid = c → r.set = none → (p ↔ ∃ g, r.region = some g ∧ G g) := by
    intro p rows h; rw [hmkt (by simpa using hmk)] at h; cases h
  have hnou : ∀ {p : Prop}, ∀ cs, m.unitCon.get? k = some cs → ∀ e ∈ cs, e.cid = c → p → m.unitIn G e.unit := by
    intro p cs h; rw [hunit (by simpa using hu)] at h; cases h
  have hnof : k ≠ .fcas := by rintro rfl; exact hmk rfl
  -- generic constraints
  by_cases hge : k = .generic
  · subst hge
    refine ⟨rowIn G side ((m.conRhs.get? .generic).getD []) c, ?_, fun d hd e => absurd e (hdyn (by simp) d hd), hnom, hnou⟩
    intro t ht e hown
    unfold Market.ownTerms at ht
    rw [if_neg (by simp), if_neg (by simp), hunit (by simpa using hu), hreg (by simpa using hmk)] at ht
    simp only [List.nil_append, List.mem_append, Option.getD_none, createLhsUnit, createLhsReg, List.flatMap_nil, List.not_mem_nil, or_false] at ht
    rcases ht with ht | ht
    · exact absurd hown (hdef t ht)
    · obtain ⟨r, hr, e1, s, e2, e3⟩ := generic_side hm s1 s2 s3 ha ht
      unfold Market.genericRows at hr
      rw [if_pos rfl] at hr
      cases hc : m.conRhs.get? .generic with
      | none => rw [hc] at hr; simp at hr
      | some rows =>
        rw [hc, Option.getD_some] at hr
        rw [Option.getD_some, e3]
        constructor
        · intro h; exact ⟨r, hr, e1.trans e, Or.inl ⟨s, e2, h⟩⟩
        · rintro ⟨r', hr', e', h⟩
          have := conRows_inj hw.con hc hr hr' (by rw [e1, e', e])
          subst this
          rcases h with ⟨s', es, h⟩ | ⟨es, _⟩
          · rw [e2] at es; injection es with es; rw [es]; exact h
          · rw [e2] at es; cases es
  have hnogen : m.genericRows k = [] := by unfold Market.genericRows; rw [if_neg hge, if_neg hnof]
  have hg : m.genericTermsFor (setIds []) = [] := genericTermsFor_nil m
  have hrest : ∀ t ∈ m.ownTerms k, (∃ o, (t.vid, o) ∈ m.owners) →
      (k = .interpWeights ∧ t ∈ m.lossLhs.getD []) ∨ (k = .tieBreak ∧ t ∈ m.tieLhs.getD []) := by
    intro t ht hown
    unfold Market.ownTerms at ht
    rw [hnogen, hg, hunit (by simpa using hu), hreg (by simpa using hmk)] at ht
    simp only [List.append_nil, List.mem_append, Option.getD_none, createLhsUnit, createLhsReg, List.flatMap_nil] at ht
    rcases ht with (ht | ht) | ht
    · split at ht
      · rename_i h; exact Or.inl ⟨h, ht⟩
      · simp at ht
    · split at ht
      · rename_i h; exact Or.inr ⟨h, ht⟩
      · simp at ht
    · exact absurd hown (hdef t ht)
  by_cases hi : k = .interpWeights
  · obtain ⟨p, p1, p2⟩ := loss_side (G := G) hm hl c
    refine ⟨p, ?_, p2, hnom, hnou⟩
    intro t ht e hown
    rcases hrest t ht hown with ⟨_, h⟩ | ⟨h, _⟩
    · exact p1 t h e
    · rw [hi] at h; cases h
  · refine ⟨∃ t ∈ m.tieLhs.getD [], t.cid = c ∧ m.varIn G t.vid, ?_, fun d hd e => absurd e (hdyn hi d hd), hnom, hnou⟩
    intro t ht e hown
    rcases hrest t ht hown with ⟨h, _⟩ | ⟨_, h⟩
    · exact absurd h hi
    · constructor
      · intro hv; exact ⟨t, h, e, hv⟩
      · rintro ⟨t', h', e', o', ho', hv⟩
        obtain ⟨o, ho⟩ := hown
        obtain ⟨b, hb, eb⟩ := tie_bid hm h ho
        obtain ⟨b', hb', eb'⟩ := tie_bid hm h' ho'
        obtain ⟨u, hu1, u', hu2, e1, e2, e3⟩ := hone.tie t h t' h' (e.trans e'.symm) b hb b' hb' eb eb'
        rw [← eb, varIn_iff hm (owns_bid hb)]
        show m.unitIn G b.unit
        rw [← e1, unitIn_iff ha hu1, e3, ← unitIn_iff ha hu2, e2]
        have : (t'.vid, Owner.unit b'.unit) ∈ m.owners := by rw [← eb']; exact owns_bid hb'
        rw [owner_unique hm ho' this] at hv
        exact hv

end Verif
