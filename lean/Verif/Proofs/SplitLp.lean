import Verif.Proofs.SplitRows
import Verif.Proofs.Elastic
import Verif.Props.Comparative

/-! The program of a market in which nothing connects two groups of regions has two independent parts. -/

namespace Verif

variable {m m' : Market} {G : String → Prop}

/-- a row sees one side of a combination -/
theorem TwoParts.slack {lp lp' : Lp} {S P : Nat → Prop} (h : TwoParts lp lp' S P) {r : LRow} (hr : r ∈ lp'.rows) (y z : Nat → ℚ) :
    linVal (mixed S y z) r.coefs - r.rhs.eval (mixed S y z) =
      mixed P (fun _ => linVal y r.coefs - r.rhs.eval y) (fun _ => linVal z r.coefs - r.rhs.eval z) r.cid := by
  obtain ⟨s1, s2⟩ := h.side r hr
  by_cases hp : P r.cid
  · rw [mixed_in hp, linVal_congr (y := y) (fun c hc => mixed_in ((s1 c hc).2 hp))]
    cases hrhs : r.rhs with
    | const q => rfl
    | var v => simp only [Rhs.eval]; rw [mixed_in ((s2 v hrhs).2 hp)]
  · rw [mixed_out hp, linVal_congr (y := z) (fun c hc => mixed_out (fun hs => hp ((s1 c hc).1 hs)))]
    cases hrhs : r.rhs with
    | const q => rfl
    | var v => simp only [Rhs.eval]; rw [mixed_out (fun hs => hp ((s2 v hrhs).1 hs))]

theorem sideRows_split (P : Nat → Prop) [DecidablePred P] (f : LRow → ℚ) (rows : List LRow) :
    (rows.map f).sum = ((rows.filter (fun r => decide (P r.cid))).map f).sum + ((rows.filter (fun r => decide (¬ P r.cid))).map f).sum := by
  induction rows with
  | nil => simp
  | cons r rows ih =>
    by_cases hp : P r.cid
    · simp [hp, ih]; ring
    · simp [hp, ih]; ring

/-- Shadow prices of two independent parts can be combined. -/
theorem TwoParts.shadow {lp lp' : Lp} {S P : Nat → Prop} (h : TwoParts lp lp' S P) (h' : TwoParts lp' lp S P)
    (hn : (lp.rows.map LRow.cid).Nodup) (hn' : (lp'.rows.map LRow.cid).Nodup)
    (hc : ∀ x, sidePart S x lp'.obj = sidePart S x lp.obj) {x x' p p' : Nat → ℚ} (hx : ShadowPrices lp x p) (hx' : ShadowPrices lp' x' p') :
    ShadowPrices lp' (mixed S x x') (mixed P p p') where
  feasible := h.feasible hx.feasible hx'.feasible
  ge := by
    intro r hr e
    by_cases hp : P r.cid
    · rw [mixed_in hp]
      obtain ⟨q, hq, e1, _, e3, _⟩ := h.rows r hr
      rw [← e1]; exact hx.ge q hq (e3.trans e)
    · rw [mixed_out hp]; exact hx'.ge r hr e
  le := by
    intro r hr e
    by_cases hp : P r.cid
    · rw [mixed_in hp]
      obtain ⟨q, hq, e1, _, e3, _⟩ := h.rows r hr
      rw [← e1]; exact hx.le q hq (e3.trans e)
    · rw [mixed_out hp]; exact hx'.le r hr e
  bound := by
    classical
    intro y hy
    have c : ∀ (l : Lp) (z : Nat → ℚ), l.cost z = sidePart S z l.obj + sidePart (fun v => ¬ S v) z l.obj := by
      intro l z
      have := linVal_mixed S z z l.obj
      rw [mixed_self] at this
      exact this
    have cm : ∀ (l : Lp) (z w : Nat → ℚ), l.cost (mixed S z w) = sidePart S z l.obj + sidePart (fun v => ¬ S v) w l.obj :=
      fun l z w => linVal_mixed S z w l.obj
    have bounds : ∀ z w : Nat → ℚ, (∀ v ∈ lp'.vars, v.holds z) → (∀ v ∈ lp'.vars, v.holds w) → ∀ v ∈ lp'.vars, v.holds (mixed S z w) := by
      intro z w h1 h2 v hv
      have h1 := h1 v hv
      have h2 := h2 v hv
      unfold LVar.holds at *
      by_cases hs : S v.vid
      · rw [mixed_in hs]; exact h1
      · rw [mixed_out hs]; exact h2
    have b1 := hx.bound (mixed S y x) (by rw [← h.vars]; exact bounds y x hy (by rw [h.vars]; exact hx.feasible.vars))
    have b2 := hx'.bound (mixed S x' y) (bounds x' y hx'.feasible.vars hy)
    rw [sideRows_split P] at b1 b2 ⊢
    have in1 : ∀ (f g : LRow → ℚ) (rows : List LRow), (∀ r ∈ rows, P r.cid → f r = g r) →
        ((rows.filter (fun r => decide (P r.cid))).map f).sum = ((rows.filter (fun r => decide (P r.cid))).map g).sum := by
      intro f g rows h
      apply sum_map_congr
      intro r hr
      obtain ⟨h1, h2⟩ := List.mem_filter.1 hr
      exact h r h1 (by simpa using h2)
    have in2 : ∀ (f g : LRow → ℚ) (rows : List LRow), (∀ r ∈ rows, ¬ P r.cid → f r = g r) →
        ((rows.filter (fun r => decide (¬ P r.cid))).map f).sum = ((rows.filter (fun r => decide (¬ P r.cid))).map g).sum := by
      intro f g rows h
      apply sum_map_congr
      intro r hr
      obtain ⟨h1, h2⟩ := List.mem_filter.1 hr
      exact h r h1 (by simpa using h2)
    have e1 : ∀ r ∈ lp.rows, linVal (mixed S y x) r.coefs - r.rhs.eval (mixed S y x) = _ := fun r hr => h'.slack hr y x
    have e2 : ∀ r ∈ lp'.rows, linVal (mixed S x' y) r.coefs - r.rhs.eval (mixed S x' y) = _ := fun r hr => h.slack hr x' y
    rw [in1 _ (fun r => p r.cid * (linVal y r.coefs - r.rhs.eval y)) lp.rows (fun r hr hp => by rw [e1 r hr, mixed_in hp]),
      in2 _ (fun r => p r.cid * (linVal x r.coefs - r.rhs.eval x)) lp.rows (fun r hr hp => by rw [e1 r hr, mixed_out hp])] at b1
    rw [in1 _ (fun r => p' r.cid * (linVal x' r.coefs - r.rhs.eval x')) lp'.rows (fun r hr hp => by rw [e2 r hr, mixed_in hp]),
      in2 _ (fun r => p' r.cid * (linVal y r.coefs - r.rhs.eval y)) lp'.rows (fun r hr hp => by rw [e2 r hr, mixed_out hp])] at b2
    rw [in1 _ (fun r => p r.cid * (linVal y r.coefs - r.rhs.eval y)) lp'.rows (fun r hr hp => by rw [mixed_in hp]),
      in2 _ (fun r => p' r.cid * (linVal y r.coefs - r.rhs.eval y)) lp'.rows (fun r hr hp => by rw [mixed_out hp])]
    have n1 : 0 ≤ ((lp.rows.filter (fun r => decide (¬ P r.cid))).map (fun r => p r.cid * (linVal x r.coefs - r.rhs.eval x))).sum := by
      apply sum_map_nonneg
      intro r hr
      have hr := List.mem_of_mem_filter hr
      exact CType.pays (hx.ge r hr) (hx.le r hr) (hx.feasible.rows r hr)
    have n2 : 0 ≤ ((lp'.rows.filter (fun r => decide (P r.cid))).map (fun r => p' r.cid * (linVal x' r.coefs - r.rhs.eval x'))).sum := by
      apply sum_map_nonneg
      intro r hr
      have hr := List.mem_of_mem_filter hr
      exact CType.pays (hx'.ge r hr) (hx'.le r hr) (hx'.feasible.rows r hr)
    have sub : ∀ {l l' : Lp}, TwoParts l l' S P → ∀ r ∈ l'.rows, P r.cid → r ∈ l.rows := by
      intro l l' h r hr hp
      obtain ⟨q, hq, e1, e2, e3, e4⟩ := h.rows r hr
      replace e4 := e4 hp
      have e : q = r := by cases q; cases r; simp only at e1 e2 e3 e4; rw [e1, e2, e3, e4]
      rw [← e]; exact hq
    have perm : (lp.rows.filter (fun r => decide (P r.cid))).Perm (lp'.rows.filter (fun r => decide (P r.cid))) := by
      rw [List.perm_ext_iff_of_nodup (List.Nodup.filter _ (List.Nodup.of_map _ hn)) (List.Nodup.filter _ (List.Nodup.of_map _ hn'))]
      intro r
      simp only [List.mem_filter, decide_eq_true_eq]
      exact ⟨fun ⟨a, b⟩ => ⟨sub h' r a b, b⟩, fun ⟨a, b⟩ => ⟨sub h r a b, b⟩⟩
    rw [(perm.map _).sum_eq, cm, c lp x] at b1
    rw [cm, c lp' x'] at b2
    rw [cm, c lp' y, hc x, hc y]
    linarith

/-- a term of a violation variable is the term of the row it relaxes -/
theorem def_term (hm : Reached m) {e : CKey × List DefVar × List Term} (he : e ∈ m.deficits) {t : Term} (ht : t ∈ m.terms)
    (hv : t.vid ∈ e.2.1.map DefVar.vid) : t ∈ e.2.2 := by
  obtain ⟨k, d⟩ := e
  have hg : m.deficits.get? k = some d := Dict.get?_of_mem hm.wf.con.defKeys he
  by_contra hn
  refine inelastic_local hm.wf hm.refs k (t := t) ?_ (by unfold Market.deficitVids; rw [hg]; exact hv)
  simp only [Market.terms, List.mem_append] at ht ⊢
  rcases ht with ((ht | ht) | ht) | ht
  · left; left; left
    simp only [Market.fixedTerms, List.mem_append, List.mem_flatMap] at ht ⊢
    rcases ht with (ht | ht) | ⟨e', he', ht⟩
    · exact Or.inl (Or.inl ht)
    · exact Or.inl (Or.inr ht)
    · right
      have hne : e' ≠ (k, d) := by rintro rfl; exact hn ht
      have hp := (Dict.perm_erase hm.wf.con.defKeys hg).mem_iff.1 he'
      rcases List.mem_cons.1 hp with h | h
      · exact absurd h hne
      · exact ⟨e', h, ht⟩
  · exact Or.inl (Or.inl (Or.inr ht))
  · exact Or.inl (Or.inr ht)
  · exact Or.inr ht

theorem key_unique (hm : Reached m) {k k' : CKey} {c : Nat} (h : InTab m k c) (h' : InTab m k' c) : k = k' := by
  obtain ⟨own, ho⟩ := hm.wf.con.own
  exact (ho _ _ h).1.symm.trans (ho _ _ h').1

/-- the row `c` is about the regions of `G`: it has a variable there or it is the demand row of a region there -/
def Market.conIn (m : Market) (G : String → Prop) (c : Nat) : Prop :=
  (∃ t ∈ m.terms, t.cid = c ∧ m.varIn G t.vid) ∨ (∃ d ∈ m.dynRhs.getD [], d.cid = c ∧ m.varIn G d.rhsVid) ∨
  ∃ rows, m.mktRhs.get? .demand = some rows ∧ ∃ r ∈ rows, r.cid = c ∧ r.set = none ∧ ∃ g, r.region = some g ∧ G g

/-- the variable `v` is about the regions of `G`: of a unit or interconnector there, or the violation of a row there -/
def Market.sideIn (m : Market) (G : String → Prop) (v : Nat) : Prop :=
  m.varIn G v ∨ ∃ e ∈ m.deficits, ∃ t ∈ e.2.2, t.vid = v ∧ m.conIn G t.cid

theorem sideIn_owned (hm : Reached m) {v : Nat} {o : Owner} (ho : (v, o) ∈ m.owners) : m.sideIn G v ↔ m.varIn G v := by
  refine ⟨fun h => ?_, Or.inl⟩
  rcases h with h | ⟨e, he, t, ht, rfl, _⟩
  · exact h
  · exact absurd (List.mem_flatMap.2 ⟨e, he, hm.refs.own e he t ht⟩) (def_not_owned hm ho)

/-- every row of the program is about one side -/
theorem lp_side (hm : Reached m) {fs : List LossFn} (hl : LossFunctions fs m) (ha : Unconnected m G) {lp : Lp} (h : m.assemble = .ok lp) :
    ∀ r ∈ lp.rows, (∀ c ∈ r.coefs, (m.sideIn G c.1 ↔ m.conIn G r.cid)) ∧ ∀ v, r.rhs = .var v → (m.sideIn G v ↔ m.conIn G r.cid) := by
  intro r hr
  obtain ⟨_, _, _, _, _, hcase⟩ := assemble_parts h
  rcases hcase with ⟨e, _⟩ | ⟨hvars, hs⟩
  · rw [e] at hr; cases hr
  obtain ⟨_, h2, h3⟩ := (solverRows_mem hs).2 r hr
  have hall := lookupLast_mem h3
  obtain ⟨k, hk⟩ := rowOf_of_allRows hm.wf.con hall
  have hk := inTab_of_rowOf hk
  obtain ⟨p, hp1, hp2, hp3, _⟩ := row_side hm hl ha hk
  have hterm : ∀ t ∈ m.terms, t.cid = r.cid → ∀ o, (t.vid, o) ∈ m.owners → (m.varIn G t.vid ↔ p) := by
    intro t ht e o ho
    have : t ∈ m.terms.filter (fun t => decide (t.cid = r.cid)) := List.mem_filter.2 ⟨ht, by simpa using e⟩
    rw [terms_filter_own hm.wf.con hk] at this
    exact hp1 t (List.mem_of_mem_filter this) e ⟨o, ho⟩
  have hcon : m.conIn G r.cid → p := by
    rintro (⟨t, ht, e, hv⟩ | ⟨d, hd, e, hv⟩ | ⟨rows, h1, q, hq, e, e2, hg⟩)
    · obtain ⟨o, ho, hv'⟩ := hv
      exact (hterm t ht e o ho).1 ⟨o, ho, hv'⟩
    · exact (hp2 d hd e).1 hv
    · have : k = .demand := key_unique hm hk (inTab_of_rowOf (Or.inr (Or.inl ⟨rows, h1, q, hq, e⟩)))
      subst this
      exact (hp3 rows h1 q hq e e2).2 hg
  have hown : ∀ t ∈ m.terms, t.cid = r.cid → (m.sideIn G t.vid ↔ m.conIn G r.cid) := by
    intro t ht e
    have hmem := hvars t ht
    rw [allVars_owners, List.mem_append] at hmem
    rcases hmem with hmem | hmem
    · obtain ⟨⟨v, o⟩, ho, e'⟩ := List.mem_map.1 hmem
      subst e'
      rw [sideIn_owned hm ho]
      exact ⟨fun hv => Or.inl ⟨t, ht, e, hv⟩, fun hc => (hterm t ht e o ho).2 (hcon hc)⟩
    · obtain ⟨e', he, hv⟩ := List.mem_flatMap.1 hmem
      have htd := def_term hm he ht hv
      constructor
      · rintro (⟨o, ho, _⟩ | ⟨e'', he'', t', ht', ev, hc⟩)
        · exact absurd hmem (def_not_owned hm ho)
        · have hv' := hm.refs.own e'' he'' t' ht'
          have := def_unique hm he'' he (by rw [← ev] at hv; exact hv') (by rw [ev]; exact hv)
          subst this
          rw [← e, ← hm.one.defs e'' he t' ht' t htd ev]
          exact hc
      · intro hc
        exact Or.inr ⟨e', he, t, htd, rfl, by rw [e]; exact hc⟩
  constructor
  · intro c hc
    rw [h2] at hc
    simp only [groupCoefs, List.mem_map, List.mem_dedup, List.mem_filter, decide_eq_true_eq] at hc
    obtain ⟨v, ⟨t, ⟨ht, e⟩, rfl⟩, rfl⟩ := hc
    exact hown t ht e
  · intro v hv
    rw [hv] at hall
    simp only [Market.allRows, List.mem_append, List.mem_map] at hall
    rcases hall with (⟨q, _, e⟩ | ⟨q, _, e⟩) | ⟨d, hd, e⟩
    · injection e with _ e; injection e with _ e; cases e
    · injection e with _ e; injection e with _ e; cases e
    injection e with e1 e; injection e with _ e; injection e with e2
    subst e2
    constructor
    · rintro (hv | ⟨e', he, t, ht, ev, _⟩)
      · exact Or.inr (Or.inl ⟨d, hd, e1, hv⟩)
      · have h1 : t.vid ∈ m.defVids := List.mem_flatMap.2 ⟨e', he, hm.refs.own e' he t ht⟩
        have h2 : d.rhsVid ∈ m.refs := by
          simp only [Market.refs, List.mem_append]
          exact Or.inr (List.mem_map_of_mem hd)
        rw [ev] at h1
        exact absurd h1 (hm.refs.refs _ h2).2
    · intro hc
      exact Or.inl ((hp2 d hd e1).2 (hcon hc))

/-- the demand row of a region is about the region, a row of a unit level set about the unit -/
theorem conIn_names (hm : Reached m) {fs : List LossFn} (hl : LossFunctions fs m) (ha : Unconnected m G) {k : CKey} {c : Nat} (hk : InTab m k c)
    (hc : m.conIn G c) :
    (∀ rows, m.mktRhs.get? k = some rows → ∀ r ∈ rows, r.cid = c → r.set = none → ∃ g, r.region = some g ∧ G g) ∧
    ∀ cs, m.unitCon.get? k = some cs → ∀ e ∈ cs, e.cid = c → m.unitIn G e.unit := by
  obtain ⟨p, hp1, hp2, hp3, hp4⟩ := row_side hm hl ha hk
  have hp : p := by
    rcases hc with ⟨t, ht, e, o, ho, hv⟩ | ⟨d, hd, e, hv⟩ | ⟨rows, h1, q, hq, e, e2, hg⟩
    · have : t ∈ m.terms.filter (fun t => decide (t.cid = c)) := List.mem_filter.2 ⟨ht, by simpa using e⟩
      rw [terms_filter_own hm.wf.con hk] at this
      exact (hp1 t (List.mem_of_mem_filter this) e ⟨o, ho⟩).1 ⟨o, ho, hv⟩
    · exact (hp2 d hd e).1 hv
    · have : k = .demand := key_unique hm hk (inTab_of_rowOf (Or.inr (Or.inl ⟨rows, h1, q, hq, e⟩)))
      subst this
      exact (hp3 rows h1 q hq e e2).2 hg
  exact ⟨fun rows h1 r h2 h3 h4 => (hp3 rows h1 r h2 h3 h4).1 hp, fun cs h1 e h2 h3 => hp4 cs h1 e h2 h3 hp⟩

theorem groupBy_same {α κ : Type} [DecidableEq κ] {key : α → κ} {l g : List α} (hg : g ∈ groupBy key l) {a b : α} (ha : a ∈ g) (hb : b ∈ g) :
    a ∈ l ∧ b ∈ l ∧ key a = key b := by
  obtain ⟨k, _, rfl⟩ := List.mem_map.1 hg
  simp only [List.mem_filter, decide_eq_true_eq] at ha hb
  exact ⟨ha.1, hb.1, ha.2.trans hb.2.symm⟩

theorem sos_side (hm : Reached m) {lp : Lp} (h : m.assemble = .ok lp) :
    (∀ g ∈ lp.sos2, ∀ a ∈ g, ∀ b ∈ g, (m.sideIn G a.1 ↔ m.sideIn G b.1)) ∧ ∀ g ∈ lp.sos1, ∀ a ∈ g, ∀ b ∈ g, (m.sideIn G a ↔ m.sideIn G b) := by
  obtain ⟨_, _, h2, h1, _, _⟩ := assemble_parts h
  rw [h2, h1]
  constructor
  · intro g hg a ha b hb
    simp only [Market.sos2Groups, List.mem_map] at hg
    obtain ⟨l, hl, rfl⟩ := hg
    obtain ⟨w, hw, rfl⟩ := List.mem_map.1 ha
    obtain ⟨w', hw', rfl⟩ := List.mem_map.1 hb
    obtain ⟨i1, i2, e⟩ := groupBy_same hl hw hw'
    injection e with e _
    have o1 := owns_weight i1
    have o2 := owns_weight i2
    rw [sideIn_owned hm o1, sideIn_owned hm o2, varIn_iff hm o1, varIn_iff hm o2, e]
  · intro g hg a ha b hb
    simp only [Market.sos1Groups, List.mem_map] at hg
    obtain ⟨l, hl, rfl⟩ := hg
    obtain ⟨w, hw, rfl⟩ := List.mem_map.1 ha
    obtain ⟨w', hw', rfl⟩ := List.mem_map.1 hb
    obtain ⟨i1, i2, e⟩ := groupBy_same hl hw hw'
    have o1 := owns_inter (List.mem_of_mem_filter i1)
    have o2 := owns_inter (List.mem_of_mem_filter i2)
    rw [sideIn_owned hm o1, sideIn_owned hm o2, varIn_iff hm o1, varIn_iff hm o2, e]

theorem lp_row_all {lp : Lp} (h : m.assemble = .ok lp) {r : LRow} (hr : r ∈ lp.rows) : (r.cid, r.ctype, r.rhs) ∈ m.allRows := by
  obtain ⟨_, _, _, _, _, hcase⟩ := assemble_parts h
  rcases hcase with ⟨e, _⟩ | ⟨_, hs⟩
  · rw [e] at hr; cases hr
  · exact lookupLast_mem ((solverRows_mem hs).2 r hr).2.2

theorem lp_row_unique (hw : ConWF m) {lp : Lp} (h : m.assemble = .ok lp) {r q : LRow} (hr : r ∈ lp.rows) (hq : q ∈ lp.rows) (e : r.cid = q.cid) :
    r.rhs = q.rhs := by
  have h1 := lp_row_all h hr
  have h2 := lp_row_all h hq
  rw [e] at h1
  exact (unique_row hw h1 h2).2

/-- The programs of two markets that differ in right hand sides of one set of constraints, not of rows about `G`. -/
theorem twoParts (hm : Reached m) (hm' : Reached m') {fs : List LossFn} (hl : LossFunctions fs m) (ha : Unconnected m G) {lp lp' : Lp}
    (h : m.assemble = .ok lp) (h' : m'.assemble = .ok lp') {k : CKey} (hk : k ≠ .interpWeights) (hA : Alike k m m')
    (hr : ∀ r ∈ lp.rows, ∀ r' ∈ lp'.rows, r.cid = r'.cid → m.rowOf k r.cid → m.conIn G r.cid → r.rhs = r'.rhs) :
    TwoParts lp lp' (m.sideIn G) (m.conIn G) ∧ TwoParts lp' lp (m.sideIn G) (m.conIn G) := by
  obtain ⟨v1, v2, v3, v4⟩ := hA.lp hm.wf.con hm'.wf.con h h'
  have w4 := (hA.symm.lp hm'.wf.con hm.wf.con h' h).2.2.2
  have hs := lp_side hm hl ha h
  have e1 : ∀ r ∈ lp'.rows, ∃ q ∈ lp.rows, q.cid = r.cid ∧ q.coefs = r.coefs ∧ q.ctype = r.ctype ∧
      (¬ m.rowOf k q.cid → q.rhs = r.rhs) ∧ (m.conIn G r.cid → q.rhs = r.rhs) := by
    intro r' hr'
    obtain ⟨r, hrm, c1, c2, c3, _⟩ := w4 r' hr'
    obtain ⟨r'', hr'', d1, _, _, d4⟩ := v4 r hrm
    have hn : ¬ m.rowOf k r.cid → r.rhs = r'.rhs := by
      intro hn
      have := d4 hn
      subst this
      exact lp_row_unique hm'.wf.con h' hr'' hr' (d1.trans c1)
    refine ⟨r, hrm, c1, c2, c3, hn, fun hc => ?_⟩
    by_cases hk : m.rowOf k r.cid
    · exact hr r hrm r' hr' c1 hk (by rw [c1]; exact hc)
    · exact hn hk
  have main : TwoParts lp lp' (m.sideIn G) (m.conIn G) := by
    refine ⟨v1, v2, v3, ?_, ?_, (sos_side hm h).1, (sos_side hm h).2⟩
    · intro r hr
      obtain ⟨q, hq, a, b, c, _, d⟩ := e1 r hr
      exact ⟨q, hq, a, b, c, d⟩
    · intro r hr
      obtain ⟨q, hq, a, b, c, e, d⟩ := e1 r hr
      rw [← a, ← b]
      refine ⟨(hs q hq).1, ?_⟩
      intro v hv
      have hall := lp_row_all h' hr
      rw [hv] at hall
      have hd : ∃ d ∈ m.dynRhs.getD [], d.cid = r.cid := by
        rw [← hA.dynRhs]
        simp only [Market.allRows, List.mem_append, List.mem_map] at hall
        rcases hall with (⟨q, _, e⟩ | ⟨q, _, e⟩) | ⟨d, hd, e⟩
        · injection e with _ e; injection e with _ e; cases e
        · injection e with _ e; injection e with _ e; cases e
        · injection e with e _; exact ⟨d, hd, e⟩
      obtain ⟨own, ho⟩ := hm.wf.con.own
      have hi : m.rowOf .interpWeights q.cid := by rw [a]; exact Or.inr (Or.inr ⟨rfl, hd⟩)
      have hn : ¬ m.rowOf k q.cid := by
        intro hk'
        exact hk ((ho _ _ (inTab_of_rowOf hk')).1.symm.trans (ho _ _ (inTab_of_rowOf hi)).1)
      exact (hs q hq).2 v (by rw [e hn]; exact hv)
  refine ⟨main, main.swap ?_ hs⟩
  intro r hrm
  obtain ⟨r', hr', c1, c2, c3, d4⟩ := v4 r hrm
  refine ⟨r', hr', c1, c2, c3, fun hc => ?_⟩
  by_cases hk : m.rowOf k r.cid
  · exact (hr r hrm r' hr' c1.symm hk hc).symm
  · rw [d4 hk]

end Verif
