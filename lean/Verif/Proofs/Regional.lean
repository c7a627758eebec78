import Verif.Proofs.Setters
import Verif.Proofs.Exact
import Verif.Spec.Regional

/-! Values of regional and generic constraints. -/

namespace Verif

/-! ### sums over numbered rows -/

theorem sum_saveIndex {α β : Type} (rows : List α) (n : Nat) (f : Nat → α → β) (g : β → ℚ) (h : α → ℚ)
    (e : ∀ i a, rows[i]? = some a → g (f (n + i) a) = h a) : ((saveIndex rows n f).map g).sum = (rows.map h).sum := by
  induction rows generalizing n with
  | nil => rfl
  | cons a rows ih =>
    rw [saveIndex, List.map_cons, List.sum_cons, List.map_cons, List.sum_cons]
    rw [show g (f n a) = h a from e 0 a (by simp), ih (n := n + 1)]
    intro i b hb
    have := e (i + 1) b (by simpa using hb)
    rwa [show n + (i + 1) = n + 1 + i by omega] at this

theorem getElem?_saveIndex {α β : Type} (rows : List α) (n : Nat) (f : Nat → α → β) (i : Nat) :
    (saveIndex rows n f)[i]? = (rows[i]?).map (f (n + i)) := by
  induction rows generalizing n i with
  | nil => simp [saveIndex]
  | cons a rows ih =>
    cases i with
    | zero => simp [saveIndex]
    | succ i =>
      simp only [saveIndex, List.getElem?_cons_succ]
      rw [ih (n := n + 1)]
      rw [show n + 1 + i = n + (i + 1) by omega]

/-! ### regional maps -/

/-- value of all variables mapped to a region and service -/
def regSum (vs : List VarReg) (x : Nat → ℚ) (r : String) (s : Service) : ℚ :=
  ((vs.filter (fun v => decide (v.region = r ∧ v.service = s))).map (fun v => v.coef * x v.vid)).sum

theorem regSum_append (a b : List VarReg) (x : Nat → ℚ) (r : String) (s : Service) :
    regSum (a ++ b) x r s = regSum a x r s + regSum b x r s := by
  simp [regSum]

theorem regSum_bids (vars : List BidVar) (units : List UnitInfo) (x : Nat → ℚ) (r : String) (s : Service) :
    regSum (bidRegMap vars units) x r s =
    ((units.filter (fun u => decide (u.region = r))).map (fun u => (if u.dtype = .load ∧ s = .energy then -1 else 1) *
      ((vars.filter (fun b => decide (b.unit = u.unit ∧ b.service = s ∧ b.dtype = u.dtype))).map (fun b => x b.vid)).sum)).sum := by
  have h1 : regSum (bidRegMap vars units) x r s = (vars.map (fun v => (units.map (fun u =>
      if u.region = r ∧ v.unit = u.unit ∧ v.service = s ∧ v.dtype = u.dtype then
        (if u.dtype = .load ∧ s = .energy then -1 else 1) * x v.vid else 0)).sum)).sum := by
    rw [regSum, bidRegMap, filter_flatMap', sum_map_flatMap]
    apply sum_map_congr
    intro v _
    rw [sum_filter_eq_ite, List.map_map, sum_filter_eq_ite]
    apply sum_map_congr
    intro u _
    simp only [Function.comp, decide_eq_true_eq]
    by_cases c1 : u.unit = v.unit ∧ u.dtype = v.dtype
    · obtain ⟨c1, c2⟩ := c1
      by_cases c3 : u.region = r ∧ v.service = s
      · obtain ⟨c3, c4⟩ := c3
        subst c3; subst c4
        simp [c1, c2]
      · rw [if_pos ⟨c1, c2⟩, if_neg c3, if_neg]
        rintro ⟨h1, _, h2, _⟩; exact c3 ⟨h1, h2⟩
    · rw [if_neg c1, if_neg]
      rintro ⟨_, h1, _, h2⟩; exact c1 ⟨h1.symm, h2.symm⟩
  rw [h1, sum_comm, sum_filter_eq_ite]
  apply sum_map_congr
  intro u _
  by_cases c : u.region = r
  · simp only [c, true_and, decide_true, if_true]
    rw [← sum_map_mul_left, sum_filter_eq_ite]
    apply sum_map_congr
    intro v _
    simp only [decide_eq_true_eq]
  · simp only [c, false_and, if_false, decide_false, Bool.false_eq_true]
    apply sum_map_zero; intros; rfl

theorem supply_eq {m : Market} (hw : WF m) (x : Nat → ℚ) (r : String) (s : Service) :
    regSum (m.bidReg.getD []) x r s = m.supply x r s := by
  unfold Market.supply Market.dispatched
  rcases hw.bid with ⟨a, b, c⟩ | ⟨b, n, _, _, e1, _, e3⟩
  · rw [a, c]
    simp [regSum]
  · rw [e1, e3]
    simp only [Option.getD_some]
    exact regSum_bids _ _ _ _ _

theorem interKeys {m : Market} {ds : List InterDef} (h : m.interDefsOk ds = true) :
    (ds.map (fun d => (d.inter, d.link))).Nodup := by
  simp only [Market.interDefsOk, Bool.and_eq_true, decide_eq_true_eq] at h
  exact h.2

/-- the flow of a link is the value of its variable -/
theorem flow_at {ds : List InterDef} {n : Nat} (hd : (ds.map (fun d => (d.inter, d.link))).Nodup) {i : Nat} {d : InterDef}
    (h : ds[i]? = some d) :
    (interVariables ds n).filter (fun v => decide (v.inter = d.inter ∧ v.link = d.link)) =
      [⟨d.inter, d.link, n + i, d.min, d.max, d.gcf⟩] := by
  have hk : ((interVariables ds n).map (fun v => (v.inter, v.link))).Nodup := by
    simp only [interVariables, map_saveIndex, saveIndex_vals]; exact hd
  have hm : (⟨d.inter, d.link, n + i, d.min, d.max, d.gcf⟩ : InterVar) ∈ interVariables ds n :=
    mem_saveIndex.2 ⟨i, d, h, rfl⟩
  rw [← filter_key_unique hk hm]
  apply List.filter_congr
  intro v _
  simp [Prod.ext_iff]

theorem imports_eq {m : Market} (hw : WF m) (x : Nat → ℚ) (r : String) :
    regSum ((m.interReg.getD []).map InterMap.toReg) x r .energy = m.netImport x r := by
  unfold Market.netImport Market.flow
  rcases hw.inter with ⟨a, b, c⟩ | ⟨ds, n, e1, e2, e3, hok⟩
  · rw [a, c]; simp [regSum]
  · rw [e1, e2, e3]
    simp only [Option.getD_some]
    rw [interMap, List.map_append, regSum_append, sum_map_sub, sub_eq_add_neg]
    congr 1
    · rw [regSum, sum_filter_eq_ite, map_saveIndex]
      apply sum_saveIndex
      intro i d hd
      rw [flow_at (interKeys hok) hd]
      simp [InterMap.toReg]
    · rw [regSum, sum_filter_eq_ite, map_saveIndex, ← neg_one_mul (List.sum (List.map (fun d : InterDef => _) ds))]
      rw [← sum_map_mul_left (c := (-1 : ℚ))]
      apply sum_saveIndex
      intro i d hd
      rw [flow_at (interKeys hok) hd]
      simp only [InterMap.toReg, and_true, decide_eq_true_eq, List.map_cons, List.map_nil, List.sum_cons, List.sum_nil, add_zero]
      by_cases c : d.fromR = r
      · rw [if_pos c, if_pos c]; ring
      · rw [if_neg c, if_neg c]; ring

theorem imports_fcas {m : Market} (x : Nat → ℚ) (r : String) {s : Service} (hs : s ≠ .energy) :
    regSum ((m.interReg.getD []).map InterMap.toReg) x r s = 0 := by
  rw [regSum, List.filter_eq_nil_iff.2, List.map_nil, List.sum_nil]
  intro v hv
  obtain ⟨i, _, rfl⟩ := List.mem_map.1 hv
  intro h
  have h := (of_decide_eq_true h).2
  exact hs h.symm

/-! ### the value of a regional constraint -/

/-- value of the regional map rows of a constraint -/
def Market.regLhs (m : Market) (x : Nat → ℚ) (cs : List ConReg) (c : Nat) : ℚ :=
  ((cs.filter (fun k => decide (k.cid = c))).map (fun k => k.coef * regSum m.regVars x k.region k.service)).sum

theorem rowVal_createLhsReg (cs : List ConReg) (vs : List VarReg) (x : Nat → ℚ) (c : Nat) :
    rowVal (createLhsReg cs vs) x c =
      ((cs.filter (fun k => decide (k.cid = c))).map (fun k => k.coef * regSum vs x k.region k.service)).sum := by
  rw [createLhsReg, rowVal_flatMap, sum_filter_eq_ite]
  apply sum_map_congr
  intro k _
  by_cases hk : k.cid = c
  · simp only [hk, decide_true, if_true]
    rw [rowVal, List.filter_eq_self.2, List.map_map, regSum, ← sum_map_mul_left]
    · apply sum_map_congr; intro v _; simp only [Function.comp]; ring
    · intro t ht; obtain ⟨v, _, rfl⟩ := List.mem_map.1 ht; simp
  · rw [if_neg (by simpa using hk)]
    apply rowVal_zero
    intro t ht; obtain ⟨v, _, rfl⟩ := List.mem_map.1 ht; exact hk

/-- A market constraint set that is present and not elastic. -/
structure ImposedReg (m : Market) (k : CKey) (t : List Row × List ConReg) : Prop where
  wf : WF m
  mkt : k.isMarket = true
  rhs : m.mktRhs.get? k = some t.1
  map : m.regCon.get? k = some t.2
  nodup : (t.1.map Row.cid).Nodup
  noDef : ∀ r ∈ t.1, ∀ d, m.deficits.get? k = some d → ∀ s ∈ d.2, s.cid ≠ r.cid

theorem imposedReg_of {a m : Market} {k : CKey} {t : List Row × List ConReg} (ha : ConWF a) (hm : WF m)
    (hk : k.isMarket = true) (ht : FreshReg a.nextCon t) (hs : SameSet k (a.addRegSet k t).1 m) : ImposedReg m k t := by
  have hu : (a.addRegSet k t).1.mktRhs.get? k = some t.1 ∧ (a.addRegSet k t).1.regCon.get? k = some t.2 ∧
      (a.addRegSet k t).1.deficits = a.deficits := by
    unfold Market.addRegSet; dsimp only; split <;> simp [Dict.get?_set_self]
  refine ⟨hm, hk, by rw [hs.mktRhs, hu.1], by rw [hs.regCon, hu.2.1], ht.nodup, ?_⟩
  intro r hr d hd s hs'
  rw [hs.deficits, hu.2.2] at hd
  obtain ⟨own, ho⟩ := ha.own
  have h1 := (ho k s.cid (Or.inr (Or.inr (Or.inr (Or.inr (Or.inl ⟨d, Dict.mem_of_get? hd, s, hs', rfl⟩)))))).2
  have h2 := ht.ge r hr
  omega

theorem ImposedReg.ownTerms {m : Market} {k : CKey} {t : List Row × List ConReg} (h : ImposedReg m k t) :
    m.ownTerms k = ((m.deficits.get? k).elim [] (·.2)) ++ m.genericTermsFor (setIds (if k = .fcas then t.1 else [])) ++
      createLhsReg t.2 m.regVars := by
  have hk := h.mkt
  have h5 : m.unitCon.get? k = none := by
    apply get?_none_of_keys
    rintro e he rfl
    have := h.wf.key.1 e he
    have h' := isUnit_not_market this
    rw [hk] at h'; cases h'
  have h1 : k ≠ .interpWeights := by rintro rfl; simp [CKey.isMarket] at hk
  have h2 : k ≠ .tieBreak := by rintro rfl; simp [CKey.isMarket] at hk
  have h3 : k ≠ .generic := by rintro rfl; simp [CKey.isMarket] at hk
  unfold Market.ownTerms Market.genericRows
  rw [if_neg h1, if_neg h2, if_neg h3, h5, h.map]
  by_cases h4 : k = .fcas
  · subst h4
    rw [if_pos rfl, if_pos rfl, h.rhs]
    simp [createLhsUnit]
  · rw [if_neg h4, if_neg h4]
    simp [createLhsUnit]

theorem ImposedReg.inTab {m : Market} {k : CKey} {t : List Row × List ConReg} (h : ImposedReg m k t) {r : Row} (hr : r ∈ t.1) :
    InTab m k r.cid :=
  Or.inr (Or.inr (Or.inr (Or.inl ⟨t.1, Dict.mem_of_get? h.rhs, r, hr, rfl⟩)))

theorem ImposedReg.rowVal {m : Market} {k : CKey} {t : List Row × List ConReg} (h : ImposedReg m k t) {r : Row} (hr : r ∈ t.1)
    (x : Nat → ℚ) : rowVal m.terms x r.cid =
      rowVal (m.genericTermsFor (setIds (if k = .fcas then t.1 else []))) x r.cid + m.regLhs x t.2 r.cid := by
  rw [rowVal_own h.wf.con (h.inTab hr), h.ownTerms, rowVal_append, rowVal_append, rowVal_createLhsReg]
  have : Verif.rowVal ((m.deficits.get? k).elim [] (·.2)) x r.cid = 0 := by
    apply rowVal_zero
    cases hd : m.deficits.get? k with
    | none => simp
    | some d => exact h.noDef r hr d hd
  rw [this, zero_add, Market.regLhs]

theorem ImposedReg.term_iff {m : Market} {k : CKey} {t : List Row × List ConReg} (h : ImposedReg m k t) {r : Row} (hr : r ∈ t.1) :
    (∃ q ∈ m.terms, q.cid = r.cid) ↔ (∃ q ∈ m.genericTermsFor (setIds (if k = .fcas then t.1 else [])), q.cid = r.cid) ∨
      ∃ c ∈ t.2, c.cid = r.cid ∧ ∃ v ∈ m.regVars, v.region = c.region ∧ v.service = c.service := by
  rw [mem_terms_own h.wf.con (h.inTab hr), h.ownTerms]
  constructor
  · rintro ⟨q, hq, e⟩
    rcases List.mem_append.1 hq with hq | hq
    · rcases List.mem_append.1 hq with hq | hq
      · exfalso
        cases hd : m.deficits.get? k with
        | none => rw [hd] at hq; simp at hq
        | some d => rw [hd] at hq; exact h.noDef r hr d hd q hq e
      · exact Or.inl ⟨q, hq, e⟩
    · right
      simp only [createLhsReg, List.mem_flatMap, List.mem_map, List.mem_filter, decide_eq_true_eq] at hq
      obtain ⟨c, hc, v, ⟨hv, hv'⟩, rfl⟩ := hq
      exact ⟨c, hc, e, v, hv, hv'⟩
  · rintro (⟨q, hq, e⟩ | ⟨c, hc, e, v, hv, hv'⟩)
    · exact ⟨q, List.mem_append.2 (Or.inl (List.mem_append.2 (Or.inr hq))), e⟩
    · refine ⟨⟨c.cid, v.vid, c.coef * v.coef⟩, List.mem_append.2 (Or.inr ?_), e⟩
      simp only [createLhsReg, List.mem_flatMap, List.mem_map, List.mem_filter, decide_eq_true_eq]
      exact ⟨c, hc, v, ⟨hv, hv'⟩, rfl⟩

/-! ### generic links -/

theorem genericUnit_val {m : Market} (hw : WF m) (x : Nat → ℚ) (u : String) (s : Service) :
    (((m.bidUnit.getD []).filter (fun v => decide (v.unit = u ∧ v.service = s))).map (fun v => v.coef * x v.vid)).sum =
      m.unitTotal x u s := by
  unfold Market.unitTotal Market.dispatched
  rcases hw.bid with ⟨a, b, _⟩ | ⟨bs, n, _, _, e1, e2, _⟩
  · rw [a, b]; simp
  · rw [e1, e2]
    simp only [Option.getD_some]
    generalize bidVariables bs n = vars
    have h1 : (((bidUnitMap vars m.units m.bidi).filter (fun v => decide (v.unit = u ∧ v.service = s))).map
        (fun v => v.coef * x v.vid)).sum = (vars.map (fun v => (m.units.map (fun i =>
        if i.unit = u ∧ v.unit = u ∧ v.service = s ∧ v.dtype = i.dtype then
          (if u ∈ m.bidi ∧ s = .energy ∧ i.dtype = .load then -1 else 1) * x v.vid else 0)).sum)).sum := by
      rw [bidUnitMap, filter_flatMap', sum_map_flatMap]
      apply sum_map_congr
      intro v _
      rw [sum_filter_eq_ite, List.map_map, sum_filter_eq_ite]
      apply sum_map_congr
      intro i _
      simp only [Function.comp, decide_eq_true_eq]
      by_cases c1 : i.unit = v.unit ∧ i.dtype = v.dtype
      · obtain ⟨c1, c2⟩ := c1
        by_cases c3 : v.unit = u ∧ v.service = s
        · obtain ⟨c3, c4⟩ := c3
          subst c3; subst c4
          simp [c1, c2]
        · rw [if_pos ⟨c1, c2⟩, if_neg c3, if_neg]
          rintro ⟨_, h1, h2, _⟩; exact c3 ⟨h1, h2⟩
      · rw [if_neg c1, if_neg]
        rintro ⟨h1, h2, _, h3⟩; exact c1 ⟨h1.trans h2.symm, h3.symm⟩
    rw [h1, sum_comm, sum_filter_eq_ite]
    apply sum_map_congr
    intro i _
    by_cases c : i.unit = u
    · simp only [c, true_and, decide_true, if_true]
      rw [← sum_map_mul_left, sum_filter_eq_ite]
      apply sum_map_congr
      intro v _
      simp only [decide_eq_true_eq]
    · simp only [c, false_and, if_false, decide_false, Bool.false_eq_true]
      apply sum_map_zero; intros; rfl

theorem genericRegion_val {m : Market} (hw : WF m) (x : Nat → ℚ) (r : String) (s : Service) :
    (((m.bidReg.getD []).filter (fun v => decide (v.region = r ∧ v.service = s))).map (fun v => x v.vid)).sum =
      m.regionTotal x r s := by
  unfold Market.regionTotal Market.dispatched
  rcases hw.bid with ⟨a, _, b⟩ | ⟨bs, n, _, _, e1, _, e2⟩
  · rw [a, b]; simp
  · rw [e1, e2]
    simp only [Option.getD_some]
    generalize bidVariables bs n = vars
    have h1 : (((bidRegMap vars m.units).filter (fun v => decide (v.region = r ∧ v.service = s))).map
        (fun v => x v.vid)).sum = (vars.map (fun v => (m.units.map (fun u =>
        if u.region = r ∧ v.unit = u.unit ∧ v.service = s ∧ v.dtype = u.dtype then x v.vid else 0)).sum)).sum := by
      rw [bidRegMap, filter_flatMap', sum_map_flatMap]
      apply sum_map_congr
      intro v _
      rw [sum_filter_eq_ite, List.map_map, sum_filter_eq_ite]
      apply sum_map_congr
      intro u _
      simp only [Function.comp, decide_eq_true_eq]
      by_cases c1 : u.unit = v.unit ∧ u.dtype = v.dtype
      · obtain ⟨c1, c2⟩ := c1
        by_cases c3 : u.region = r ∧ v.service = s
        · obtain ⟨c3, c4⟩ := c3
          subst c3; subst c4
          simp [c1, c2]
        · rw [if_pos ⟨c1, c2⟩, if_neg c3, if_neg]
          rintro ⟨h1, _, h2, _⟩; exact c3 ⟨h1, h2⟩
      · rw [if_neg c1, if_neg]
        rintro ⟨_, h1, _, h2⟩; exact c1 ⟨h1.symm, h2.symm⟩
    rw [h1, sum_comm, sum_filter_eq_ite]
    apply sum_map_congr
    intro u _
    by_cases c : u.region = r
    · simp only [c, true_and, decide_true, if_true]
      rw [sum_filter_eq_ite]
      apply sum_map_congr
      intro v _
      simp only [decide_eq_true_eq]
    · simp only [c, false_and, if_false, decide_false, Bool.false_eq_true]
      apply sum_map_zero; intros; rfl

theorem genericInter_val {m : Market} (hw : WF m) (x : Nat → ℚ) (i : String) :
    (((m.inters.getD []).filter (fun v => decide (v.inter = i))).map (fun v => v.gcf * x v.vid)).sum = m.interTotal x i := by
  unfold Market.interTotal Market.flow
  rcases hw.inter with ⟨a, b, c⟩ | ⟨ds, n, e1, e2, e3, hok⟩
  · rw [a, b]; simp
  · rw [e1, e2]
    simp only [Option.getD_some]
    rw [sum_filter_eq_ite, sum_filter_eq_ite]
    conv_lhs => rw [interVariables]
    apply sum_saveIndex
    intro j d hd
    rw [flow_at (interKeys hok) hd]
    simp

/-- the terms linked to one row -/
theorem rowVal_linked {m : Market} (hw : WF m) (x : Nat → ℚ) (c : Nat) (s : String) :
    rowVal (m.genericTermsFor [(c, s)]) x c = m.linked x s := by
  have e : ∀ {α β : Type} (gs : List α) (vs : List β) (set : α → String) (p : α → β → Bool) (f : α → β → Term)
      (hf : ∀ g v, (f g v).cid = c),
      rowVal (gs.flatMap (fun g => (vs.filter (p g)).flatMap (fun v =>
        (([(c, s)] : List (Nat × String)).filter (fun i => decide (i.2 = set g))).map (fun _ => f g v)))) x c =
      ((gs.filter (fun g => decide (set g = s))).map (fun g => ((vs.filter (p g)).map (fun v => (f g v).coef * x (f g v).vid)).sum)).sum := by
    intro α β gs vs set p f hf
    rw [rowVal_flatMap, sum_filter_eq_ite]
    apply sum_map_congr
    intro g _
    rw [rowVal_flatMap]
    by_cases h : set g = s
    · simp only [h, decide_true, if_true]
      apply sum_map_congr
      intro v _
      simp [rowVal, hf]
    · simp only [h, decide_false, Bool.false_eq_true, if_false]
      apply sum_map_zero
      intro v _
      have : decide (s = set g) = false := by simpa using fun h' => h h'.symm
      simp [this, rowVal]
  unfold Market.genericTermsFor Market.linked
  rw [rowVal_append, rowVal_append]
  congr 1
  · congr 1
    · have hb : ∀ g : List GUnit, rowVal (genericUnitLhs g [(c, s)] (m.bidUnit.getD [])) x c =
          ((g.filter (fun g => decide (g.set = s))).map (fun g => g.coef * m.unitTotal x g.unit g.service)).sum := by
        intro g
        have := e g (m.bidUnit.getD []) GUnit.set (fun g v => decide (v.unit = g.unit ∧ v.service = g.service))
          (fun g v => { cid := c, vid := v.vid, coef := g.coef * v.coef }) (fun _ _ => rfl)
        have h2 : genericUnitLhs g [(c, s)] (m.bidUnit.getD []) = (g.flatMap (fun g => ((m.bidUnit.getD []).filter
            (fun v => decide (v.unit = g.unit ∧ v.service = g.service))).flatMap (fun v =>
            (([(c, s)] : List (Nat × String)).filter (fun i => decide (i.2 = g.set))).map (fun _ =>
              ({ cid := c, vid := v.vid, coef := g.coef * v.coef } : Term))))) := by
          unfold genericUnitLhs
          refine List.flatMap_congr (fun g _ => List.flatMap_congr (fun v _ => List.map_congr_left (fun i hi => ?_)))
          have := List.mem_of_mem_filter hi
          simp only [List.mem_singleton] at this
          rw [this]
        rw [h2, this]
        apply sum_map_congr
        intro g _
        rw [← genericUnit_val hw, ← sum_map_mul_left]
        apply sum_map_congr
        intro v _
        ring
      cases hg : m.gUnit with
      | none => simp [rowVal_nil]
      | some g =>
        cases hb' : m.bidUnit with
        | none =>
          have := hb g
          rw [hb'] at this
          simp only [Option.getD_none] at this
          rw [Option.getD_some, ← this]
          have h0 : genericUnitLhs g [(c, s)] [] = [] := List.eq_nil_iff_forall_not_mem.2 (by simp [genericUnitLhs])
          rw [h0]
        | some v =>
          have := hb g
          rw [hb'] at this
          exact this
    · have hb : ∀ g : List GRegion, rowVal (genericRegionLhs g [(c, s)] (m.bidReg.getD [])) x c =
          ((g.filter (fun g => decide (g.set = s))).map (fun g => g.coef * m.regionTotal x g.region g.service)).sum := by
        intro g
        have := e g (m.bidReg.getD []) GRegion.set (fun g v => decide (v.region = g.region ∧ v.service = g.service))
          (fun g v => { cid := c, vid := v.vid, coef := g.coef }) (fun _ _ => rfl)
        have h2 : genericRegionLhs g [(c, s)] (m.bidReg.getD []) = (g.flatMap (fun g => ((m.bidReg.getD []).filter
            (fun v => decide (v.region = g.region ∧ v.service = g.service))).flatMap (fun v =>
            (([(c, s)] : List (Nat × String)).filter (fun i => decide (i.2 = g.set))).map (fun _ =>
              ({ cid := c, vid := v.vid, coef := g.coef } : Term))))) := by
          unfold genericRegionLhs
          refine List.flatMap_congr (fun g _ => List.flatMap_congr (fun v _ => List.map_congr_left (fun i hi => ?_)))
          have := List.mem_of_mem_filter hi
          simp only [List.mem_singleton] at this
          rw [this]
        rw [h2, this]
        apply sum_map_congr
        intro g _
        rw [← genericRegion_val hw, ← sum_map_mul_left]
      cases hg : m.gRegion with
      | none => simp [rowVal_nil]
      | some g =>
        cases hb' : m.bidReg with
        | none =>
          have := hb g
          rw [hb'] at this
          simp only [Option.getD_none] at this
          rw [Option.getD_some, ← this]
          have h0 : genericRegionLhs g [(c, s)] [] = [] := List.eq_nil_iff_forall_not_mem.2 (by simp [genericRegionLhs])
          rw [h0]
        | some v =>
          have := hb g
          rw [hb'] at this
          exact this
  · have hb : ∀ g : List GInter, rowVal (genericInterLhs g [(c, s)] (m.inters.getD [])) x c =
        ((g.filter (fun g => decide (g.set = s))).map (fun g => g.coef * m.interTotal x g.inter)).sum := by
      intro g
      have := e g (m.inters.getD []) GInter.set (fun g v => decide (v.inter = g.inter))
        (fun g v => { cid := c, vid := v.vid, coef := g.coef * v.gcf }) (fun _ _ => rfl)
      have h2 : genericInterLhs g [(c, s)] (m.inters.getD []) = (g.flatMap (fun g => ((m.inters.getD []).filter
          (fun v => decide (v.inter = g.inter))).flatMap (fun v =>
          (([(c, s)] : List (Nat × String)).filter (fun i => decide (i.2 = g.set))).map (fun _ =>
            ({ cid := c, vid := v.vid, coef := g.coef * v.gcf } : Term))))) := by
        unfold genericInterLhs
        refine List.flatMap_congr (fun g _ => List.flatMap_congr (fun v _ => List.map_congr_left (fun i hi => ?_)))
        have := List.mem_of_mem_filter hi
        simp only [List.mem_singleton] at this
        rw [this]
      rw [h2, this]
      apply sum_map_congr
      intro g _
      rw [← genericInter_val hw, ← sum_map_mul_left]
      apply sum_map_congr
      intro v _
      ring
    cases hg : m.gInter with
    | none => simp [rowVal_nil]
    | some g =>
      cases hb' : m.inters with
      | none =>
        have := hb g
        rw [hb'] at this
        simp only [Option.getD_none] at this
        rw [Option.getD_some, ← this]
        have h0 : genericInterLhs g [(c, s)] [] = [] := List.eq_nil_iff_forall_not_mem.2 (by simp [genericInterLhs])
        rw [h0]
      | some v =>
        have := hb g
        rw [hb'] at this
        exact this

theorem mem_bidReg_iff {m : Market} (hw : WF m) {r : String} {s : Service} :
    (∃ v ∈ m.bidReg.getD [], v.region = r ∧ v.service = s) ↔ m.hasSupply r s := by
  unfold Market.hasSupply Market.bidsFor
  rcases hw.bid with ⟨a, _, b⟩ | ⟨bs, n, _, _, e1, _, e2⟩
  · rw [a, b]; simp
  · rw [e1, e2]
    simp only [Option.getD_some, bidRegMap, List.mem_flatMap, List.mem_map, List.mem_filter, decide_eq_true_eq]
    constructor
    · rintro ⟨_, ⟨v, hv, u, ⟨hu, h1, h2⟩, rfl⟩, h3, h4⟩
      exact ⟨u, hu, h3, v, hv, h1.symm, h4, h2.symm⟩
    · rintro ⟨u, hu, h3, v, hv, h1, h4, h2⟩
      exact ⟨_, ⟨v, hv, u, ⟨hu, h1.symm, h2.symm⟩, rfl⟩, h3, h4⟩

theorem mem_linked {m : Market} (hw : WF m) (c : Nat) (s : String) :
    (∃ t ∈ m.genericTermsFor [(c, s)], t.cid = c) ↔ m.hasLinked s := by
  have hmem : ∀ t ∈ m.genericTermsFor [(c, s)], t.cid = c := by
    intro t ht
    simp only [Market.genericTermsFor, List.mem_append] at ht
    rcases ht with (ht | ht) | ht
    all_goals
      split at ht
      · simp only [genericUnitLhs, genericRegionLhs, genericInterLhs, List.mem_flatMap, List.mem_map, List.mem_filter, List.mem_singleton] at ht
        obtain ⟨_, _, _, _, _, ⟨rfl, _⟩, rfl⟩ := ht
        rfl
      · simp at ht
  have h0 : (∃ t ∈ m.genericTermsFor [(c, s)], t.cid = c) ↔ ∃ t, t ∈ m.genericTermsFor [(c, s)] :=
    ⟨fun ⟨t, h, _⟩ => ⟨t, h⟩, fun ⟨t, h⟩ => ⟨t, h, hmem t h⟩⟩
  rw [h0]
  simp only [Market.genericTermsFor, List.mem_append, exists_or]
  unfold Market.hasLinked
  rw [or_assoc]
  refine or_congr ?_ (or_congr ?_ ?_)
  · constructor
    · rintro ⟨t, ht⟩
      split at ht
      · rename_i g v hg hv
        simp only [genericUnitLhs, List.mem_flatMap, List.mem_map, List.mem_filter, List.mem_singleton, decide_eq_true_eq] at ht
        obtain ⟨g', hg', v', ⟨hv', h1, h2⟩, _, ⟨rfl, h3⟩, rfl⟩ := ht
        refine ⟨g', by rw [hg]; exact hg', h3.symm, v'.dtype, ?_⟩
        exact (mem_bidUnit_iff hw).1 ⟨v', by rw [hv]; exact hv', h1, h2, rfl⟩
      · simp at ht
    · rintro ⟨g, hg, h1, d, h2, h3⟩
      obtain ⟨v, hv, e1, e2, e3⟩ := (mem_bidUnit_iff hw).2 ⟨h2, h3⟩
      cases hgu : m.gUnit with
      | none => rw [hgu] at hg; simp at hg
      | some gs =>
        cases hbu : m.bidUnit with
        | none => rw [hbu] at hv; simp at hv
        | some vs =>
          rw [hgu] at hg; rw [hbu] at hv
          refine ⟨⟨c, v.vid, g.coef * v.coef⟩, ?_⟩
          simp only [genericUnitLhs, List.mem_flatMap, List.mem_map, List.mem_filter, List.mem_singleton, decide_eq_true_eq]
          exact ⟨g, hg, v, ⟨hv, e1, e2⟩, _, ⟨rfl, h1.symm⟩, rfl⟩
  · constructor
    · rintro ⟨t, ht⟩
      split at ht
      · rename_i g v hg hv
        simp only [genericRegionLhs, List.mem_flatMap, List.mem_map, List.mem_filter, List.mem_singleton, decide_eq_true_eq] at ht
        obtain ⟨g', hg', v', ⟨hv', h1, h2⟩, _, ⟨rfl, h3⟩, rfl⟩ := ht
        refine ⟨g', by rw [hg]; exact hg', h3.symm, ?_⟩
        exact (mem_bidReg_iff hw).1 ⟨v', by rw [hv]; exact hv', h1, h2⟩
      · simp at ht
    · rintro ⟨g, hg, h1, h2⟩
      obtain ⟨v, hv, e1, e2⟩ := (mem_bidReg_iff hw).2 h2
      cases hgu : m.gRegion with
      | none => rw [hgu] at hg; simp at hg
      | some gs =>
        cases hbu : m.bidReg with
        | none => rw [hbu] at hv; simp at hv
        | some vs =>
          rw [hgu] at hg; rw [hbu] at hv
          refine ⟨⟨c, v.vid, g.coef⟩, ?_⟩
          simp only [genericRegionLhs, List.mem_flatMap, List.mem_map, List.mem_filter, List.mem_singleton, decide_eq_true_eq]
          exact ⟨g, hg, v, ⟨hv, e1, e2⟩, _, ⟨rfl, h1.symm⟩, rfl⟩
  · have hi : ∀ i, (∃ v ∈ m.inters.getD [], v.inter = i) ↔ ∃ d ∈ m.dirs.getD [], d.inter = i := by
      intro i
      rcases hw.inter with ⟨a, b, _⟩ | ⟨ds, n, e1, e2, e3, hok⟩
      · rw [a, b]; simp
      · rw [e1, e2]
        simp only [Option.getD_some]
        constructor
        · rintro ⟨v, hv, rfl⟩
          obtain ⟨j, d, hd, rfl⟩ := mem_saveIndex.1 hv
          exact ⟨d, List.mem_of_getElem? hd, rfl⟩
        · rintro ⟨d, hd, rfl⟩
          obtain ⟨j, _, hm⟩ := mem_saveIndex' hd n (fun i d =>
            ({ inter := d.inter, link := d.link, vid := i, lb := d.min, ub := d.max, gcf := d.gcf } : InterVar))
          exact ⟨_, hm, rfl⟩
    constructor
    · rintro ⟨t, ht⟩
      split at ht
      · rename_i g v hg hv
        simp only [genericInterLhs, List.mem_flatMap, List.mem_map, List.mem_filter, List.mem_singleton, decide_eq_true_eq] at ht
        obtain ⟨g', hg', v', ⟨hv', h1⟩, _, ⟨rfl, h3⟩, rfl⟩ := ht
        refine ⟨g', by rw [hg]; exact hg', h3.symm, ?_⟩
        exact (hi _).1 ⟨v', by rw [hv]; exact hv', h1⟩
      · simp at ht
    · rintro ⟨g, hg, h1, h2⟩
      obtain ⟨v, hv, e1⟩ := (hi _).2 h2
      cases hgu : m.gInter with
      | none => rw [hgu] at hg; simp at hg
      | some gs =>
        cases hbu : m.inters with
        | none => rw [hbu] at hv; simp at hv
        | some vs =>
          rw [hgu] at hg; rw [hbu] at hv
          refine ⟨⟨c, v.vid, g.coef * v.gcf⟩, ?_⟩
          simp only [genericInterLhs, List.mem_flatMap, List.mem_map, List.mem_filter, List.mem_singleton, decide_eq_true_eq]
          exact ⟨g, hg, v, ⟨hv, e1⟩, _, ⟨rfl, h1.symm⟩, rfl⟩

/-- the ids of a row in a table of distinct rows with a set column -/
theorem setIds_filter {rows : List Row} (hn : (rows.map Row.cid).Nodup) {r : Row} (hr : r ∈ rows) {s : String} (hs : r.set = some s) :
    (setIds rows).filter (fun i => decide (i.1 = r.cid)) = [(r.cid, s)] := by
  have h1 : ((setIds rows).map Prod.fst).Nodup := by
    unfold setIds
    refine List.Nodup.sublist ?_ hn
    clear hn hr
    induction rows with
    | nil => simp
    | cons a rows ih =>
      rw [List.filterMap_cons]
      cases ha : a.set with
      | none => simp only [Option.map_none, List.map_cons]; exact ih.cons _
      | some s => simp only [Option.map_some, List.map_cons]; exact ih.cons_cons _
  have h2 : (r.cid, s) ∈ setIds rows := by
    unfold setIds
    rw [List.mem_filterMap]
    exact ⟨r, hr, by rw [hs]; rfl⟩
  exact filter_key_unique h1 h2

theorem rowVal_genericTermsFor {m : Market} (hw : WF m) {rows : List Row} (hn : (rows.map Row.cid).Nodup) {r : Row} (hr : r ∈ rows)
    {s : String} (hs : r.set = some s) (x : Nat → ℚ) : rowVal (m.genericTermsFor (setIds rows)) x r.cid = m.linked x s := by
  rw [← rowVal_linked hw x r.cid s]
  unfold rowVal
  rw [genericTermsFor_filter, setIds_filter hn hr hs]
  have := genericTermsFor_filter m [(r.cid, s)] r.cid
  simp only [List.filter_cons, decide_true, if_true, List.filter_nil] at this
  rw [this]

theorem mem_genericTermsFor {m : Market} (hw : WF m) {rows : List Row} (hn : (rows.map Row.cid).Nodup) {r : Row} (hr : r ∈ rows)
    {s : String} (hs : r.set = some s) : (∃ t ∈ m.genericTermsFor (setIds rows), t.cid = r.cid) ↔ m.hasLinked s := by
  rw [← mem_linked hw r.cid s]
  have h1 := genericTermsFor_filter m (setIds rows) r.cid
  rw [setIds_filter hn hr hs] at h1
  constructor
  · rintro ⟨t, ht, e⟩
    have : t ∈ (m.genericTermsFor (setIds rows)).filter (fun t => decide (t.cid = r.cid)) :=
      List.mem_filter.2 ⟨ht, by simpa using e⟩
    rw [h1] at this
    exact ⟨t, this, e⟩
  · rintro ⟨t, ht, e⟩
    rw [← h1] at ht
    exact ⟨t, List.mem_of_mem_filter ht, e⟩

end Verif
