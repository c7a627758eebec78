import Verif.Proofs.Regional
import Verif.Proofs.Ramp
import Verif.Spec.Interp

/-! Losses of interconnectors. -/

namespace Verif

theorem sum_saveIndex2 {α β γ : Type} (rows : List α) (n k : Nat) (f : Nat → α → β) (g : Nat → β → γ) (w : γ → ℚ) (h : α → ℚ)
    (e : ∀ i a, rows[i]? = some a → w (g (k + i) (f (n + i) a)) = h a) :
    ((saveIndex (saveIndex rows n f) k g).map w).sum = (rows.map h).sum := by
  induction rows generalizing n k with
  | nil => rfl
  | cons a rows ih =>
    simp only [saveIndex, List.map_cons, List.sum_cons]
    rw [show w (g k (f n a)) = h a from e 0 a (by simp), ih (n := n + 1) (k := k + 1)]
    intro i b hb
    have := e (i + 1) b (by simpa using hb)
    rwa [show n + (i + 1) = n + 1 + i by omega, show k + (i + 1) = k + 1 + i by omega] at this

/-- The tables written by `set_interconnector_losses`. -/
structure LossTables (m : Market) (fs : List LossFn) (bs : List BreakPt) (ds : List InterDef) (n nv nc n1 n2 nw : Nat) : Prop where
  wf : WF m
  dirs : m.dirs = some ds
  inters : m.inters = some (interVariables ds n)
  interReg : m.interReg = some (interMap ds n)
  keys : (ds.map (fun d => (d.inter, d.link))).Nodup
  fkeys : (fs.map (fun f => (f.inter, f.link))).Nodup
  bkeys : (bs.map (fun b => (b.inter, b.link, b.seg))).Nodup
  known : ∀ b ∈ bs, ∃ d ∈ ds, d.inter = b.inter ∧ d.link = b.link
  losses : m.losses = some (lossVariables (interVariables ds n) (mergeFromRegion fs ds) nv)
  lossReg : m.lossReg = some (lossMap (interVariables ds n) (interMap ds n) (mergeFromRegion fs ds) nv)
  weights : m.weights = some (weightVariables bs nw)
  lossLhs : m.lossLhs = some ((weightsSumToOne (weightVariables bs nw) nc).1 ++
    (linkWeightsToFlow (weightVariables bs nw) (interVariables ds n) n2).1 ++
    (linkLossToWeights (weightVariables bs nw) (lossVariables (interVariables ds n) (mergeFromRegion fs ds) nv)
      (mergeFromRegion fs ds) n1).1)
  rows : m.conRhs.get? .interpWeights = some (weightsSumToOne (weightVariables bs nw) nc).2
  dyn : m.dynRhs = some ((linkWeightsToFlow (weightVariables bs nw) (interVariables ds n) n2).2 ++
    (linkLossToWeights (weightVariables bs nw) (lossVariables (interVariables ds n) (mergeFromRegion fs ds) nv)
      (mergeFromRegion fs ds) n1).2)
  next1 : n1 = nextAfter ((weightsSumToOne (weightVariables bs nw) nc).2.map Row.cid)
  next2 : n2 = nextAfter ((linkLossToWeights (weightVariables bs nw) (lossVariables (interVariables ds n) (mergeFromRegion fs ds) nv)
      (mergeFromRegion fs ds) n1).2.map DynRow.cid)
  some_loss : (linkLossToWeights (weightVariables bs nw) (lossVariables (interVariables ds n) (mergeFromRegion fs ds) nv)
      (mergeFromRegion fs ds) n1).1 ≠ []
  noDef : ∀ d, m.deficits.get? .interpWeights = some d → ∀ s ∈ d.2, s.cid < nc

theorem losses_set {keep : List Part} {fs : List LossFn} {bs : List BreakPt} {m : Market} (hk : Part.inters ∈ keep)
    (h : InForceKeeping keep (.losses fs bs) m) :
    ∃ ds n nv nc n1 n2 nw, LossTables m fs bs ds n nv nc n1 n2 nw := by
  have h0 := h
  obtain ⟨r, u, d, m0, before, after, h1, h2, h3, h4, rfl⟩ := h0
  have hben := (benign_append.1 h2).2.1
  have ha := wf_run h1 (benign_append.1 h2).1
  have hm := wf_run h1 h2
  have hs : SamePart ((m0.run before).step (.losses fs bs)).1 (m0.run (before ++ .losses fs bs :: after)) (.set .interpWeights) := by
    rw [run_append, run_cons]
    exact part_run (fun o ho => h4 o ho _ (by simp [Op.parts]))
  have hi : SamePart ((m0.run before).step (.losses fs bs)).1 (m0.run (before ++ .losses fs bs :: after)) .inters := by
    rw [run_append, run_cons]
    exact part_run (fun o ho => h4 o ho _ (List.mem_append_left _ hk))
  generalize hm' : m0.run (before ++ .losses fs bs :: after) = m at *
  generalize ha' : m0.run before = a at *
  have hn := step_ok h3
  simp only [SamePart] at hs hi
  simp only [Market.step, hn, Market.setLosses, Bool.false_eq_true, if_false] at h3 hs hi
  by_cases c1 : (!lossInputsOk fs bs) = true
  · rw [if_pos c1] at h3; simp at h3
  rw [if_neg c1] at h3 hs hi
  rcases ha.inter with ⟨e1, e2, e3⟩ | ⟨ds, n, e1, e2, e3, hok⟩
  · rw [e1, e2, e3] at h3; simp at h3
  rw [e1, e2, e3] at h3 hs hi
  dsimp only at h3 hs hi
  split at h3
  · simp at h3
  rename_i c2
  rw [if_neg c2] at hs hi
  have hl := hs.loss rfl
  simp only [Bool.not_eq_true, Bool.not_eq_false', lossInputsOk, Bool.and_eq_true, decide_eq_true_eq] at c1
  dsimp only at hl hi
  refine ⟨ds, n, a.nextVar, a.nextCon, _, _, _, ⟨hm, ?_, ?_, ?_, interKeys hok, c1.1.2, c1.2, ?_, hl.2.2.2.1, hl.2.2.2.2, hl.2.2.1, hl.1, ?_,
    hl.2.1, rfl, rfl, ?_, ?_⟩⟩
  · exact hi.1
  · exact hi.2.1
  · exact hi.2.2
  · intro b hb
    obtain ⟨v, hv, h⟩ := hben b hb
    rw [e2, Option.getD_some] at hv
    obtain ⟨j, d, hd, rfl⟩ := mem_saveIndex.1 hv
    exact ⟨d, List.mem_of_getElem? hd, h⟩
  · rw [hs.conRhs]; exact Dict.get?_set_self ..
  · intro h; rw [h] at c2; simp at c2
  · intro d hd s hs'
    rw [hs.deficits] at hd
    obtain ⟨own, ho⟩ := ha.con.own
    exact (ho .interpWeights s.cid (Or.inr (Or.inr (Or.inr (Or.inr (Or.inl ⟨d, Dict.mem_of_get? hd, s, hs', rfl⟩)))))).2

namespace LossTables
variable {m : Market} {fs : List LossFn} {bs : List BreakPt} {ds : List InterDef} {n nv nc n1 n2 nw : Nat}

/-- the merged loss functions of a link -/
theorem fr_filter (hk : (ds.map (fun d => (d.inter, d.link))).Nodup) {d : InterDef} (hd : d ∈ ds) :
    (mergeFromRegion fs ds).filter (fun f => decide (f.inter = d.inter ∧ f.link = d.link)) =
      (fs.filter (fun f => decide (f.inter = d.inter ∧ f.link = d.link))).map (fun f =>
        ({ inter := f.inter, link := f.link, fn := f.fn, share := f.share, fromR := d.fromR } : LossFnR)) := by
  unfold mergeFromRegion
  rw [filter_flatMap']
  induction fs with
  | nil => rfl
  | cons f fs ih =>
    rw [List.flatMap_cons, ih]
    by_cases c : f.inter = d.inter ∧ f.link = d.link
    · have e : ds.filter (fun e => decide (e.inter = f.inter ∧ e.link = f.link)) = [d] := by
        rw [← filter_key_unique hk hd]
        apply List.filter_congr
        intro e _
        rw [c.1, c.2]; simp [Prod.ext_iff]
      rw [List.filter_cons, if_pos (by simpa using c), e]
      simp [c.1, c.2]
    · rw [List.filter_cons, if_neg (by simpa using c)]
      rw [List.filter_eq_nil_iff.2]
      · rfl
      · intro g hg
        obtain ⟨e, _, rfl⟩ := List.mem_map.1 hg
        simpa using c

theorem im_filter (hk : (ds.map (fun d => (d.inter, d.link))).Nodup) {i : Nat} {d : InterDef} (hd : ds[i]? = some d) :
    (interMap ds n).filter (fun r => decide (r.inter = d.inter ∧ r.link = d.link)) =
      [⟨n + i, d.inter, d.link, d.toR, 1 * d.toLf⟩, ⟨n + i, d.inter, d.link, d.fromR, -1 * d.fromLf⟩] := by
  have half : ∀ f : Nat → InterDef → InterMap, (∀ i d, (f i d).inter = d.inter ∧ (f i d).link = d.link) →
      (saveIndex ds n f).filter (fun r => decide (r.inter = d.inter ∧ r.link = d.link)) = [f (n + i) d] := by
    intro f hf
    have h1 : ((saveIndex ds n f).map (fun v => (v.inter, v.link))).Nodup := by
      have : (fun i a => ((f i a).inter, (f i a).link)) = fun (_ : Nat) (a : InterDef) => (a.inter, a.link) := by
        funext i a; rw [(hf i a).1, (hf i a).2]
      rw [map_saveIndex, this, saveIndex_vals]; exact hk
    have hm : f (n + i) d ∈ saveIndex ds n f := mem_saveIndex.2 ⟨i, d, hd, rfl⟩
    rw [← filter_key_unique h1 hm]
    apply List.filter_congr
    intro v _
    rw [(hf _ _).1, (hf _ _).2]; simp [Prod.ext_iff]
  rw [interMap, List.filter_append, half _ (fun _ _ => ⟨rfl, rfl⟩), half _ (fun _ _ => ⟨rfl, rfl⟩)]
  rfl

/-- the loss variable of a link with a loss function -/
theorem loss_at (hk : (ds.map (fun d => (d.inter, d.link))).Nodup) (hf : (fs.map (fun f => (f.inter, f.link))).Nodup)
    {i : Nat} {d : InterDef} (hd : ds[i]? = some d) {f : LossFn} (hfm : f ∈ fs) (h1 : f.inter = d.inter) (h2 : f.link = d.link) :
    ∃ l u, (lossVariables (interVariables ds n) (mergeFromRegion fs ds) nv).filter
      (fun v => decide (v.inter = d.inter ∧ v.link = d.link)) = [⟨d.inter, d.link, nv + i, l, u⟩] := by
  have hks := lossVariables_keys (vs := interVariables ds n) nv (lossVariablesAux_fr hk hf) (by rw [interVariables_keys]; exact hk)
  have hm : (⟨d.inter, d.link, nv + i, -1 * max |d.min| |d.max|, max |d.min| |d.max|⟩ : LossVar) ∈
      lossVariables (interVariables ds n) (mergeFromRegion fs ds) nv := by
    unfold lossVariables lossVariablesAux
    rw [List.mem_map]
    refine ⟨(_, ⟨f.inter, f.link, f.fn, f.share, d.fromR⟩), ?_, rfl⟩
    rw [List.mem_flatMap]
    refine ⟨⟨d.inter, d.link, nv + i, -1 * max |d.min| |d.max|, max |d.min| |d.max|⟩, ?_, ?_⟩
    · refine mem_saveIndex.2 ⟨i, ⟨d.inter, d.link, n + i, d.min, d.max, d.gcf⟩, ?_, rfl⟩
      rw [interVariables, getElem?_saveIndex, hd]; rfl
    · rw [List.mem_map]
      refine ⟨⟨f.inter, f.link, f.fn, f.share, d.fromR⟩, ?_, rfl⟩
      rw [fr_filter hk (List.mem_of_getElem? hd), List.mem_map]
      exact ⟨f, List.mem_filter.2 ⟨hfm, by simpa using ⟨h1, h2⟩⟩, rfl⟩
  refine ⟨-1 * max |d.min| |d.max|, max |d.min| |d.max|, ?_⟩
  rw [← filter_key_unique hks hm]
  apply List.filter_congr
  intro v _
  simp [Prod.ext_iff]

theorem charged_eq (h : LossTables m fs bs ds n nv nc n1 n2 nw) (hne : ∀ d ∈ ds, ∀ f ∈ fs, f.inter = d.inter → f.link = d.link → d.fromR ≠ d.toR)
    (x : Nat → ℚ) (r : String) : regSum (m.lossReg.getD []) x r .energy = - m.chargedLoss x fs r := by
  unfold Market.chargedLoss Market.linkLoss
  rw [h.lossReg, h.losses, h.dirs]
  simp only [Option.getD_some]
  rw [regSum, lossMap, filter_flatMap', sum_map_flatMap, lossVariablesAux, sum_map_flatMap]
  have : ∀ L : List ℚ, -L.sum = (-1) * L.sum := fun L => by ring
  rw [this, ← sum_map_mul_left]
  conv_lhs => rw [interVariables]
  apply sum_saveIndex2
  intro i d hd
  dsimp only
  rw [fr_filter h.keys (List.mem_of_getElem? hd)]
  rw [List.map_map, List.map_map, ← sum_map_mul_left]
  apply sum_map_congr
  intro f hf
  simp only [List.mem_filter, decide_eq_true_eq] at hf
  obtain ⟨l, u, hl⟩ := loss_at (n := n) (nv := nv) h.keys h.fkeys hd hf.1 hf.2.1 hf.2.2
  have hne' := hne d (List.mem_of_getElem? hd) f hf.1 hf.2.1 hf.2.2
  simp only [Function.comp]
  rw [hl, im_filter h.keys hd]
  simp only [List.map_cons, List.map_nil, List.sum_cons, List.sum_nil, add_zero, lossCharge, if_true]
  by_cases c1 : d.fromR = r
  · have c2 : d.toR ≠ r := fun e => hne' (c1.trans e.symm)
    simp [c1, c2]
  · by_cases c2 : d.toR = r
    · have c1' : r ≠ d.fromR := fun e => c1 e.symm
      simp [c1, c2, c1']
      ring
    · have c1' : r ≠ d.fromR := fun e => c1 e.symm
      have c2' : r ≠ d.toR := fun e => c2 e.symm
      simp [c1, c2, c1', c2']

/-! ### rows of the weights -/

/-- the weights of a link -/
def weightsOf (ws : List WeightVar) (k : String × String) : List WeightVar :=
  ws.filter (fun w => decide ((w.inter, w.link) = k))

theorem rowVal_weights {ι : Type} (ws : List WeightVar) (n0 : Nat) (F : WeightVar → List ι) (g : WeightVar → ι → ℚ) (x : Nat → ℚ)
    {c : Nat × String × String} (hc : c ∈ weightConIds ws n0) :
    rowVal (ws.flatMap (fun w => ((weightConIds ws n0).filter (fun c => decide (c.2.1 = w.inter ∧ c.2.2 = w.link))).flatMap (fun c =>
      (F w).map (fun f => ({ cid := c.1, vid := w.vid, coef := g w f } : Term))))) x c.1 =
    ((weightsOf ws c.2).map (fun w => ((F w).map (fun f => g w f * x w.vid)).sum)).sum := by
  obtain ⟨h1, _, h3, h4, _⟩ := weightConIds_facts ws n0
  rw [rowVal_flatMap, weightsOf, sum_filter_eq_ite]
  apply sum_map_congr
  intro w hw
  obtain ⟨cw, hcw, ew⟩ := h4 w hw
  have e : (weightConIds ws n0).filter (fun c => decide (c.2.1 = w.inter ∧ c.2.2 = w.link)) = [cw] := by
    rw [← filter_key_unique h3 hcw]
    apply List.filter_congr
    intro c _
    rw [ew]; simp [Prod.ext_iff]
  rw [e, List.flatMap_cons, List.flatMap_nil, List.append_nil]
  by_cases hk : (w.inter, w.link) = c.2
  · have : cw = c := by
      apply List.inj_on_of_nodup_map h3 hcw hc
      rw [ew, hk]
    subst this
    rw [if_pos (by simpa using hk), rowVal, List.filter_eq_self.2, List.map_map]
    · rfl
    · intro t ht; obtain ⟨f, _, rfl⟩ := List.mem_map.1 ht; simp
  · rw [if_neg (by simpa using hk)]
    apply rowVal_zero
    intro t ht
    obtain ⟨f, _, rfl⟩ := List.mem_map.1 ht
    intro he
    apply hk
    have := List.inj_on_of_nodup_map h1 hcw hc he
    rw [← ew, this]

theorem rowVal_weightTerms (ws : List WeightVar) (n0 : Nat) (g : WeightVar → ℚ) (x : Nat → ℚ)
    {c : Nat × String × String} (hc : c ∈ weightConIds ws n0) :
    rowVal (weightTerms ws n0 g) x c.1 = ((weightsOf ws c.2).map (fun w => g w * x w.vid)).sum := by
  have := rowVal_weights ws n0 (fun _ => [()]) (fun w _ => g w) x hc
  simp only [List.map_cons, List.map_nil, List.sum_cons, List.sum_nil, add_zero] at this
  rw [← this, weightTerms]
  congr 1
  refine List.flatMap_congr (fun w _ => ?_)
  induction (weightConIds ws n0).filter (fun c => decide (c.2.1 = w.inter ∧ c.2.2 = w.link)) with
  | nil => rfl
  | cons a l ih => simp [ih]

theorem mem_weightTerms {ws : List WeightVar} {n0 : Nat} {g : WeightVar → ℚ} {t : Term} (h : t ∈ weightTerms ws n0 g) :
    ∃ c ∈ weightConIds ws n0, t.cid = c.1 := by
  simp only [weightTerms, List.mem_flatMap, List.mem_map, List.mem_filter] at h
  obtain ⟨w, _, c, ⟨hc, _⟩, rfl⟩ := h
  exact ⟨c, hc, rfl⟩

theorem lt_nextAfter {l : List Nat} {i : Nat} (h : i ∈ l) : i < nextAfter l := by
  by_contra hc
  have := count_zero_of_ge_nextAfter (l := l) (i := i) (by omega)
  rw [List.count_eq_zero] at this
  exact this h

/-- terms of a single row of the weights, given the range of ids -/
theorem own_terms (h : LossTables m fs bs ds n nv nc n1 n2 nw) :
    m.ownTerms .interpWeights = m.lossLhs.getD [] ++ ((m.deficits.get? .interpWeights).elim [] (·.2)) := by
  have h5 : m.unitCon.get? .interpWeights = none := by
    apply get?_none_of_keys
    intro e he h'
    have := h.wf.key.1 e he
    rw [h'] at this; simp [CKey.isUnit] at this
  have h6 : m.regCon.get? .interpWeights = none := by
    apply get?_none_of_keys
    intro e he h'
    have := h.wf.key.2 e he
    rw [h'] at this; simp [CKey.isMarket] at this
  unfold Market.ownTerms Market.genericRows
  rw [h5, h6]
  simp [createLhsUnit, createLhsReg, setIds, genericTermsFor_nil]

theorem link_ids {d : InterDef} {b : BreakPt} (hb : b ∈ bs)
    (h1 : b.inter = d.inter) (h2 : b.link = d.link) (n0 : Nat) :
    ∃ c ∈ weightConIds (weightVariables bs nw) n0, c.2 = (d.inter, d.link) := by
  obtain ⟨_, _, _, h4, _⟩ := weightConIds_facts (weightVariables bs nw) n0
  obtain ⟨j, _, hm⟩ := mem_saveIndex' hb nw (fun i b =>
    ({ inter := b.inter, link := b.link, seg := b.seg, bp := b.bp, vid := i } : WeightVar))
  obtain ⟨c, hc, e⟩ := h4 _ hm
  exact ⟨c, hc, by rw [e, h1, h2]⟩

theorem inTab_lhs {t : Term} (ht : t ∈ m.lossLhs.getD []) : InTab m .interpWeights t.cid := by
  unfold InTab
  right; right; right; right; right; left
  exact ⟨rfl, Or.inl ⟨t, ht, rfl⟩⟩

theorem rowVal_own' (h : LossTables m fs bs ds n nv nc n1 n2 nw) {t : Term} (ht : t ∈ m.lossLhs.getD []) (hge : nc ≤ t.cid) (x : Nat → ℚ) :
    rowVal m.terms x t.cid = rowVal (m.lossLhs.getD []) x t.cid := by
  rw [rowVal_own h.wf.con (inTab_lhs ht), h.own_terms, rowVal_append]
  have : rowVal ((m.deficits.get? .interpWeights).elim [] (·.2)) x t.cid = 0 := by
    apply rowVal_zero
    cases hd : m.deficits.get? .interpWeights with
    | none => simp
    | some d => intro s hs; have := h.noDef d hd s hs; omega
  rw [this, add_zero]

theorem sum_cids (ws : List WeightVar) (n0 : Nat) : (weightsSumToOne ws n0).2.map Row.cid = (weightConIds ws n0).map (·.1) := by
  simp [weightsSumToOne]

theorem mem_term_of {ws : List WeightVar} {n0 : Nat} (g : WeightVar → ℚ) {c : Nat × String × String} (hc : c ∈ weightConIds ws n0) :
    ∃ t ∈ weightTerms ws n0 g, t.cid = c.1 := by
  obtain ⟨_, _, _, _, h5⟩ := weightConIds_facts ws n0
  obtain ⟨w, hw, e⟩ := h5 c hc
  refine ⟨⟨c.1, w.vid, g w⟩, ?_, rfl⟩
  simp only [weightTerms, List.mem_flatMap, List.mem_map, List.mem_filter, decide_eq_true_eq]
  exact ⟨w, hw, c, ⟨hc, by rw [e]; exact ⟨rfl, rfl⟩⟩, rfl⟩

/-- ids of the loss rows that are used -/
theorem mem_lossTerm {t : Term} (ht : t ∈ (linkLossToWeights (weightVariables bs nw)
      (lossVariables (interVariables ds n) (mergeFromRegion fs ds) nv) (mergeFromRegion fs ds) n1).1)
    (hkn : ∀ b ∈ bs, ∃ d ∈ ds, d.inter = b.inter ∧ d.link = b.link) :
    n1 ≤ t.cid ∧ t.cid ∈ (linkLossToWeights (weightVariables bs nw)
      (lossVariables (interVariables ds n) (mergeFromRegion fs ds) nv) (mergeFromRegion fs ds) n1).2.map DynRow.cid := by
  simp only [linkLossToWeights, List.mem_flatMap, List.mem_map, List.mem_filter, decide_eq_true_eq] at ht ⊢
  obtain ⟨w, hw, c, ⟨hc, h1, h2⟩, f, ⟨hf, h3, h4⟩, rfl⟩ := ht
  refine ⟨(weightConIds_facts (weightVariables bs nw) n1).2.1 c hc, ?_⟩
  obtain ⟨j, b, hb, rfl⟩ := mem_saveIndex.1 hw
  obtain ⟨d, hd, e1, e2⟩ := hkn b (List.mem_of_getElem? hb)
  obtain ⟨i, _, hv⟩ := mem_saveIndex' hd n (fun i d =>
    ({ inter := d.inter, link := d.link, vid := i, lb := d.min, ub := d.max, gcf := d.gcf } : InterVar))
  obtain ⟨l, hl, l1, l2⟩ := mem_lossVariables_of (n := nv) hv hf (h3.trans e1.symm) (h4.trans e2.symm)
  refine ⟨⟨c.1, .eq, l.vid⟩, ⟨c, hc, l, ⟨hl, ?_, ?_⟩, rfl⟩, rfl⟩
  · rw [l1, h1]; exact e1
  · rw [l2, h2]; exact e2

theorem range_s (h : LossTables m fs bs ds n nv nc n1 n2 nw) {c : Nat × String × String} (hc : c ∈ weightConIds (weightVariables bs nw) nc) :
    nc ≤ c.1 ∧ c.1 < n1 := by
  refine ⟨(weightConIds_facts _ _).2.1 c hc, ?_⟩
  rw [h.next1, sum_cids]
  exact lt_nextAfter (List.mem_map_of_mem hc)

theorem next_le (h : LossTables m fs bs ds n nv nc n1 n2 nw) : n1 ≤ n2 ∧ nc ≤ n1 := by
  obtain ⟨t, ht⟩ := List.exists_mem_of_ne_nil _ h.some_loss
  obtain ⟨h1, h2⟩ := mem_lossTerm ht h.known
  have := lt_nextAfter h2
  rw [← h.next2] at this
  refine ⟨by omega, ?_⟩
  simp only [linkLossToWeights, List.mem_flatMap, List.mem_map, List.mem_filter, decide_eq_true_eq] at ht
  obtain ⟨w, hw, _⟩ := ht
  obtain ⟨c, hc, _⟩ := (weightConIds_facts (weightVariables bs nw) nc).2.2.2.1 w hw
  have := h.range_s hc
  omega

theorem val_sum (h : LossTables m fs bs ds n nv nc n1 n2 nw) {c : Nat × String × String} (hc : c ∈ weightConIds (weightVariables bs nw) nc)
    (x : Nat → ℚ) : rowVal m.terms x c.1 = ((weightsOf (weightVariables bs nw) c.2).map (fun w => x w.vid)).sum := by
  obtain ⟨t, ht, et⟩ := mem_term_of (fun _ => 1) hc
  have hr := h.range_s hc
  have hn := h.next_le
  have := h.rowVal_own' (t := t) (by
    rw [h.lossLhs, Option.getD_some]
    exact List.mem_append_left _ (List.mem_append_left _ ht)) (by omega) x
  rw [et] at this
  rw [this, h.lossLhs, Option.getD_some, rowVal_append, rowVal_append]
  have e1 : rowVal (linkWeightsToFlow (weightVariables bs nw) (interVariables ds n) n2).1 x c.1 = 0 := by
    apply rowVal_zero
    intro t ht
    obtain ⟨c', hc', e⟩ := mem_weightTerms ht
    have := (weightConIds_facts (weightVariables bs nw) n2).2.1 c' hc'
    omega
  have e2 : rowVal (linkLossToWeights (weightVariables bs nw) (lossVariables (interVariables ds n) (mergeFromRegion fs ds) nv)
      (mergeFromRegion fs ds) n1).1 x c.1 = 0 := by
    apply rowVal_zero
    intro t ht
    have := (mem_lossTerm ht h.known).1
    omega
  rw [e1, e2, weightsSumToOne, rowVal_weightTerms _ _ _ _ hc]
  simp

theorem val_flow (h : LossTables m fs bs ds n nv nc n1 n2 nw) {c : Nat × String × String} (hc : c ∈ weightConIds (weightVariables bs nw) n2)
    (x : Nat → ℚ) : rowVal m.terms x c.1 = ((weightsOf (weightVariables bs nw) c.2).map (fun w => w.bp * x w.vid)).sum := by
  obtain ⟨t, ht, et⟩ := mem_term_of (fun w => w.bp) hc
  have hr := (weightConIds_facts (weightVariables bs nw) n2).2.1 c hc
  have hn := h.next_le
  have := h.rowVal_own' (t := t) (by
    rw [h.lossLhs, Option.getD_some]
    exact List.mem_append_left _ (List.mem_append_right _ ht)) (by omega) x
  rw [et] at this
  rw [this, h.lossLhs, Option.getD_some, rowVal_append, rowVal_append]
  have e1 : rowVal (weightsSumToOne (weightVariables bs nw) nc).1 x c.1 = 0 := by
    apply rowVal_zero
    intro t ht
    obtain ⟨c', hc', e⟩ := mem_weightTerms ht
    have := h.range_s hc'
    omega
  have e2 : rowVal (linkLossToWeights (weightVariables bs nw) (lossVariables (interVariables ds n) (mergeFromRegion fs ds) nv)
      (mergeFromRegion fs ds) n1).1 x c.1 = 0 := by
    apply rowVal_zero
    intro t ht
    have := lt_nextAfter (mem_lossTerm ht h.known).2
    rw [← h.next2] at this
    omega
  rw [e1, e2, linkWeightsToFlow, rowVal_weightTerms _ _ _ _ hc]
  simp

theorem val_loss (h : LossTables m fs bs ds n nv nc n1 n2 nw) {c : Nat × String × String} (hc : c ∈ weightConIds (weightVariables bs nw) n1)
    {d : InterDef} (hd : d ∈ ds) {f : LossFn} (hf : f ∈ fs) (h1 : f.inter = d.inter) (h2 : f.link = d.link) (hk : c.2 = (d.inter, d.link))
    (x : Nat → ℚ) : (∃ t ∈ m.terms, t.cid = c.1) ∧
      rowVal m.terms x c.1 = ((weightsOf (weightVariables bs nw) c.2).map (fun w => f.fn w.bp * x w.vid)).sum := by
  have hr := (weightConIds_facts (weightVariables bs nw) n1).2.1 c hc
  obtain ⟨w0, hw0, ew0⟩ := (weightConIds_facts (weightVariables bs nw) n1).2.2.2.2 c hc
  have hn := h.next_le
  have hfr : ∀ w ∈ weightsOf (weightVariables bs nw) c.2, (mergeFromRegion fs ds).filter (fun f => decide (f.inter = w.inter ∧ f.link = w.link)) =
      [⟨f.inter, f.link, f.fn, f.share, d.fromR⟩] := by
    intro w hw
    simp only [weightsOf, List.mem_filter, decide_eq_true_eq] at hw
    have e := hw.2.trans hk
    rw [Prod.mk.injEq] at e
    rw [e.1, e.2, fr_filter h.keys hd]
    have : fs.filter (fun f => decide (f.inter = d.inter ∧ f.link = d.link)) = [f] := by
      rw [← filter_key_unique h.fkeys hf]
      apply List.filter_congr
      intro g _
      rw [h1, h2]; simp [Prod.ext_iff]
    rw [this]; rfl
  have ht : (⟨c.1, w0.vid, f.fn w0.bp⟩ : Term) ∈ (linkLossToWeights (weightVariables bs nw)
      (lossVariables (interVariables ds n) (mergeFromRegion fs ds) nv) (mergeFromRegion fs ds) n1).1 := by
    simp only [linkLossToWeights, List.mem_flatMap]
    refine ⟨w0, hw0, c, List.mem_filter.2 ⟨hc, by rw [ew0]; simp⟩, ?_⟩
    rw [hfr w0 (List.mem_filter.2 ⟨hw0, by rw [ew0]; simp⟩)]
    simp
  have hl : (⟨c.1, w0.vid, f.fn w0.bp⟩ : Term) ∈ m.lossLhs.getD [] := by
    rw [h.lossLhs, Option.getD_some]
    exact List.mem_append_right _ ht
  have := h.rowVal_own' (t := ⟨c.1, w0.vid, f.fn w0.bp⟩) hl (by dsimp only; omega) x
  dsimp only at this
  refine ⟨?_, ?_⟩
  · rw [mem_terms_own h.wf.con (inTab_lhs hl), h.own_terms]
    exact ⟨_, List.mem_append_left _ hl, rfl⟩
  rw [this, h.lossLhs, Option.getD_some, rowVal_append, rowVal_append]
  have e1 : rowVal (weightsSumToOne (weightVariables bs nw) nc).1 x c.1 = 0 := by
    apply rowVal_zero
    intro t ht
    obtain ⟨c', hc', e⟩ := mem_weightTerms ht
    have := h.range_s hc'
    omega
  have e2 : rowVal (linkWeightsToFlow (weightVariables bs nw) (interVariables ds n) n2).1 x c.1 = 0 := by
    apply rowVal_zero
    intro t' ht'
    obtain ⟨c', hc', e⟩ := mem_weightTerms ht'
    have h1 := (weightConIds_facts (weightVariables bs nw) n2).2.1 c' hc'
    have h2 := lt_nextAfter (mem_lossTerm ht h.known).2
    rw [← h.next2] at h2
    dsimp only at h2
    omega
  rw [e1, e2, linkLossToWeights]
  have := rowVal_weights (weightVariables bs nw) n1 (fun w => (mergeFromRegion fs ds).filter (fun f => decide (f.inter = w.inter ∧ f.link = w.link)))
    (fun w f => f.fn w.bp) x hc
  dsimp only at this ⊢
  rw [this, zero_add, zero_add]
  apply sum_map_congr
  intro w hw
  rw [hfr w hw]
  simp

theorem obeys_row (hw : ConWF m) {lp : Lp} (hl : m.assemble = .ok lp) {x : Nat → ℚ} {k : CKey} (ho : m.obeys lp x k) {c : Nat} {ty : CType}
    {r : Rhs} (hr : (c, ty, r) ∈ m.allRows) (hk : m.rowOf k c) (ht : ∃ t ∈ m.terms, t.cid = c) :
    ty.holds (rowVal m.terms x c) (r.eval x) := by
  have h1 := lpRow_of hw hl hr ht
  exact ((lpRow hl h1).2.2 x).1 (ho _ h1 hk)

/-- what the weights of a link have to satisfy -/
def LinkOk (m : Market) (fs : List LossFn) (ws : List WeightVar) (x : Nat → ℚ) (d : InterDef) : Prop :=
  ((weightsOf ws (d.inter, d.link)).map (fun w => x w.vid)).sum = 1 ∧
  ((weightsOf ws (d.inter, d.link)).map (fun w => w.bp * x w.vid)).sum = m.flow x d.inter d.link ∧
  ∀ f ∈ fs, f.inter = d.inter → f.link = d.link →
    ((weightsOf ws (d.inter, d.link)).map (fun w => f.fn w.bp * x w.vid)).sum = m.linkLoss x d.inter d.link

theorem flow_val (h : LossTables m fs bs ds n nv nc n1 n2 nw) {v : InterVar} (hv : v ∈ interVariables ds n) (x : Nat → ℚ) :
    m.flow x v.inter v.link = x v.vid := by
  obtain ⟨i, d, hd, rfl⟩ := mem_saveIndex.1 hv
  unfold Market.flow
  rw [h.inters, Option.getD_some]
  dsimp only
  rw [flow_at h.keys hd]
  simp

theorem loss_val (h : LossTables m fs bs ds n nv nc n1 n2 nw) {v : LossVar}
    (hv : v ∈ lossVariables (interVariables ds n) (mergeFromRegion fs ds) nv) (x : Nat → ℚ) :
    m.linkLoss x v.inter v.link = x v.vid := by
  have hks := lossVariables_keys (vs := interVariables ds n) nv (lossVariablesAux_fr h.keys h.fkeys)
    (by rw [interVariables_keys]; exact h.keys)
  unfold Market.linkLoss
  rw [h.losses, Option.getD_some]
  have : (lossVariables (interVariables ds n) (mergeFromRegion fs ds) nv).filter (fun w => decide (w.inter = v.inter ∧ w.link = v.link)) = [v] := by
    rw [← filter_key_unique hks hv]
    apply List.filter_congr
    intro w _
    simp [Prod.ext_iff]
  rw [this]; simp

theorem term_of_lhs (h : LossTables m fs bs ds n nv nc n1 n2 nw) {t : Term} (ht : t ∈ m.lossLhs.getD []) {c : Nat} (hc : t.cid = c) :
    ∃ q ∈ m.terms, q.cid = c := by
  subst hc
  rw [mem_terms_own h.wf.con (inTab_lhs ht), h.own_terms]
  exact ⟨_, List.mem_append_left _ ht, rfl⟩

theorem term_sum (h : LossTables m fs bs ds n nv nc n1 n2 nw) {c : Nat × String × String} (hc : c ∈ weightConIds (weightVariables bs nw) nc) :
    ∃ q ∈ m.terms, q.cid = c.1 := by
  obtain ⟨t, ht, et⟩ := mem_term_of (fun _ => 1) hc
  refine h.term_of_lhs ?_ et
  rw [h.lossLhs, Option.getD_some]
  exact List.mem_append_left _ (List.mem_append_left _ ht)

theorem term_flow (h : LossTables m fs bs ds n nv nc n1 n2 nw) {c : Nat × String × String} (hc : c ∈ weightConIds (weightVariables bs nw) n2) :
    ∃ q ∈ m.terms, q.cid = c.1 := by
  obtain ⟨t, ht, et⟩ := mem_term_of (fun w => w.bp) hc
  refine h.term_of_lhs ?_ et
  rw [h.lossLhs, Option.getD_some]
  exact List.mem_append_left _ (List.mem_append_right _ ht)

theorem obeys_iff (h : LossTables m fs bs ds n nv nc n1 n2 nw) {lp : Lp} (hl : m.assemble = .ok lp) {x : Nat → ℚ} :
    m.obeys lp x .interpWeights ↔ ∀ d ∈ ds, pointsOf bs d.inter d.link ≠ [] → LinkOk m fs (weightVariables bs nw) x d := by
  have hrow : ∀ {c : Nat × String × String}, c ∈ weightConIds (weightVariables bs nw) nc →
      (c.1, CType.eq, Rhs.const 1) ∈ m.allRows ∧ m.rowOf .interpWeights c.1 := by
    intro c hc
    have hm : (⟨c.1, .eq, 1, none, none⟩ : Row) ∈ (weightsSumToOne (weightVariables bs nw) nc).2 := by
      simp only [weightsSumToOne, List.mem_map]; exact ⟨c, hc, rfl⟩
    refine ⟨?_, Or.inl ⟨_, h.rows, _, hm, rfl⟩⟩
    unfold Market.allRows
    refine List.mem_append_left _ (List.mem_append_left _ ?_)
    rw [List.mem_map]
    exact ⟨_, List.mem_flatMap.2 ⟨_, Dict.mem_of_get? h.rows, hm⟩, rfl⟩
  have hdyn : ∀ {r : DynRow}, r ∈ m.dynRhs.getD [] → (r.cid, r.ctype, Rhs.var r.rhsVid) ∈ m.allRows ∧ m.rowOf .interpWeights r.cid := by
    intro r hr
    refine ⟨?_, Or.inr (Or.inr ⟨rfl, _, hr, rfl⟩)⟩
    unfold Market.allRows
    refine List.mem_append_right _ ?_
    rw [List.mem_map]
    exact ⟨_, hr, rfl⟩
  constructor
  · intro ho d hd hb
    obtain ⟨b, hb⟩ := List.exists_mem_of_ne_nil _ hb
    simp only [pointsOf, List.mem_filter, decide_eq_true_eq] at hb
    obtain ⟨hb, b1, b2⟩ := hb
    obtain ⟨i, _, hv⟩ := mem_saveIndex' hd n (fun i d =>
      ({ inter := d.inter, link := d.link, vid := i, lb := d.min, ub := d.max, gcf := d.gcf } : InterVar))
    refine ⟨?_, ?_, ?_⟩
    · obtain ⟨c, hc, e⟩ := link_ids (nw := nw) hb b1 b2 nc
      have := obeys_row h.wf.con hl ho (hrow hc).1 (hrow hc).2 (h.term_sum hc)
      rw [h.val_sum hc, e] at this
      exact this
    · obtain ⟨c, hc, e⟩ := link_ids (nw := nw) hb b1 b2 n2
      have hr : (⟨c.1, .eq, n + i⟩ : DynRow) ∈ m.dynRhs.getD [] := by
        rw [h.dyn, Option.getD_some]
        refine List.mem_append_left _ ?_
        simp only [linkWeightsToFlow, List.mem_flatMap, List.mem_map, List.mem_filter, decide_eq_true_eq]
        exact ⟨c, hc, _, ⟨hv, by rw [e]; exact ⟨rfl, rfl⟩⟩, rfl⟩
      have := obeys_row h.wf.con hl ho (hdyn hr).1 (hdyn hr).2 (h.term_flow hc)
      rw [h.val_flow hc, e] at this
      rw [h.flow_val hv]
      exact this
    · intro f hf f1 f2
      obtain ⟨c, hc, e⟩ := link_ids (nw := nw) hb b1 b2 n1
      obtain ⟨ht, hval⟩ := h.val_loss hc hd hf f1 f2 e x
      have hfr : (⟨f.inter, f.link, f.fn, f.share, d.fromR⟩ : LossFnR) ∈ mergeFromRegion fs ds := by
        have := fr_filter (fs := fs) h.keys hd
        have hm : (⟨f.inter, f.link, f.fn, f.share, d.fromR⟩ : LossFnR) ∈ (mergeFromRegion fs ds).filter
            (fun f => decide (f.inter = d.inter ∧ f.link = d.link)) := by
          rw [this, List.mem_map]
          exact ⟨f, List.mem_filter.2 ⟨hf, by simpa using ⟨f1, f2⟩⟩, rfl⟩
        exact List.mem_of_mem_filter hm
      obtain ⟨l, hlv, l1, l2⟩ := mem_lossVariables_of (n := nv) hv hfr f1 f2
      have hr : (⟨c.1, .eq, l.vid⟩ : DynRow) ∈ m.dynRhs.getD [] := by
        rw [h.dyn, Option.getD_some]
        refine List.mem_append_right _ ?_
        simp only [linkLossToWeights, List.mem_flatMap, List.mem_map, List.mem_filter, decide_eq_true_eq]
        exact ⟨c, hc, _, ⟨hlv, by rw [e]; exact ⟨l1, l2⟩⟩, rfl⟩
      have := obeys_row h.wf.con hl ho (hdyn hr).1 (hdyn hr).2 ht
      rw [hval, e] at this
      have e2 := h.loss_val hlv x
      rw [l1, l2] at e2
      dsimp only at e2
      rw [e2]
      exact this
  · intro hall r hr hk
    have hlr := lpRow hl hr
    rw [hlr.2.2]
    have key : ∀ {n0 : Nat} {c : Nat × String × String}, c ∈ weightConIds (weightVariables bs nw) n0 →
        ∃ d ∈ ds, c.2 = (d.inter, d.link) ∧ LinkOk m fs (weightVariables bs nw) x d := by
      intro n0 c hc
      obtain ⟨w, hw, e⟩ := (weightConIds_facts (weightVariables bs nw) n0).2.2.2.2 c hc
      obtain ⟨j, b, hb, rfl⟩ := mem_saveIndex.1 hw
      obtain ⟨d, hd, d1, d2⟩ := h.known b (List.mem_of_getElem? hb)
      dsimp only at e
      refine ⟨d, hd, by rw [e, d1, d2], hall d hd ?_⟩
      apply List.ne_nil_of_mem (a := b)
      exact List.mem_filter.2 ⟨List.mem_of_getElem? hb, by simpa using ⟨d1.symm, d2.symm⟩⟩
    rcases hk with ⟨rows, h1, q, hq, e⟩ | ⟨rows, h1, q, hq, e⟩ | ⟨_, q, hq, e⟩
    · rw [h.rows] at h1
      injection h1 with h1
      subst h1
      simp only [weightsSumToOne, List.mem_map] at hq
      obtain ⟨c, hc, rfl⟩ := hq
      dsimp only at e
      have h2 := hlr.2.1
      rw [← e] at h2 ⊢
      obtain ⟨e1, e2⟩ := unique_row h.wf.con h2 (hrow hc).1
      obtain ⟨d, hd, ed, ok⟩ := key hc
      rw [e1, e2, h.val_sum hc, ed]
      exact ok.1
    · have := h.wf.con.mktMkt _ (Dict.mem_of_get? h1)
      simp [CKey.isMarket] at this
    · have h2 := hlr.2.1
      obtain ⟨h3, _⟩ := hdyn hq
      rw [e] at h3
      obtain ⟨e1, e2⟩ := unique_row h.wf.con h2 h3
      rw [e1, e2]
      rw [h.dyn, Option.getD_some] at hq
      rcases List.mem_append.1 hq with hq | hq
      · simp only [linkWeightsToFlow, List.mem_flatMap, List.mem_map, List.mem_filter, decide_eq_true_eq] at hq
        obtain ⟨c, hc, v, ⟨hv, v1, v2⟩, rfl⟩ := hq
        dsimp only at e
        obtain ⟨d, hd, ed, ok⟩ := key hc
        rw [← e, h.val_flow hc, ed]
        have := ok.2.1
        show _ = x v.vid
        rw [this, ← h.flow_val hv x, v1, v2, ed]
      · simp only [linkLossToWeights, List.mem_flatMap, List.mem_map, List.mem_filter, decide_eq_true_eq] at hq
        obtain ⟨c, hc, v, ⟨hv, v1, v2⟩, rfl⟩ := hq
        dsimp only at e
        obtain ⟨d, hd, ed, ok⟩ := key hc
        have hv' := hv
        unfold lossVariables lossVariablesAux at hv'
        simp only [List.mem_map, List.mem_flatMap, List.mem_filter, decide_eq_true_eq] at hv'
        obtain ⟨_, ⟨v', _, g, ⟨hg, g1, g2⟩, rfl⟩, rfl⟩ := hv'
        unfold mergeFromRegion at hg
        simp only [List.mem_map, List.mem_flatMap, List.mem_filter, decide_eq_true_eq] at hg
        obtain ⟨f, hf, d', ⟨_, _⟩, rfl⟩ := hg
        dsimp only at g1 g2 v1 v2 hv
        rw [ed] at v1 v2
        obtain ⟨_, hval⟩ := h.val_loss hc hd hf (g1.trans v1) (g2.trans v2) ed x
        rw [← e, hval, ed]
        show _ = x v'.vid
        rw [ok.2.2 f hf (g1.trans v1) (g2.trans v2), ← h.loss_val hv x, v1, v2]

end LossTables

/-! ### interpolation -/

theorem sum_nonzero {α : Type} (l : List α) (p : α → Bool) (f : α → ℚ) (h : ∀ a ∈ l, p a = false → f a = 0) :
    (l.map f).sum = ((l.filter p).map f).sum := by
  induction l with
  | nil => rfl
  | cons a l ih =>
    have ih' := ih (fun b hb => h b (List.mem_cons_of_mem _ hb))
    by_cases hp : p a = true
    · rw [List.filter_cons, if_pos hp, List.map_cons, List.map_cons, List.sum_cons, List.sum_cons, ih']
    · rw [List.filter_cons, if_neg hp, List.map_cons, List.sum_cons, ih', h a (by simp) (by simpa using hp), zero_add]

theorem interp_two (fn : ℚ → ℚ) (a b xa xb : ℚ) (h : xa + xb = 1) (ha : 0 ≤ xa) (hb : 0 ≤ xb) (hab : a < b) :
    a ≤ a * xa + b * xb ∧ a * xa + b * xb ≤ b ∧ fn a * xa + fn b * xb = lineAt a (fn a) b (fn b) (a * xa + b * xb) := by
  have e : xa = 1 - xb := by linarith
  subst e
  refine ⟨?_, ?_, ?_⟩
  · nlinarith
  · nlinarith
  · rw [lineAt, if_neg (by linarith)]
    have : b - a ≠ 0 := by linarith
    have e2 : a * (1 - xb) + b * xb - a = (b - a) * xb := by ring
    rw [e2, div_mul_eq_mul_div, mul_comm (b - a) xb, ← mul_assoc, mul_div_assoc, div_self this]
    ring

theorem interp_of_weights (fn : ℚ → ℚ) (x : Nat → ℚ) (l : List WeightVar) (hn : (l.map WeightVar.seg).Nodup)
    (hinc : ∀ a ∈ l, ∀ b ∈ l, a.seg < b.seg → a.bp < b.bp) (h0 : ∀ w ∈ l, 0 ≤ x w.vid)
    (hs : Sos2 x (l.map (fun w => (w.vid, w.seg)))) {t v : ℚ} (h1 : (l.map (fun w => x w.vid)).sum = 1)
    (h2 : (l.map (fun w => w.bp * x w.vid)).sum = t) (h3 : (l.map (fun w => fn w.bp * x w.vid)).sum = v) :
    Interpolates fn (l.map WeightVar.bp) t v := by
  have hsos : ∀ a ∈ l, ∀ b ∈ l, x a.vid ≠ 0 → x b.vid ≠ 0 → ∀ c ∈ l, ¬ (a.seg < c.seg ∧ c.seg < b.seg) := by
    intro a ha b hb xa xb c hc
    exact hs (a.vid, a.seg) (List.mem_map.2 ⟨a, ha, rfl⟩) (b.vid, b.seg) (List.mem_map.2 ⟨b, hb, rfl⟩) xa xb (c.vid, c.seg)
      (List.mem_map.2 ⟨c, hc, rfl⟩)
  have hbet : ∀ a ∈ l, ∀ b ∈ l, x a.vid ≠ 0 → x b.vid ≠ 0 → ∀ c ∈ l.map WeightVar.bp, ¬ (a.bp < c ∧ c < b.bp) := by
    intro a ha b hb xa xb c hc ⟨c1, c2⟩
    obtain ⟨w, hw, rfl⟩ := List.mem_map.1 hc
    refine hsos a ha b hb xa xb w hw ⟨?_, ?_⟩
    · rcases lt_trichotomy a.seg w.seg with h | h | h
      · exact h
      · have := List.inj_on_of_nodup_map hn ha hw h; subst this; exact absurd c1 (lt_irrefl _)
      · exact absurd (hinc w hw a ha h) (by linarith)
    · rcases lt_trichotomy w.seg b.seg with h | h | h
      · exact h
      · have := List.inj_on_of_nodup_map hn hw hb h; subst this; exact absurd c2 (lt_irrefl _)
      · exact absurd (hinc b hb w hw h) (by linarith)
  rw [sum_nonzero l (fun w => decide (x w.vid ≠ 0))] at h1 h2 h3
  rotate_left
  · intro w _ hw
    have : x w.vid = 0 := by simpa using hw
    rw [this, mul_zero]
  · intro w _ hw
    have : x w.vid = 0 := by simpa using hw
    rw [this, mul_zero]
  · intro w _ hw
    simpa using hw
  have hmem : ∀ w ∈ l.filter (fun w => decide (x w.vid ≠ 0)), w ∈ l ∧ x w.vid ≠ 0 := by
    intro w hw; simpa using hw
  have hnd : ((l.filter (fun w => decide (x w.vid ≠ 0))).map WeightVar.seg).Nodup :=
    hn.sublist (List.filter_sublist.map _)
  generalize l.filter (fun w => decide (x w.vid ≠ 0)) = L at *
  match L, hmem, hnd, h1, h2, h3 with
  | [], _, _, h1, _, _ => simp at h1
  | [a], hm, _, h1, h2, h3 =>
    simp only [List.map_cons, List.map_nil, List.sum_cons, List.sum_nil, add_zero] at h1 h2 h3
    rw [h1, mul_one] at h2 h3
    obtain ⟨ha, xa⟩ := hm a (by simp)
    refine ⟨a.bp, List.mem_map.2 ⟨a, ha, rfl⟩, a.bp, List.mem_map.2 ⟨a, ha, rfl⟩, by rw [h2], by rw [h2], hbet a ha a ha xa xa, ?_⟩
    rw [lineAt, if_pos rfl, h3]
  | [a, b], hm, hnd, h1, h2, h3 =>
    simp only [List.map_cons, List.map_nil, List.sum_cons, List.sum_nil, add_zero] at h1 h2 h3
    obtain ⟨ha, xa⟩ := hm a (by simp)
    obtain ⟨hb, xb⟩ := hm b (by simp)
    have hne : a.seg ≠ b.seg := by simp at hnd; exact hnd
    rcases lt_or_gt_of_ne hne with hlt | hlt
    · obtain ⟨e1, e2, e3⟩ := interp_two fn a.bp b.bp (x a.vid) (x b.vid) h1 (h0 a ha) (h0 b hb) (hinc a ha b hb hlt)
      subst h2; subst h3
      exact ⟨a.bp, List.mem_map.2 ⟨a, ha, rfl⟩, b.bp, List.mem_map.2 ⟨b, hb, rfl⟩, e1, e2, hbet a ha b hb xa xb, e3⟩
    · obtain ⟨e1, e2, e3⟩ := interp_two fn b.bp a.bp (x b.vid) (x a.vid) (by linarith) (h0 b hb) (h0 a ha) (hinc b hb a ha hlt)
      rw [add_comm] at e1 e2 e3
      rw [add_comm (b.bp * x b.vid)] at e3
      subst h2; subst h3
      exact ⟨b.bp, List.mem_map.2 ⟨b, hb, rfl⟩, a.bp, List.mem_map.2 ⟨a, ha, rfl⟩, e1, e2, hbet b hb a ha xb xa, e3⟩
  | a :: b :: c :: L, hm, hnd, _, _, _ =>
    exfalso
    obtain ⟨ha, xa⟩ := hm a (by simp)
    obtain ⟨hb, xb⟩ := hm b (by simp)
    obtain ⟨hc, xc⟩ := hm c (by simp)
    simp only [List.map_cons, List.nodup_cons, List.mem_cons, not_or] at hnd
    obtain ⟨⟨n1, n2, _⟩, ⟨n3, _⟩, _⟩ := hnd
    have := hsos a ha b hb xa xb c hc
    have := hsos b hb a ha xb xa c hc
    have := hsos a ha c hc xa xc b hb
    have := hsos c hc a ha xc xa b hb
    have := hsos b hb c hc xb xc a ha
    have := hsos c hc b hb xc xb a ha
    omega

theorem mem_groupBy {α κ : Type} [DecidableEq κ] {key : α → κ} {l : List α} {a : α} (h : a ∈ l) :
    l.filter (fun b => decide (key b = key a)) ∈ groupBy key l := by
  unfold groupBy
  rw [List.mem_map]
  exact ⟨key a, List.mem_dedup.2 (List.mem_map_of_mem h), rfl⟩

/-- the break point of a weight -/
def WeightVar.pt (w : WeightVar) : BreakPt := ⟨w.inter, w.link, w.seg, w.bp⟩

theorem weightsOf_pt (bs : List BreakPt) (k : Nat) (i l : String) :
    (LossTables.weightsOf (weightVariables bs k) (i, l)).map WeightVar.pt = pointsOf bs i l := by
  have h1 : (weightVariables bs k).map WeightVar.pt = bs := by
    rw [weightVariables, map_saveIndex]
    have : (fun (i : Nat) (a : BreakPt) => WeightVar.pt { inter := a.inter, link := a.link, seg := a.seg, bp := a.bp, vid := i }) =
      fun (_ : Nat) (a : BreakPt) => id a := by funext i a; rfl
    rw [this, saveIndex_vals, List.map_id]
  conv_rhs => rw [← h1]
  unfold pointsOf LossTables.weightsOf
  rw [List.filter_map]
  congr 1
  apply List.filter_congr
  intro w _
  simp only [Function.comp]
  rw [decide_eq_decide]
  simp [WeightVar.pt]

theorem LossTables.interpolates {m : Market} {fs : List LossFn} {bs : List BreakPt} {ds : List InterDef} {n nv nc n1 n2 nw : Nat}
    (h : LossTables m fs bs ds n nv nc n1 n2 nw) {lp : Lp} (hl : m.assemble = .ok lp) {x : Nat → ℚ} (hx : Feasible lp x) {f : LossFn} (hf : f ∈ fs)
    (hd : ∃ d ∈ ds, d.inter = f.inter ∧ d.link = f.link) (hp : pointsOf bs f.inter f.link ≠ []) (hinc : Increasing (pointsOf bs f.inter f.link)) :
    Interpolates f.fn ((pointsOf bs f.inter f.link).map BreakPt.bp) (m.flow x f.inter f.link) (m.linkLoss x f.inter f.link) := by
  obtain ⟨d, hd, d1, d2⟩ := hd
  have ok := (h.obeys_iff hl).1 (hx.obeys m _) d hd (by rw [d1, d2]; exact hp)
  obtain ⟨hv, _, h2, _⟩ := assemble_parts hl
  have hpt := weightsOf_pt bs nw d.inter d.link
  rw [d1, d2] at hpt
  have e : (pointsOf bs f.inter f.link).map BreakPt.bp = (LossTables.weightsOf (weightVariables bs nw) (f.inter, f.link)).map WeightVar.bp := by
    rw [← hpt, List.map_map]; rfl
  have hin : ∀ w ∈ LossTables.weightsOf (weightVariables bs nw) (f.inter, f.link), w.pt ∈ pointsOf bs f.inter f.link := by
    intro w hw; rw [← hpt]; exact List.mem_map_of_mem hw
  rw [e]
  unfold LossTables.LinkOk at ok
  rw [d1, d2] at ok
  refine interp_of_weights f.fn x _ ?_ ?_ ?_ ?_ ok.1 ok.2.1 (ok.2.2 f hf rfl rfl)
  · have : (LossTables.weightsOf (weightVariables bs nw) (f.inter, f.link)).map WeightVar.seg = (pointsOf bs f.inter f.link).map BreakPt.seg := by
      rw [← hpt, List.map_map]; rfl
    rw [this]
    have h3 : ((pointsOf bs f.inter f.link).map (fun b => (b.inter, b.link, b.seg))).Nodup :=
      h.bkeys.sublist (List.filter_sublist.map _)
    apply List.Nodup.map_on _ (List.Nodup.of_map _ h3)
    intro a ha b hb hab
    apply List.inj_on_of_nodup_map h3 ha hb
    simp only [pointsOf, List.mem_filter, decide_eq_true_eq] at ha hb
    rw [ha.2.1, ha.2.2, hb.2.1, hb.2.2, hab]
  · intro a ha b hb hab
    exact hinc a.pt (hin a ha) b.pt (hin b hb) hab
  · intro w hw
    have hw' : w ∈ m.weights.getD [] := by rw [h.weights]; exact List.mem_of_mem_filter hw
    have := hx.vars ⟨w.vid, 0, some 1⟩ (by
      rw [hv]; unfold Market.allVars
      refine List.mem_append_left _ (List.mem_append_right _ (List.mem_map.2 ⟨w, hw', rfl⟩)))
    exact this.1
  · apply hx.sos2
    rw [h2, Market.sos2Groups, h.weights, Option.getD_some, List.mem_map]
    refine ⟨LossTables.weightsOf (weightVariables bs nw) (f.inter, f.link), ?_, rfl⟩
    obtain ⟨b, hb⟩ := List.exists_mem_of_ne_nil _ hp
    rw [← hpt, List.mem_map] at hb
    obtain ⟨w, hw, _⟩ := hb
    unfold LossTables.weightsOf at hw ⊢
    rw [List.mem_filter, decide_eq_true_eq] at hw
    rw [← hw.2]
    exact mem_groupBy hw.1

end Verif
