import Verif.Proofs.Sim
import Verif.Spec.Reads

/-! Running histories on two markets that agree up to renaming of ids. -/

namespace Verif

section
variable {Q : Part → Prop} {K D : CKey → Prop} {f g : Nat → Nat} {m M : Market}

theorem linkLoss_nonempty (bs : List BreakPt) (fs : List LossFnR) (lv : List LossVar) (n c : Nat) :
    (linkLossToWeights (weightVariables bs n) lv fs c).1 ≠ [] ↔
      ∃ b ∈ bs, ∃ f ∈ fs, f.inter = b.inter ∧ f.link = b.link := by
  constructor
  · intro h
    obtain ⟨t, ht⟩ := List.exists_mem_of_ne_nil _ h
    simp only [linkLossToWeights, List.mem_flatMap, List.mem_map, List.mem_filter, decide_eq_true_eq] at ht
    obtain ⟨w, hw, _, _, f, ⟨hf, h1, h2⟩, _⟩ := ht
    obtain ⟨i, b, hb, rfl⟩ := mem_saveIndex.1 hw
    exact ⟨b, List.mem_of_getElem? hb, f, hf, h1, h2⟩
  · rintro ⟨b, hb, f, hf, h1, h2⟩ h
    obtain ⟨i, hi⟩ := List.mem_iff_getElem?.1 hb
    have hw : (⟨b.inter, b.link, b.seg, b.bp, n + i⟩ : WeightVar) ∈ weightVariables bs n := mem_saveIndex.2 ⟨i, b, hi, rfl⟩
    obtain ⟨d, hd, hd2⟩ := (weightConIds_facts (weightVariables bs n) c).2.2.2.1 _ hw
    rw [List.eq_nil_iff_forall_not_mem] at h
    apply h ⟨d.1, n + i, f.fn b.bp⟩
    simp only [linkLossToWeights, List.mem_flatMap, List.mem_map, List.mem_filter, decide_eq_true_eq]
    refine ⟨_, hw, d, ⟨hd, ?_⟩, f, ⟨hf, h1, h2⟩, rfl⟩
    rw [hd2]; exact ⟨rfl, rfl⟩

/-- the body of `set_interconnector_losses` after the checks -/
def lossCore (m : Market) (fs : List LossFn) (bs : List BreakPt) (ds : List InterDef) (vs : List InterVar)
    (im : List InterMap) : Res :=
  let m0 := { m with lossShares := some (fs.map (fun f => (f.inter, f.link, f.share))) }
  let fr := mergeFromRegion fs ds
  let lv := lossVariables vs fr m.nextVar
  let lm := lossMap vs im fr m.nextVar
  let ws := weightVariables bs (nextAfter (lv.map LossVar.vid))
  let s := weightsSumToOne ws m.nextCon
  let ll := linkLossToWeights ws lv fr (nextAfter (s.2.map Row.cid))
  let lf := linkWeightsToFlow ws vs (nextAfter (ll.2.map DynRow.cid))
  let dyn := lf.2 ++ ll.2
  if ll.1.isEmpty then (m0, some .valueError)
  else ({ m0 with losses := some lv, lossReg := some lm, weights := some ws,
                  lossLhs := some (s.1 ++ lf.1 ++ ll.1),
                  conRhs := m0.conRhs.set .interpWeights s.2,
                  dynRhs := some dyn,
                  nextVar := nextAfter (lv.map LossVar.vid ++ ws.map WeightVar.vid),
                  nextCon := nextAfter (s.2.map Row.cid ++ dyn.map DynRow.cid) }, none)

theorem setLosses_some (m : Market) (fs : List LossFn) (bs : List BreakPt) {ds : List InterDef} {vs : List InterVar}
    {im : List InterMap} (h1 : m.dirs = some ds) (h2 : m.inters = some vs) (h3 : m.interReg = some im) :
    m.setLosses fs bs = if !lossInputsOk fs bs then (m, some .validation) else lossCore m fs bs ds vs im := by
  cases m
  simp only at h1 h2 h3
  subst h1 h2 h3
  rfl

theorem setLosses_none (m : Market) (fs : List LossFn) (bs : List BreakPt) (h1 : m.dirs = none) :
    m.setLosses fs bs = if !lossInputsOk fs bs then (m, some .validation)
      else ({ m with lossShares := some (fs.map (fun f => (f.inter, f.link, f.share))) }, some .attributeError) := by
  cases m
  simp only at h1
  subst h1
  rfl

theorem lossCore_sim (h : SimG Q K D f g m M) (fs : List LossFn) (bs : List BreakPt) (ds : List InterDef) (n0 : Nat) :
    SimGR Q K D f g (lossCore m fs bs ds (interVariables ds n0) (interMap ds n0))
      (lossCore M fs bs ds ((interVariables ds n0).map (InterVar.ren f)) ((interMap ds n0).map (InterMap.ren f))) := by
  unfold lossCore
  dsimp only
  by_cases hE : ∃ b ∈ bs, ∃ f ∈ mergeFromRegion fs ds, f.inter = b.inter ∧ f.link = b.link
  · have e1 := (linkLoss_nonempty bs (mergeFromRegion fs ds)
        (lossVariables (interVariables ds n0) (mergeFromRegion fs ds) m.nextVar)
        (nextAfter ((lossVariables (interVariables ds n0) (mergeFromRegion fs ds) m.nextVar).map LossVar.vid))
        (nextAfter ((weightsSumToOne (weightVariables bs (nextAfter ((lossVariables (interVariables ds n0) (mergeFromRegion fs ds) m.nextVar).map LossVar.vid))) m.nextCon).2.map Row.cid))).2 hE
    have e2 := (linkLoss_nonempty bs (mergeFromRegion fs ds)
        (lossVariables ((interVariables ds n0).map (InterVar.ren f)) (mergeFromRegion fs ds) M.nextVar)
        (nextAfter ((lossVariables ((interVariables ds n0).map (InterVar.ren f)) (mergeFromRegion fs ds) M.nextVar).map LossVar.vid))
        (nextAfter ((weightsSumToOne (weightVariables bs (nextAfter ((lossVariables ((interVariables ds n0).map (InterVar.ren f)) (mergeFromRegion fs ds) M.nextVar).map LossVar.vid))) M.nextCon).2.map Row.cid))).2 hE
    rw [if_neg (by simpa [List.isEmpty_iff] using e1), if_neg (by simpa [List.isEmpty_iff] using e2)]
    obtain ⟨b, hb, fl, hfl, hm1, hm2⟩ := hE
    -- a link of the break point
    have hd : ∃ v ∈ interVariables ds n0, v.inter = b.inter ∧ v.link = b.link := by
      simp only [mergeFromRegion, List.mem_flatMap, List.mem_map, List.mem_filter, decide_eq_true_eq] at hfl
      obtain ⟨f0, _, d, ⟨hd, hd1, hd2⟩, rfl⟩ := hfl
      obtain ⟨i, hi⟩ := List.mem_iff_getElem?.1 hd
      exact ⟨_, mem_saveIndex.2 ⟨i, d, hi, rfl⟩, hd1.trans hm1, hd2.trans hm2⟩
    obtain ⟨v, hv, hv1, hv2⟩ := hd
    generalize hfr : mergeFromRegion fs ds = fr at hfl ⊢
    generalize hvs : interVariables ds n0 = vs at hv ⊢
    clear e1 e2
    have hlv : ∃ l ∈ lossVariables vs fr m.nextVar, l.inter = b.inter ∧ l.link = b.link := by
      obtain ⟨i, hi⟩ := List.mem_iff_getElem?.1 hv
      refine ⟨⟨v.inter, v.link, m.nextVar + i, -1 * Max.max |v.lb| |v.ub|, Max.max |v.lb| |v.ub|⟩, ?_, hv1, hv2⟩
      simp only [lossVariables, lossVariablesAux, List.map_flatMap, List.map_map, List.mem_flatMap, List.mem_map,
        List.mem_filter, decide_eq_true_eq]
      exact ⟨_, mem_saveIndex.2 ⟨i, v, hi, rfl⟩, fl, ⟨hfl, hm1.trans hv1.symm, hm2.trans hv2.symm⟩, rfl⟩
    have hlge : ∀ i ∈ (lossVariables vs fr m.nextVar).map LossVar.vid, m.nextVar ≤ i := by
      intro i hi
      obtain ⟨l, hl, rfl⟩ := List.mem_map.1 hi
      simp only [lossVariables, lossVariablesAux, List.map_flatMap, List.map_map, List.mem_flatMap, List.mem_map] at hl
      obtain ⟨v', hv', _, _, rfl⟩ := hl
      obtain ⟨j, r, _, h5, _, rfl⟩ := mem_saveIndex_lt hv'
      exact h5
    have hlne : (lossVariables vs fr m.nextVar).map LossVar.vid ≠ [] := by
      obtain ⟨l, hl, _⟩ := hlv
      intro e; rw [List.map_eq_nil_iff] at e; rw [e] at hl; cases hl
    rw [lossVariables_ren h.vars, lossMap_ren h.vars]
    generalize lossVariables vs fr m.nextVar = lv at hlv hlge hlne ⊢
    have E1 : (lv.map (LossVar.ren f)).map LossVar.vid = (lv.map LossVar.vid).map f := by
      simp only [List.map_map]; rfl
    have R1 := nextAfter_ren h.vars hlne hlge
    rw [E1, weightVariables_ren R1]
    have hwge : ∀ i ∈ (weightVariables bs (nextAfter (lv.map LossVar.vid))).map WeightVar.vid, m.nextVar ≤ i := by
      intro i hi
      obtain ⟨w, hw, rfl⟩ := List.mem_map.1 hi
      obtain ⟨j, r, _, h5, _, rfl⟩ := mem_saveIndex_lt hw
      exact le_trans (le_nextAfter hlge hlne) h5
    have hwb : ∃ w ∈ weightVariables bs (nextAfter (lv.map LossVar.vid)), w.inter = b.inter ∧ w.link = b.link := by
      obtain ⟨i, hi⟩ := List.mem_iff_getElem?.1 hb
      exact ⟨_, mem_saveIndex.2 ⟨i, b, hi, rfl⟩, rfl, rfl⟩
    generalize weightVariables bs (nextAfter (lv.map LossVar.vid)) = ws at hwge hwb ⊢
    obtain ⟨w, hw, hw1, hw2⟩ := hwb
    have RV : Ren f (nextAfter (lv.map LossVar.vid ++ ws.map WeightVar.vid))
        (nextAfter ((lv.map LossVar.vid).map f ++ (ws.map (WeightVar.ren f)).map WeightVar.vid)) := by
      have : (lv.map LossVar.vid).map f ++ (ws.map (WeightVar.ren f)).map WeightVar.vid =
          (lv.map LossVar.vid ++ ws.map WeightVar.vid).map f := by
        simp only [List.map_append, List.map_map]; rfl
      rw [this]
      apply nextAfter_ren h.vars
      · simp only [ne_eq, List.append_eq_nil_iff, not_and]; intro e; exact absurd e hlne
      · intro i hi
        rcases List.mem_append.1 hi with hi | hi
        · exact hlge i hi
        · exact hwge i hi
    rw [weightsSum_ren (f := f) h.cons]
    have hsge : ∀ r ∈ (weightsSumToOne ws m.nextCon).2, m.nextCon ≤ r.cid := by
      intro r hr
      simp only [weightsSumToOne, List.mem_map] at hr
      obtain ⟨c, hc, rfl⟩ := hr
      exact (weightConIds_facts ws m.nextCon).2.1 c hc
    have hsne : (weightsSumToOne ws m.nextCon).2 ≠ [] := by
      obtain ⟨c, hc, _⟩ := (weightConIds_facts ws m.nextCon).2.2.2.1 w hw
      intro e
      simp only [weightsSumToOne, List.map_eq_nil_iff] at e
      rw [e] at hc; cases hc
    have R2 := rows_next h.cons hsge hsne
    have hs0 : m.nextCon ≤ nextAfter ((weightsSumToOne ws m.nextCon).2.map Row.cid) :=
      (nextAfter_rows_bounds hsge hsne).1
    rw [linkLoss_ren R2]
    have hdge : ∀ i ∈ (linkLossToWeights ws lv fr (nextAfter ((weightsSumToOne ws m.nextCon).2.map Row.cid))).2.map DynRow.cid,
        nextAfter ((weightsSumToOne ws m.nextCon).2.map Row.cid) ≤ i := by
      intro i hi
      obtain ⟨r, hr, rfl⟩ := List.mem_map.1 hi
      simp only [linkLossToWeights, List.mem_flatMap, List.mem_map] at hr
      obtain ⟨c, hc, _, _, rfl⟩ := hr
      exact (weightConIds_facts ws _).2.1 c hc
    have hdne : (linkLossToWeights ws lv fr (nextAfter ((weightsSumToOne ws m.nextCon).2.map Row.cid))).2.map DynRow.cid ≠ [] := by
      obtain ⟨c, hc, hc2⟩ := (weightConIds_facts ws (nextAfter ((weightsSumToOne ws m.nextCon).2.map Row.cid))).2.2.2.1 w hw
      obtain ⟨l, hl, hl1, hl2⟩ := hlv
      apply List.ne_nil_of_mem (a := c.1)
      refine List.mem_map.2 ⟨⟨c.1, .eq, l.vid⟩, ?_, rfl⟩
      simp only [linkLossToWeights, List.mem_flatMap, List.mem_map, List.mem_filter, decide_eq_true_eq]
      refine ⟨c, hc, l, ⟨hl, ?_, ?_⟩, rfl⟩
      · rw [hc2]; exact hl1.trans hw1.symm
      · rw [hc2]; exact hl2.trans hw2.symm
    have E3 : ∀ d : List DynRow, (d.map (DynRow.ren f g)).map DynRow.cid = (d.map DynRow.cid).map g := by
      intro d; simp only [List.map_map]; rfl
    have R3 := nextAfter_ren R2 hdne hdge
    have hd0 := le_nextAfter hdge hdne
    dsimp only
    rw [E3, linkFlow_ren R3]
    have hfge : ∀ i ∈ (linkWeightsToFlow ws vs (nextAfter ((linkLossToWeights ws lv fr (nextAfter ((weightsSumToOne ws m.nextCon).2.map Row.cid))).2.map DynRow.cid))).2.map DynRow.cid,
        m.nextCon ≤ i := by
      intro i hi
      obtain ⟨r, hr, rfl⟩ := List.mem_map.1 hi
      simp only [linkWeightsToFlow, List.mem_flatMap, List.mem_map] at hr
      obtain ⟨c, hc, _, _, rfl⟩ := hr
      have := (weightConIds_facts ws _).2.1 c hc
      dsimp only
      omega
    generalize linkWeightsToFlow ws vs (nextAfter ((linkLossToWeights ws lv fr (nextAfter ((weightsSumToOne ws m.nextCon).2.map Row.cid))).2.map DynRow.cid)) = lf at hfge ⊢
    generalize linkLossToWeights ws lv fr (nextAfter ((weightsSumToOne ws m.nextCon).2.map Row.cid)) = ll at hdge hdne ⊢
    generalize weightsSumToOne ws m.nextCon = s at *
    refine ⟨{ h with lossShares := fun _ => rfl, losses := fun _ => rfl, lossReg := fun _ => rfl, weights := fun _ => rfl, lossLhs := fun _ => ?_,
                     conRhs := get?_set_ren h.conRhs _ _, dynRhs := fun _ => ?_, vars := RV, cons := ?_ }, rfl⟩
    · simp
    · simp
    · have : (s.2.map (Row.ren g)).map Row.cid ++ (lf.2.map (DynRow.ren f g) ++ ll.2.map (DynRow.ren f g)).map DynRow.cid =
          (s.2.map Row.cid ++ (lf.2 ++ ll.2).map DynRow.cid).map g := by
        simp only [List.map_append, List.map_map]; rfl
      dsimp only
      rw [this]
      apply nextAfter_ren h.cons
      · simp [hsne]
      · intro i hi
        rw [List.map_append] at hi
        rcases List.mem_append.1 hi with hi | hi
        · obtain ⟨r, hr, rfl⟩ := List.mem_map.1 hi; exact hsge r hr
        rcases List.mem_append.1 hi with hi | hi
        · exact hfge i hi
        · exact le_trans hs0 (hdge i hi)
  · have e1 : ∀ lv n c, (linkLossToWeights (weightVariables bs n) lv (mergeFromRegion fs ds) c).1 = [] := by
      intro lv n c
      by_contra hc
      exact hE ((linkLoss_nonempty bs _ lv n c).1 hc)
    simp only [e1, List.isEmpty_nil, if_true]
    exact ⟨{ h with lossShares := fun _ => rfl }, rfl⟩

theorem losses_sim (h : SimG Q K D f g m M) (hq : ¬ Q .inters) (hw : InterWF m) (fs : List LossFn) (bs : List BreakPt) :
    SimGR Q K D f g (m.setLosses fs bs) (M.setLosses fs bs) := by
  rcases hw with ⟨h1, h2, h3⟩ | ⟨ds, n0, h1, h2, h3, h4⟩
  · have H1 : M.dirs = none := by rw [h.dirs hq, h1]
    rw [setLosses_none m fs bs h1, setLosses_none M fs bs H1]
    split
    · exact ⟨h, rfl⟩
    · exact ⟨{ h with lossShares := fun _ => rfl }, rfl⟩
  · have H1 : M.dirs = some ds := by rw [h.dirs hq, h1]
    have H2 : M.inters = some ((interVariables ds n0).map (InterVar.ren f)) := by rw [h.inters hq, h2]; rfl
    have H3 : M.interReg = some ((interMap ds n0).map (InterMap.ren f)) := by rw [h.interReg hq, h3]; rfl
    rw [setLosses_some m fs bs h1 h2 h3, setLosses_some M fs bs H1 H2 H3]
    split
    · exact ⟨h, rfl⟩
    · exact lossCore_sim h fs bs ds n0


theorem step_sim (h : SimG Q K D f g m M) (hw : InterWF m) (op : Op) (hK : ∀ k, K k → Part.set k ∉ op.parts)
    (hQ : ∀ p, Q p → p ∉ op.needs) : SimGR Q K D f g (m.step op) (M.step op) := by
  have nk : ∀ k, Part.set k ∈ op.parts → ¬ K k := fun k h1 h2 => hK k h2 h1
  have nq : ∀ p, p ∈ op.needs → ¬ Q p := fun p h1 h2 => hQ p h2 h1
  unfold Market.step
  rw [h.nan]
  split
  · exact ⟨h, rfl⟩
  cases op with
  | volumeBids b => exact volumeBids_sim h b
  | priceBids b => exact priceBids_sim h (nq _ (by simp [Op.needs])) b
  | capacity l vc => exact capacity_sim h (nq _ (by simp [Op.needs])) (nk _ (by simp [Op.parts])) l vc
  | uigf l vc => exact uigf_sim h (nq _ (by simp [Op.needs])) (nk _ (by simp [Op.parts])) l vc
  | rampRates r sc ps rt vc =>
    exact rampRates_sim h ⟨nk _ (by simp [Op.parts]), nk _ (by simp [Op.parts]), nk _ (by simp [Op.parts]),
      nk _ (by simp [Op.parts])⟩ r sc ps rt vc
  | fastStart p vc => exact fastStart_sim h (nk _ (by simp [Op.parts])) p vc
  | removeFastStart => exact removeFs_sim h (nk _ (by simp [Op.parts]))
  | demand d vc => exact demand_sim h (nk _ (by simp [Op.parts])) d vc
  | fcasReq r vc => exact fcasReq_sim h (nk _ (by simp [Op.parts])) r vc
  | fcasMaxAvail l vc => exact fcasMaxAvail_sim h (nk _ (by simp [Op.parts])) l vc
  | jointRamping r ps rt vc =>
    exact jointRamping_sim h (nq _ (by simp [Op.needs])) ⟨nk _ (by simp [Op.parts]), nk _ (by simp [Op.parts]), nk _ (by simp [Op.parts]),
      nk _ (by simp [Op.parts])⟩ r ps rt vc
  | jointCapacity t vc => exact jointCapacity_sim h (nk _ (by simp [Op.parts])) t vc
  | energyReg t vc => exact energyReg_sim h (nk _ (by simp [Op.parts])) t vc
  | interconnectors d => exact interconnectors_sim h d
  | losses f b => exact losses_sim h (nq _ (by simp [Op.needs])) hw f b
  | generic g vc => exact generic_sim h (nk _ (by simp [Op.parts])) g vc
  | linkUnits g => exact linkUnits_sim h g
  | linkRegions g => exact linkRegions_sim h g
  | linkInters g => exact linkInters_sim h g
  | elastic k c => exact elastic_sim h (nk _ (by simp [Op.parts])) c
  | tieBreak c => exact tieBreak_sim h (nq _ (by simp [Op.needs])) (nq _ (by simp [Op.needs])) (nk _ (by simp [Op.parts])) c

/-! ### Calls made on one side only -/

/-- `M1` differs from `M` only in the constraint sets `K`, and in larger counters. -/
structure Upd (Q : Part → Prop) (K : CKey → Prop) (M M1 : Market) : Prop where
  regions : M1.regions = M.regions
  units : M1.units = M.units
  di : M1.di = M.di
  bids : ¬ Q .bids → M1.bids = M.bids
  bidUnit : ¬ Q .bids → M1.bidUnit = M.bidUnit
  bidReg : ¬ Q .bids → M1.bidReg = M.bidReg
  bidCost : ¬ Q .prices → M1.bidCost = M.bidCost
  dirs : ¬ Q .inters → M1.dirs = M.dirs
  inters : ¬ Q .inters → M1.inters = M.inters
  interReg : ¬ Q .inters → M1.interReg = M.interReg
  lossShares : ¬ K .interpWeights → M1.lossShares = M.lossShares
  losses : ¬ K .interpWeights → M1.losses = M.losses
  lossReg : ¬ K .interpWeights → M1.lossReg = M.lossReg
  weights : ¬ K .interpWeights → M1.weights = M.weights
  lossLhs : ¬ K .interpWeights → M1.lossLhs = M.lossLhs
  tieLhs : ¬ K .tieBreak → M1.tieLhs = M.tieLhs
  deficits : ∀ k, ¬ K k → M1.deficits.get? k = M.deficits.get? k
  gUnit : ¬ Q .gUnit → M1.gUnit = M.gUnit
  gRegion : ¬ Q .gRegion → M1.gRegion = M.gRegion
  gInter : ¬ Q .gInter → M1.gInter = M.gInter
  unitCon : ∀ k, ¬ K k → M1.unitCon.get? k = M.unitCon.get? k
  regCon : ∀ k, ¬ K k → M1.regCon.get? k = M.regCon.get? k
  conRhs : ∀ k, ¬ K k → M1.conRhs.get? k = M.conRhs.get? k
  mktRhs : ∀ k, ¬ K k → M1.mktRhs.get? k = M.mktRhs.get? k
  dynRhs : ¬ K .interpWeights → M1.dynRhs = M.dynRhs
  vars : M.nextVar ≤ M1.nextVar
  cons : M.nextCon ≤ M1.nextCon

theorem Upd.refl (Q : Part → Prop) (K : CKey → Prop) (M : Market) : Upd Q K M M := by
  constructor <;> intros <;> first | rfl | exact le_refl _

theorem Upd.trans {M M1 M2 : Market} (h : Upd Q K M M1) (h' : Upd Q K M1 M2) : Upd Q K M M2 where
  regions := h'.regions.trans h.regions
  units := h'.units.trans h.units
  di := h'.di.trans h.di
  bids := fun q => (h'.bids q).trans (h.bids q)
  bidUnit := fun q => (h'.bidUnit q).trans (h.bidUnit q)
  bidReg := fun q => (h'.bidReg q).trans (h.bidReg q)
  bidCost := fun q => (h'.bidCost q).trans (h.bidCost q)
  dirs := fun q => (h'.dirs q).trans (h.dirs q)
  inters := fun q => (h'.inters q).trans (h.inters q)
  interReg := fun q => (h'.interReg q).trans (h.interReg q)
  lossShares := fun k => (h'.lossShares k).trans (h.lossShares k)
  losses := fun k => (h'.losses k).trans (h.losses k)
  lossReg := fun k => (h'.lossReg k).trans (h.lossReg k)
  weights := fun k => (h'.weights k).trans (h.weights k)
  lossLhs := fun k => (h'.lossLhs k).trans (h.lossLhs k)
  tieLhs := fun k => (h'.tieLhs k).trans (h.tieLhs k)
  deficits := fun k hk => (h'.deficits k hk).trans (h.deficits k hk)
  gUnit := fun q => (h'.gUnit q).trans (h.gUnit q)
  gRegion := fun q => (h'.gRegion q).trans (h.gRegion q)
  gInter := fun q => (h'.gInter q).trans (h.gInter q)
  unitCon := fun k hk => (h'.unitCon k hk).trans (h.unitCon k hk)
  regCon := fun k hk => (h'.regCon k hk).trans (h.regCon k hk)
  conRhs := fun k hk => (h'.conRhs k hk).trans (h.conRhs k hk)
  mktRhs := fun k hk => (h'.mktRhs k hk).trans (h.mktRhs k hk)
  dynRhs := fun k => (h'.dynRhs k).trans (h.dynRhs k)
  vars := le_trans h.vars h'.vars
  cons := le_trans h.cons h'.cons

theorem set_other {α : Type} (d : Dict CKey α) {k0 : CKey} (v : α) (hk : K k0) : ∀ k, ¬ K k → (d.set k0 v).get? k = d.get? k := by
  intro k hk'
  exact Dict.get?_set_ne _ _ (fun e => hk' (e ▸ hk))

theorem erase_other {α : Type} (d : Dict CKey α) {k0 : CKey} (hk : K k0) : ∀ k, ¬ K k → (d.erase k0).get? k = d.get? k := by
  intro k hk'
  exact Dict.get?_erase_ne _ (fun e => hk' (e ▸ hk))

theorem upd_prim {good : Prop} {ks : List Part} {M M1 : Market} (h : Prim good ks M M1) (hI : InterWF M)
    (hK : ∀ k, Part.set k ∈ ks → K k) (hQ : ∀ p ∈ ks, Q p ∨ ∃ k, p = Part.set k) : Upd Q K M M1 := by
  cases h with
  | bids _ b =>
    obtain hq | ⟨k, e⟩ := hQ _ (List.mem_singleton.2 rfl)
    · unfold Market.setVolumeBids
      split
      · exact .refl Q K M
      split
      · exact .refl Q K M
      dsimp only
      split
      · exact { Upd.refl Q K M with bids := fun h => absurd hq h, bidUnit := fun h => absurd hq h, bidReg := fun h => absurd hq h }
      · rename_i hne
        refine { Upd.refl Q K M with bids := fun h => absurd hq h, bidUnit := fun h => absurd hq h, bidReg := fun h => absurd hq h,
                                     vars := le_nextAfter ?_ (by simpa [List.isEmpty_iff] using hne) }
        intro i hi
        rw [bidVariables_vids] at hi
        have := List.mem_range'_1.1 hi
        omega
    · cases e
  | prices _ b =>
    obtain hq | ⟨k, e⟩ := hQ _ (List.mem_singleton.2 rfl)
    · unfold Market.setPriceBids
      split
      · exact .refl Q K M
      split
      · exact .refl Q K M
      split
      · exact .refl Q K M
      exact { Upd.refl Q K M with bidCost := fun h => absurd hq h }
    · cases e
  | inters _ d =>
    obtain hq | ⟨k, e⟩ := hQ _ (List.mem_singleton.2 rfl)
    · unfold Market.setInterconnectors
      split
      · exact .refl Q K M
      dsimp only
      split
      · exact { Upd.refl Q K M with dirs := fun h => absurd hq h, inters := fun h => absurd hq h, interReg := fun h => absurd hq h }
      · rename_i hne
        refine { Upd.refl Q K M with dirs := fun h => absurd hq h, inters := fun h => absurd hq h, interReg := fun h => absurd hq h,
                                     vars := le_nextAfter ?_ (by simpa [List.isEmpty_iff] using hne) }
        intro i hi
        rw [interVariables_vids] at hi
        have := List.mem_range'_1.1 hi
        omega
    · cases e
  | linkUnits _ g =>
    obtain hq | ⟨k, e⟩ := hQ _ (List.mem_singleton.2 rfl)
    · unfold Market.linkUnits
      split
      · exact .refl Q K M
      exact { Upd.refl Q K M with gUnit := fun h => absurd hq h }
    · cases e
  | linkRegions _ g =>
    obtain hq | ⟨k, e⟩ := hQ _ (List.mem_singleton.2 rfl)
    · unfold Market.linkRegions
      split
      · exact .refl Q K M
      exact { Upd.refl Q K M with gRegion := fun h => absurd hq h }
    · cases e
  | linkInters _ g =>
    obtain hq | ⟨k, e⟩ := hQ _ (List.mem_singleton.2 rfl)
    · unfold Market.linkInters
      split
      · exact .refl Q K M
      exact { Upd.refl Q K M with gInter := fun h => absurd hq h }
    · cases e
  | unitSet _ k t hu ht =>
    have hk := hK _ (List.mem_singleton.2 rfl)
    unfold Market.addUnitSet
    dsimp only
    split
    · exact { Upd.refl Q K M with conRhs := set_other _ _ hk, unitCon := set_other _ _ hk }
    · rename_i hne
      exact { Upd.refl Q K M with conRhs := set_other _ _ hk, unitCon := set_other _ _ hk,
                                  cons := (nextAfter_rows_bounds ht.ge (by simpa [List.isEmpty_iff] using hne)).1 }
  | regSet _ k t hu ht =>
    have hk := hK _ (List.mem_singleton.2 rfl)
    unfold Market.addRegSet
    dsimp only
    split
    · exact { Upd.refl Q K M with mktRhs := set_other _ _ hk, regCon := set_other _ _ hk }
    · rename_i hne
      exact { Upd.refl Q K M with mktRhs := set_other _ _ hk, regCon := set_other _ _ hk,
                                  cons := (nextAfter_rows_bounds ht.ge (by simpa [List.isEmpty_iff] using hne)).1 }
  | elastic _ k c =>
    have hk := hK _ (List.mem_singleton.2 rfl)
    unfold Market.makeElastic
    split
    · exact .refl Q K M
    split
    · exact .refl Q K M
    split
    · exact .refl Q K M
    dsimp only
    split
    · exact { Upd.refl Q K M with deficits := set_other _ _ hk }
    · rename_i rs _ _ hne
      exact { Upd.refl Q K M with deficits := set_other _ _ hk,
                                  vars := le_nextAfter (deficit_ge rs M.nextVar) (by simpa [List.isEmpty_iff] using hne) }
  | removeFs _ =>
    have hk := hK _ (List.mem_singleton.2 rfl)
    unfold Market.removeFastStart
    dsimp only
    split <;> split
    · exact { Upd.refl Q K M with conRhs := erase_other _ hk, unitCon := erase_other _ hk, deficits := erase_other _ hk }
    · exact { Upd.refl Q K M with conRhs := erase_other _ hk, unitCon := erase_other _ hk }
    · exact { Upd.refl Q K M with deficits := erase_other _ hk }
    · exact .refl Q K M
  | losses _ f b hb =>
    have hk := hK _ (List.mem_singleton.2 rfl)
    unfold Market.setLosses
    split
    · exact .refl Q K M
    dsimp only
    split
    · split
      · exact { Upd.refl Q K M with lossShares := fun h => absurd hk h }
      · rename_i ds vs im e1 e2 e3 hne
        have hne' : (linkLossToWeights (weightVariables b (nextAfter ((lossVariables vs (mergeFromRegion f ds) M.nextVar).map LossVar.vid)))
            (lossVariables vs (mergeFromRegion f ds) M.nextVar) (mergeFromRegion f ds)
            (nextAfter ((weightsSumToOne (weightVariables b (nextAfter ((lossVariables vs (mergeFromRegion f ds) M.nextVar).map LossVar.vid))) M.nextCon).2.map Row.cid))).1 ≠ [] := by
          simpa [List.isEmpty_iff] using hne
        have hlv := losses_lv_ne (n := M.nextVar) hI e1 e2 hne'
        obtain ⟨l, hl⟩ := List.exists_mem_of_ne_nil _ hlv
        refine { Upd.refl Q K M with lossShares := fun h => absurd hk h, losses := fun h => absurd hk h,
                                     lossReg := fun h => absurd hk h, weights := fun h => absurd hk h,
                                     lossLhs := fun h => absurd hk h, dynRhs := fun h => absurd hk h,
                                     conRhs := set_other _ _ hk, vars := ?_, cons := ?_ }
        · have h1 := lossVariables_mem hl
          have h2 : l.vid ∈ (lossVariables vs (mergeFromRegion f ds) M.nextVar).map LossVar.vid ++
              (weightVariables b (nextAfter ((lossVariables vs (mergeFromRegion f ds) M.nextVar).map LossVar.vid))).map WeightVar.vid :=
            List.mem_append_left _ (List.mem_map.2 ⟨l, hl, rfl⟩)
          have := lt_nextAfter h2
          dsimp only
          omega
        · obtain ⟨t, ht⟩ := List.exists_mem_of_ne_nil _ hne'
          simp only [linkLossToWeights, List.mem_flatMap] at ht
          obtain ⟨w, hw, _⟩ := ht
          obtain ⟨c, hc, _⟩ := (weightConIds_facts _ M.nextCon).2.2.2.1 w hw
          have h1 := (weightConIds_facts _ M.nextCon).2.1 c hc
          dsimp only
          refine le_of_lt (lt_of_le_of_lt h1 (lt_nextAfter (List.mem_append_left _ ?_)))
          simp only [weightsSumToOne, List.map_map]
          exact List.mem_map.2 ⟨c, hc, rfl⟩
    · exact { Upd.refl Q K M with lossShares := fun h => absurd hk h }
  | generic _ g =>
    have hk := hK _ (List.mem_singleton.2 rfl)
    unfold Market.setGeneric
    split
    · exact .refl Q K M
    dsimp only [Market.elasticOpt]
    split
    · exact { Upd.refl Q K M with conRhs := set_other _ _ hk }
    · rename_i hne
      refine { Upd.refl Q K M with conRhs := set_other _ _ hk, cons := (nextAfter_rows_bounds ?_ (by simpa [List.isEmpty_iff] using hne)).1 }
      intro r hr
      obtain ⟨i, l, _, h1, _, rfl⟩ := mem_saveIndex_lt hr
      exact h1
  | tie _ ps hne hp =>
    have hk := hK _ (List.mem_singleton.2 rfl)
    refine { Upd.refl Q K M with conRhs := set_other _ _ hk, tieLhs := fun h => absurd hk h,
                                 cons := (nextAfter_rows_bounds (rows := (tieConstraints ps M.nextCon).2) ?_ ?_).1 }
    · intro r hr
      simp only [tieConstraints] at hr
      obtain ⟨i, l, _, h1, _, rfl⟩ := mem_saveIndex_lt hr
      exact h1
    · intro e
      apply hne
      have := congrArg List.isEmpty e
      simpa [tieConstraints, saveIndex_isEmpty] using this

theorem upd_steps {good : Prop} {ks : List Part} {M M1 : Market} (h : Steps good ks M M1) (hI : InterWF M)
    (hK : ∀ k, Part.set k ∈ ks → K k) (hQ : ∀ p ∈ ks, Q p ∨ ∃ k, p = Part.set k) : Upd Q K M M1 := by
  have : Upd Q K M M1 ∧ InterWF M1 := by
    induction h with
    | refl => exact ⟨.refl Q K _, hI⟩
    | tail _ p hs ih => exact ⟨ih.1.trans (upd_prim p ih.2 (fun k hk => hK k (hs hk)) (fun q hq => hQ q (hs hq))), interWF_prim p ih.2⟩
  exact this.1

theorem upd_step (M : Market) (hI : InterWF M) (op : Op) (hK : ∀ k, Part.set k ∈ op.parts → K k)
    (hQ : ∀ p ∈ op.parts, Q p ∨ ∃ k, p = Part.set k) :
    Upd Q K M (M.step op).1 :=
  upd_steps (good := False) (step_steps M op (fun h => h.elim)) hI hK hQ

/-! ### The renaming after a call on one side -/

theorem map_opt_congr {α : Type} {o : Option (List α)} {r r' : α → α} (h : ∀ a ∈ o.getD [], r a = r' a) :
    o.map (List.map r) = o.map (List.map r') := by
  cases o with
  | none => rfl
  | some l => exact congrArg some (List.map_congr_left h)

/-- `Sim` without the counters -/
structure Tabs (Q : Part → Prop) (K D : CKey → Prop) (f g : Nat → Nat) (m M : Market) : Prop where
  regions : M.regions = m.regions
  units : M.units = m.units
  di : M.di = m.di
  bids : ¬ Q .bids → M.bids = m.bids.map (List.map (BidVar.ren f))
  bidUnit : ¬ Q .bids → M.bidUnit = m.bidUnit.map (List.map (VarUnit.ren f))
  bidReg : ¬ Q .bids → M.bidReg = m.bidReg.map (List.map (VarReg.ren f))
  bidCost : ¬ Q .prices → M.bidCost = m.bidCost.map (List.map (BidCost.ren f))
  dirs : ¬ Q .inters → M.dirs = m.dirs
  inters : ¬ Q .inters → M.inters = m.inters.map (List.map (InterVar.ren f))
  interReg : ¬ Q .inters → M.interReg = m.interReg.map (List.map (InterMap.ren f))
  lossShares : ¬ K .interpWeights → M.lossShares = m.lossShares
  losses : ¬ K .interpWeights → M.losses = m.losses.map (List.map (LossVar.ren f))
  lossReg : ¬ K .interpWeights → M.lossReg = m.lossReg.map (List.map (VarReg.ren f))
  weights : ¬ K .interpWeights → M.weights = m.weights.map (List.map (WeightVar.ren f))
  lossLhs : ¬ K .interpWeights → M.lossLhs = m.lossLhs.map (List.map (Term.ren f g))
  tieLhs : ¬ K .tieBreak → M.tieLhs = m.tieLhs.map (List.map (Term.ren f g))
  deficits : ∀ k, ¬ D k → M.deficits.get? k = (m.deficits.get? k).map (renDef f g)
  gUnit : ¬ Q .gUnit → M.gUnit = m.gUnit
  gRegion : ¬ Q .gRegion → M.gRegion = m.gRegion
  gInter : ¬ Q .gInter → M.gInter = m.gInter
  unitCon : ∀ k, ¬ K k → M.unitCon.get? k = (m.unitCon.get? k).map (List.map (ConUnit.ren g))
  regCon : ∀ k, ¬ K k → M.regCon.get? k = (m.regCon.get? k).map (List.map (ConReg.ren g))
  conRhs : ∀ k, ¬ K k → M.conRhs.get? k = (m.conRhs.get? k).map (List.map (Row.ren g))
  mktRhs : ∀ k, ¬ K k → M.mktRhs.get? k = (m.mktRhs.get? k).map (List.map (Row.ren g))
  dynRhs : ¬ K .interpWeights → M.dynRhs = m.dynRhs.map (List.map (DynRow.ren f g))
  nan : M.nanCon = m.nanCon

theorem SimG.tabs (h : SimG Q K D f g m M) : Tabs Q K D f g m M where
  regions := h.regions
  units := h.units
  di := h.di
  bids := h.bids
  bidUnit := h.bidUnit
  bidReg := h.bidReg
  bidCost := h.bidCost
  dirs := h.dirs
  inters := h.inters
  interReg := h.interReg
  lossShares := h.lossShares
  losses := h.losses
  lossReg := h.lossReg
  weights := h.weights
  lossLhs := h.lossLhs
  tieLhs := h.tieLhs
  deficits := h.deficits
  gUnit := h.gUnit
  gRegion := h.gRegion
  gInter := h.gInter
  unitCon := h.unitCon
  regCon := h.regCon
  conRhs := h.conRhs
  mktRhs := h.mktRhs
  dynRhs := h.dynRhs
  nan := h.nan

theorem Tabs.sim (h : Tabs Q K D f g m M) (hv : Ren f m.nextVar M.nextVar) (hc : Ren g m.nextCon M.nextCon) : SimG Q K D f g m M where
  regions := h.regions
  units := h.units
  di := h.di
  bids := h.bids
  bidUnit := h.bidUnit
  bidReg := h.bidReg
  bidCost := h.bidCost
  dirs := h.dirs
  inters := h.inters
  interReg := h.interReg
  lossShares := h.lossShares
  losses := h.losses
  lossReg := h.lossReg
  weights := h.weights
  lossLhs := h.lossLhs
  tieLhs := h.tieLhs
  deficits := h.deficits
  gUnit := h.gUnit
  gRegion := h.gRegion
  gInter := h.gInter
  unitCon := h.unitCon
  regCon := h.regCon
  conRhs := h.conRhs
  mktRhs := h.mktRhs
  dynRhs := h.dynRhs
  nan := h.nan
  vars := hv
  cons := hc

/-- Only the names of ids in use matter. -/
theorem Tabs.congr {f' g' : Nat → Nat} (h : Tabs Q K D f g m M) (hr : Reached m) (hf : ∀ i, i < m.nextVar → f i = f' i)
    (hg : ∀ i, i < m.nextCon → g i = g' i) : Tabs Q K D f' g' m M := by
  have hw := hr.wf
  have hv := hr.refs
  obtain ⟨own, ho⟩ := hw.con.own
  have fr : ∀ v ∈ m.refs, f v = f' v := fun v h => hf v (hv.refs v h).1
  have fd : ∀ v ∈ m.defVids, f v = f' v := fun v h => hf v (hv.defs v h)
  have gr : ∀ k c, InTab m k c → g c = g' c := fun k c h => hg c (ho k c h).2
  have fb : ∀ v ∈ m.bids.getD [], f v.vid = f' v.vid := by
    intro v hv; apply fr; simp only [Market.refs, List.mem_append, List.mem_map]
    iterate 8 left
    exact ⟨v, hv, rfl⟩
  have fi : ∀ v ∈ m.inters.getD [], f v.vid = f' v.vid := by
    intro v hv; apply fr; simp only [Market.refs, List.mem_append, List.mem_map]
    iterate 6 left
    right
    exact ⟨v, hv, rfl⟩
  exact {
    regions := h.regions
    units := h.units
    di := h.di
    bids := by
      intro q; rw [h.bids q]; apply map_opt_congr
      intro v hv; simp only [BidVar.ren, fb v hv]
    bidUnit := by
      intro q; rw [h.bidUnit q]; apply map_opt_congr
      rcases hw.bid with ⟨_, h2, _⟩ | ⟨b, n, _, _, h1, h2, h3⟩
      · rw [h2]; simp
      · rw [h2]; intro v hv
        simp only [Option.getD_some, bidUnitMap, List.mem_flatMap, List.mem_map] at hv
        obtain ⟨w, hw, u, _, rfl⟩ := hv
        simp only [VarUnit.ren, fb w (by rw [h1]; exact hw)]
    bidReg := by
      intro q; rw [h.bidReg q]; apply map_opt_congr
      rcases hw.bid with ⟨_, _, h2⟩ | ⟨b, n, _, _, h1, h2, h3⟩
      · rw [h2]; simp
      · rw [h3]; intro v hv
        simp only [Option.getD_some, bidRegMap, List.mem_flatMap, List.mem_map] at hv
        obtain ⟨w, hw, u, _, rfl⟩ := hv
        simp only [VarReg.ren, fb w (by rw [h1]; exact hw)]
    bidCost := by
      intro q; rw [h.bidCost q]; apply map_opt_congr
      intro v hv; simp only [BidCost.ren]; rw [fr]
      simp only [Market.refs, List.mem_append, List.mem_map]
      iterate 7 left
      right; exact ⟨v, hv, rfl⟩
    dirs := h.dirs
    inters := by
      intro q; rw [h.inters q]; apply map_opt_congr
      intro v hv; simp only [InterVar.ren, fi v hv]
    interReg := by
      intro q; rw [h.interReg q]; apply map_opt_congr
      rcases hw.inter with ⟨_, _, h2⟩ | ⟨b, n, h1, h2, h3, _⟩
      · rw [h2]; simp
      · rw [h3]; intro v hv
        simp only [Option.getD_some, interMap, List.mem_append] at hv
        rcases hv with hv | hv <;> obtain ⟨i, d, hd, rfl⟩ := mem_saveIndex.1 hv <;> simp only [InterMap.ren] <;>
          rw [fi ⟨d.inter, d.link, n + i, d.min, d.max, d.gcf⟩ (by rw [h2]; exact mem_saveIndex.2 ⟨i, d, hd, rfl⟩)]
    lossShares := h.lossShares
    losses := by
      intro k; rw [h.losses k]; apply map_opt_congr
      intro v hv; simp only [LossVar.ren]; rw [fr]
      simp only [Market.refs, List.mem_append, List.mem_map]
      iterate 5 left
      right; exact ⟨v, hv, rfl⟩
    lossReg := by
      intro k; rw [h.lossReg k]; apply map_opt_congr
      intro v hv; simp only [VarReg.ren]; rw [fr]
      simp only [Market.refs, List.mem_append, List.mem_map]
      iterate 4 left
      right; exact ⟨v, hv, rfl⟩
    weights := by
      intro k; rw [h.weights k]; apply map_opt_congr
      intro v hv; simp only [WeightVar.ren]; rw [fr]
      simp only [Market.refs, List.mem_append, List.mem_map]
      iterate 3 left
      right; exact ⟨v, hv, rfl⟩
    lossLhs := by
      intro k; rw [h.lossLhs k]; apply map_opt_congr
      intro v hv; simp only [Term.ren]
      rw [fr, gr .interpWeights]
      · exact Or.inr (Or.inr (Or.inr (Or.inr (Or.inr (Or.inl ⟨rfl, Or.inl ⟨v, hv, rfl⟩⟩)))))
      · simp only [Market.refs, List.mem_append, List.mem_map]
        iterate 2 left
        right; exact ⟨v, hv, rfl⟩
    tieLhs := by
      intro k; rw [h.tieLhs k]; apply map_opt_congr
      intro v hv; simp only [Term.ren]
      rw [fr, gr .tieBreak]
      · exact Or.inr (Or.inr (Or.inr (Or.inr (Or.inr (Or.inr ⟨rfl, ⟨v, hv, rfl⟩⟩)))))
      · simp only [Market.refs, List.mem_append, List.mem_map]
        left; right; exact ⟨v, hv, rfl⟩
    deficits := by
      intro k hk
      rw [h.deficits k hk]
      cases hd : m.deficits.get? k with
      | none => rfl
      | some d =>
        have hmem := Dict.mem_of_get? hd
        have hv1 : ∀ v ∈ d.1, f v.vid = f' v.vid := by
          intro v hv
          apply fd
          exact List.mem_flatMap.2 ⟨(k, d), hmem, List.mem_map.2 ⟨v, hv, rfl⟩⟩
        simp only [Option.map_some, renDef]
        congr 2
        · apply List.map_congr_left
          intro v hv; simp only [DefVar.ren, hv1 v hv]
        · apply List.map_congr_left
          intro t ht
          simp only [Term.ren]
          obtain ⟨v, hv2, e⟩ := List.mem_map.1 (hv.own (k, d) hmem t ht)
          rw [← e, hv1 v hv2, gr k]
          exact Or.inr (Or.inr (Or.inr (Or.inr (Or.inl ⟨d, hmem, t, ht, rfl⟩))))
    gUnit := h.gUnit
    gRegion := h.gRegion
    gInter := h.gInter
    unitCon := by
      intro k hk
      rw [h.unitCon k hk]; apply map_opt_congr
      intro r hr; simp only [ConUnit.ren]; rw [gr k]
      cases hd : m.unitCon.get? k with
      | none => rw [hd] at hr; cases hr
      | some t => rw [hd] at hr; exact Or.inl ⟨t, Dict.mem_of_get? hd, r, hr, rfl⟩
    regCon := by
      intro k hk
      rw [h.regCon k hk]; apply map_opt_congr
      intro r hr; simp only [ConReg.ren]; rw [gr k]
      cases hd : m.regCon.get? k with
      | none => rw [hd] at hr; cases hr
      | some t => rw [hd] at hr; exact Or.inr (Or.inl ⟨t, Dict.mem_of_get? hd, r, hr, rfl⟩)
    conRhs := by
      intro k hk
      rw [h.conRhs k hk]; apply map_opt_congr
      intro r hr; simp only [Row.ren]; rw [gr k]
      cases hd : m.conRhs.get? k with
      | none => rw [hd] at hr; cases hr
      | some t => rw [hd] at hr; exact Or.inr (Or.inr (Or.inl ⟨t, Dict.mem_of_get? hd, r, hr, rfl⟩))
    mktRhs := by
      intro k hk
      rw [h.mktRhs k hk]; apply map_opt_congr
      intro r hr; simp only [Row.ren]; rw [gr k]
      cases hd : m.mktRhs.get? k with
      | none => rw [hd] at hr; cases hr
      | some t => rw [hd] at hr; exact Or.inr (Or.inr (Or.inr (Or.inl ⟨t, Dict.mem_of_get? hd, r, hr, rfl⟩)))
    dynRhs := by
      intro k; rw [h.dynRhs k]; apply map_opt_congr
      intro v hv; simp only [DynRow.ren]
      rw [fr, gr .interpWeights]
      · exact Or.inr (Or.inr (Or.inr (Or.inr (Or.inr (Or.inl ⟨rfl, Or.inr ⟨v, hv, rfl⟩⟩)))))
      · simp only [Market.refs, List.mem_append, List.mem_map]
        right; exact ⟨v, hv, rfl⟩
    nan := h.nan }

theorem Tabs.right (h : Tabs Q K D f g m M) {M1 : Market} (hu : Upd Q K M M1) (hDK : ∀ k, K k → D k) (hn : M1.nanCon = M.nanCon) :
    Tabs Q K D f g m M1 where
  regions := hu.regions.trans h.regions
  units := hu.units.trans h.units
  di := hu.di.trans h.di
  bids := fun q => (hu.bids q).trans (h.bids q)
  bidUnit := fun q => (hu.bidUnit q).trans (h.bidUnit q)
  bidReg := fun q => (hu.bidReg q).trans (h.bidReg q)
  bidCost := fun q => (hu.bidCost q).trans (h.bidCost q)
  dirs := fun q => (hu.dirs q).trans (h.dirs q)
  inters := fun q => (hu.inters q).trans (h.inters q)
  interReg := fun q => (hu.interReg q).trans (h.interReg q)
  lossShares := fun k => (hu.lossShares k).trans (h.lossShares k)
  losses := fun k => (hu.losses k).trans (h.losses k)
  lossReg := fun k => (hu.lossReg k).trans (h.lossReg k)
  weights := fun k => (hu.weights k).trans (h.weights k)
  lossLhs := fun k => (hu.lossLhs k).trans (h.lossLhs k)
  tieLhs := fun k => (hu.tieLhs k).trans (h.tieLhs k)
  deficits := fun k hk => (hu.deficits k (fun e => hk (hDK k e))).trans (h.deficits k hk)
  gUnit := fun q => (hu.gUnit q).trans (h.gUnit q)
  gRegion := fun q => (hu.gRegion q).trans (h.gRegion q)
  gInter := fun q => (hu.gInter q).trans (h.gInter q)
  unitCon := fun k hk => (hu.unitCon k hk).trans (h.unitCon k hk)
  regCon := fun k hk => (hu.regCon k hk).trans (h.regCon k hk)
  conRhs := fun k hk => (hu.conRhs k hk).trans (h.conRhs k hk)
  mktRhs := fun k hk => (hu.mktRhs k hk).trans (h.mktRhs k hk)
  dynRhs := fun k => (hu.dynRhs k).trans (h.dynRhs k)
  nan := hn.trans h.nan

theorem Tabs.left (h : Tabs Q K D f g m M) {m1 : Market} (hu : Upd Q K m m1) (hDK : ∀ k, K k → D k) (hn : m.nanCon = m1.nanCon) :
    Tabs Q K D f g m1 M where
  regions := by rw [hu.regions]; exact h.regions
  units := by rw [hu.units]; exact h.units
  di := by rw [hu.di]; exact h.di
  bids := fun q => by rw [hu.bids q]; exact h.bids q
  bidUnit := fun q => by rw [hu.bidUnit q]; exact h.bidUnit q
  bidReg := fun q => by rw [hu.bidReg q]; exact h.bidReg q
  bidCost := fun q => by rw [hu.bidCost q]; exact h.bidCost q
  dirs := fun q => by rw [hu.dirs q]; exact h.dirs q
  inters := fun q => by rw [hu.inters q]; exact h.inters q
  interReg := fun q => by rw [hu.interReg q]; exact h.interReg q
  lossShares := fun k => by rw [hu.lossShares k]; exact h.lossShares k
  losses := fun k => by rw [hu.losses k]; exact h.losses k
  lossReg := fun k => by rw [hu.lossReg k]; exact h.lossReg k
  weights := fun k => by rw [hu.weights k]; exact h.weights k
  lossLhs := fun k => by rw [hu.lossLhs k]; exact h.lossLhs k
  tieLhs := fun k => by rw [hu.tieLhs k]; exact h.tieLhs k
  deficits := fun k hk => by rw [hu.deficits k (fun e => hk (hDK k e))]; exact h.deficits k hk
  gUnit := fun q => by rw [hu.gUnit q]; exact h.gUnit q
  gRegion := fun q => by rw [hu.gRegion q]; exact h.gRegion q
  gInter := fun q => by rw [hu.gInter q]; exact h.gInter q
  unitCon := fun k hk => by rw [hu.unitCon k hk]; exact h.unitCon k hk
  regCon := fun k hk => by rw [hu.regCon k hk]; exact h.regCon k hk
  conRhs := fun k hk => by rw [hu.conRhs k hk]; exact h.conRhs k hk
  mktRhs := fun k hk => by rw [hu.mktRhs k hk]; exact h.mktRhs k hk
  dynRhs := fun k => by rw [hu.dynRhs k]; exact h.dynRhs k
  nan := h.nan.trans hn

theorem SimG.skip (h : SimG Q K D f g m M) (hr : Reached m) {M1 : Market} (hu : Upd Q K M M1) (hDK : ∀ k, K k → D k)
    (hnan : M1.nanCon = M.nanCon) :
    SimG Q K D (retail f m.nextVar M1.nextVar) (retail g m.nextCon M1.nextCon) m M1 :=
  ((h.tabs.congr hr (fun _ hi => (retail_low hi).symm) (fun _ hi => (retail_low hi).symm)).right hu hDK hnan).sim
    (h.vars.retail hu.vars) (h.cons.retail hu.cons)

/-! ### Histories -/

theorem Reached.step {m : Market} (h : Reached m) {op : Op} (hb : op.benign m) : Reached (m.step op).1 := by
  obtain ⟨r, u, di, m0, ops, h1, h2, rfl⟩ := h
  refine ⟨r, u, di, m0, ops ++ [op], h1, benign_append.2 ⟨h2, hb, trivial⟩, ?_⟩
  rw [run_append]; rfl

theorem SimG.benign (h : SimG Q K D f g m M) {op : Op} (hQ : ∀ p, Q p → p ∉ op.needs) (hb : op.benign M) : op.benign m := by
  cases op with
  | losses fs bs =>
    intro b hb'
    obtain ⟨v, hv, h1, h2⟩ := hb b hb'
    rw [h.inters (fun hq => hQ _ hq (by simp [Op.needs]))] at hv
    cases hi : m.inters with
    | none => rw [hi] at hv; cases hv
    | some l =>
      rw [hi] at hv
      simp only [Option.map_some, Option.getD_some, List.mem_map] at hv
      obtain ⟨w, hw, rfl⟩ := hv
      exact ⟨w, hw, h1, h2⟩
  | priceBids _ => simpa only [Op.benign, h.units] using hb
  | rampRates | jointRamping => simpa only [Op.benign, h.di] using hb
  | fastStart | jointCapacity | energyReg | interconnectors => exact hb
  | _ => trivial

theorem nan_run {M : Market} (h : M.nanCon = true) (ops : List Op) : (M.run ops).nanCon = true := by
  induction ops generalizing M with
  | nil => exact h
  | cons op ops ih =>
    rw [run_cons]
    apply ih
    unfold Market.step
    rw [if_pos h]; exact h

theorem nan_run_false {M : Market} {ops : List Op} (h : (M.run ops).nanCon = false) : M.nanCon = false := by
  cases hM : M.nanCon with
  | false => rfl
  | true => rw [nan_run hM] at h; cases h

/-- Leave out of a history the calls that are about the constraint sets `K` only. -/
theorem run_skip (about : Op → Bool) (h1 : ∀ o, about o = true → ∀ k, Part.set k ∈ o.parts → K k)
    (h1' : ∀ o, about o = true → ∀ p ∈ o.parts, Q p ∨ ∃ k, p = Part.set k)
    (h2 : ∀ o, about o = false → ∀ k, (K k ∨ D k) → Part.set k ∉ o.parts)
    (hDK : ∀ k, K k → D k) {ops : List Op}
    {f g : Nat → Nat} {m M : Market} (h3 : ∀ o ∈ ops, about o = false → ∀ p, Q p → p ∉ o.needs)
    (h : SimG Q K D f g m M) (hm : Reached m) (hM : Reached M) (hb : Benign M ops) (hn : (M.run ops).nanCon = false) :
    ∃ f' g', SimG Q K D f' g' (m.run (ops.filter (fun o => !about o))) (M.run ops) ∧ Benign m (ops.filter (fun o => !about o)) := by
  induction ops generalizing m M f g with
  | nil => exact ⟨f, g, h, trivial⟩
  | cons op ops ih =>
    rw [run_cons] at hn ⊢
    obtain ⟨hb1, hb2⟩ := hb
    cases ha : about op with
    | true =>
      rw [List.filter_cons_of_neg (by simp [ha])]
      have e1 : M.nanCon = false := nan_run_false (ops := op :: ops) hn
      have e2 : (M.step op).1.nanCon = false := nan_run_false hn
      exact ih (fun o ho => h3 o (by simp [ho])) (h.skip hm (upd_step M hM.wf.inter op (h1 op ha) (h1' op ha)) hDK (by rw [e1, e2])) hm (hM.step hb1) hb2 hn
    | false =>
      rw [List.filter_cons_of_pos (by simp [ha]), run_cons]
      have hbm := h.benign (h3 op (by simp) ha) hb1
      obtain ⟨s1, _⟩ := step_sim h hm.wf.inter op (fun k hk => h2 op ha k (Or.inl hk)) (h3 op (by simp) ha)
      obtain ⟨f', g', a, b⟩ := ih (fun o ho => h3 o (by simp [ho])) s1 (hm.step hbm) (hM.step hb1) hb2 hn
      exact ⟨f', g', a, hbm, b⟩

/-- The same calls on both sides. -/
theorem run_sim {ops : List Op} {f g : Nat → Nat} {m M : Market} (h : SimG Q K D f g m M) (hm : Reached m)
    (hops : ∀ o ∈ ops, ∀ k, (K k ∨ D k) → Part.set k ∉ o.parts) (hQ : ∀ o ∈ ops, ∀ p, Q p → p ∉ o.needs) (hb : Benign M ops) :
    SimG Q K D f g (m.run ops) (M.run ops) ∧ Benign m ops := by
  induction ops generalizing m M with
  | nil => exact ⟨h, trivial⟩
  | cons op ops ih =>
    rw [run_cons, run_cons]
    obtain ⟨hb1, hb2⟩ := hb
    have hbm := h.benign (hQ op (by simp)) hb1
    have hop := hops op (by simp)
    obtain ⟨s1, _⟩ := step_sim h hm.wf.inter op (fun k hk => hop k (Or.inl hk)) (hQ op (by simp))
    obtain ⟨a, b⟩ := ih s1 (hm.step hbm) (fun o ho => hops o (by simp [ho])) (fun o ho => hQ o (by simp [ho])) hb2
    exact ⟨a, hbm, b⟩

end

end Verif
