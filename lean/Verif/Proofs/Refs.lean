import Verif.Proofs.Frame

/-! Invariant: which variables the tables of a market refer to.  Violation variables of a constraint set only occur
in the constraints of that set. -/

namespace Verif

/-- ids of all violation variables -/
def Market.defVids (m : Market) : List Nat := m.deficits.flatMap (fun d => d.2.1.map DefVar.vid)

/-- ids of variables that occur in tables other than those of violation variables -/
def Market.refs (m : Market) : List Nat :=
  (m.bids.getD []).map BidVar.vid ++ (m.bidCost.getD []).map BidCost.vid ++ (m.inters.getD []).map InterVar.vid ++
  (m.losses.getD []).map LossVar.vid ++ (m.lossReg.getD []).map VarReg.vid ++ (m.weights.getD []).map WeightVar.vid ++
  (m.lossLhs.getD []).map Term.vid ++ (m.tieLhs.getD []).map Term.vid ++ (m.dynRhs.getD []).map DynRow.rhsVid

structure RefWF (m : Market) : Prop where
  refs : ∀ v ∈ m.refs, v < m.nextVar ∧ v ∉ m.defVids
  defs : ∀ v ∈ m.defVids, v < m.nextVar
  own : ∀ e ∈ m.deficits, ∀ t ∈ e.2.2, t.vid ∈ e.2.1.map DefVar.vid

/-- updates that do not touch the violation variables -/
theorem refWF_of {m m' : Market} (hm : RefWF m) (hd : m'.deficits = m.deficits) (hn : m.nextVar ≤ m'.nextVar)
    (hr : ∀ v ∈ m'.refs, v ∈ m.refs ∨ (m.nextVar ≤ v ∧ v < m'.nextVar)) : RefWF m' where
  refs := by
    intro v hv
    have e : m'.defVids = m.defVids := by unfold Market.defVids; rw [hd]
    rw [e]
    rcases hr v hv with h | ⟨h1, h2⟩
    · exact ⟨lt_of_lt_of_le (hm.refs v h).1 hn, (hm.refs v h).2⟩
    · exact ⟨h2, fun hc => absurd (hm.defs v hc) (by omega)⟩
  defs := by
    intro v hv
    have e : m'.defVids = m.defVids := by unfold Market.defVids; rw [hd]
    rw [e] at hv
    exact lt_of_lt_of_le (hm.defs v hv) hn
  own := by rw [hd]; exact hm.own

theorem refWF_same {m m' : Market} (hm : RefWF m) (hd : m'.deficits = m.deficits) (hn : m'.nextVar = m.nextVar)
    (hr : m'.refs = m.refs) : RefWF m' :=
  refWF_of hm hd (le_of_eq hn.symm) (fun v hv => Or.inl (by rwa [hr] at hv))

theorem deficit_own (rs : List (Row × ℚ)) (n : Nat) : ∀ t ∈ (deficitVariables rs n).2, t.vid ∈ (deficitVariables rs n).1.map DefVar.vid := by
  intro t ht
  simp only [deficitVariables, List.map_append, map_saveIndex, List.mem_append] at ht ⊢
  rcases ht with (h | h) | h
  · obtain ⟨i, r, hi, rfl⟩ := mem_saveIndex.1 h
    exact Or.inl (Or.inl (mem_saveIndex.2 ⟨i, r, hi, rfl⟩))
  · obtain ⟨i, r, hi, rfl⟩ := mem_saveIndex.1 h
    exact Or.inl (Or.inr (mem_saveIndex.2 ⟨i, r, hi, rfl⟩))
  · obtain ⟨i, r, hi, rfl⟩ := mem_saveIndex.1 h
    exact Or.inr (mem_saveIndex.2 ⟨i, r, hi, rfl⟩)

theorem refWF_elastic {m : Market} (hm : RefWF m) (k : CKey) (c : VCost) : RefWF (m.makeElastic k c).1 := by
  simp only [Market.makeElastic]
  split
  · exact hm
  split
  · exact hm
  split
  · exact hm
  rename_i rs _ _
  have hmem : ∀ v ∈ (deficitVariables rs m.nextVar).1.map DefVar.vid, m.nextVar ≤ v := by
    intro v hv; rw [deficit_vids] at hv; simp only [List.mem_range'_1] at hv; omega
  have key : ∀ (n : Nat), m.nextVar ≤ n → (∀ v ∈ (deficitVariables rs m.nextVar).1.map DefVar.vid, v < n) →
      RefWF { m with deficits := m.deficits.set k (deficitVariables rs m.nextVar), nextVar := n } := by
    intro n hn hlt
    have hdv : ∀ v ∈ ({ m with deficits := m.deficits.set k (deficitVariables rs m.nextVar), nextVar := n } : Market).defVids,
        v ∈ m.defVids ∨ v ∈ (deficitVariables rs m.nextVar).1.map DefVar.vid := by
      intro v hv
      simp only [Market.defVids, List.mem_flatMap] at hv ⊢
      obtain ⟨e, he, hv⟩ := hv
      rcases Dict.mem_set he with rfl | he
      · exact Or.inr hv
      · exact Or.inl ⟨e, he, hv⟩
    refine ⟨?_, ?_, ?_⟩
    · intro v hv
      have h1 := hm.refs v hv
      refine ⟨by dsimp only; omega, fun hc => ?_⟩
      rcases hdv v hc with h | h
      · exact h1.2 h
      · have := hmem v h; omega
    · intro v hv
      rcases hdv v hv with h | h
      · have := hm.defs v h; dsimp only; omega
      · exact hlt v h
    · intro e he t ht
      rcases Dict.mem_set he with rfl | he
      · exact deficit_own _ _ t ht
      · exact hm.own e he t ht
  split
  · rename_i h
    have h0 : (deficitVariables rs m.nextVar).1 = [] := by simpa using h
    exact key m.nextVar le_rfl (by rw [h0]; simp)
  · rename_i h
    refine key _ (le_nextAfter hmem ?_) (fun v hv => lt_nextAfter hv)
    intro h0; simp at h0; simp [h0] at h

theorem losses_lv_ne {m : Market} (hI : InterWF m) {ds : List InterDef} {vs : List InterVar} (hds : m.dirs = some ds)
    (hvs : m.inters = some vs) {f : List LossFn} {n c : Nat} {ws : List WeightVar} {lv : List LossVar}
    (hne : (linkLossToWeights ws lv (mergeFromRegion f ds) c).1 ≠ []) : lossVariables vs (mergeFromRegion f ds) n ≠ [] := by
  intro h0
  apply hne
  have hfrnil : mergeFromRegion f ds = [] := by
    by_contra hfr0
    obtain ⟨g, hg⟩ := List.exists_mem_of_ne_nil _ hfr0
    have hg' := hg
    simp only [mergeFromRegion, List.mem_flatMap, List.mem_map, List.mem_filter] at hg'
    obtain ⟨f0, _, d, ⟨hd1, hd2⟩, rfl⟩ := hg'
    simp only [decide_eq_true_eq] at hd2
    rcases hI with ⟨h, _⟩ | ⟨ds', n', h1, h2, h3, h4⟩
    · rw [h] at hds; simp at hds
    · rw [h1] at hds; injection hds with hds; subst hds
      rw [h2] at hvs; injection hvs with hvs; subst hvs
      obtain ⟨i, hi⟩ := List.mem_iff_getElem?.1 hd1
      obtain ⟨l, hl, _⟩ := mem_lossVariables_of (n := n) (show (⟨d.inter, d.link, n' + i, d.min, d.max, d.gcf⟩ : InterVar) ∈ interVariables ds' n' from mem_saveIndex.2 ⟨i, d, hi, rfl⟩) hg hd2.1.symm hd2.2.symm
      exact absurd hl (by rw [h0]; simp)
  simp [linkLossToWeights, hfrnil]

theorem lossVariables_mem {vs : List InterVar} {fr : List LossFnR} {n : Nat} {l : LossVar} (h : l ∈ lossVariables vs fr n) : n ≤ l.vid := by
  simp only [lossVariables, lossVariablesAux, List.map_flatMap, List.mem_flatMap, List.mem_map] at h
  obtain ⟨a, ha, _, ⟨_, _, rfl⟩, rfl⟩ := h
  obtain ⟨i, v, hi, rfl⟩ := mem_saveIndex.1 ha
  dsimp only; omega

theorem lossMap_mem {vs : List InterVar} {im : List InterMap} {fr : List LossFnR} {n : Nat} {l : VarReg} (h : l ∈ lossMap vs im fr n) :
    l.vid ∈ (lossVariables vs fr n).map LossVar.vid := by
  simp only [lossMap, List.mem_flatMap, List.mem_map] at h
  obtain ⟨p, hp, r, _, rfl⟩ := h
  simp only [lossVariables, List.map_map, List.mem_map]
  exact ⟨p, hp, rfl⟩

theorem weightTerms_mem {ws : List WeightVar} {n : Nat} {g : WeightVar → ℚ} {t : Term} (h : t ∈ weightTerms ws n g) :
    t.vid ∈ ws.map WeightVar.vid := by
  simp only [weightTerms, List.mem_flatMap, List.mem_map] at h
  obtain ⟨w, hw, c, _, rfl⟩ := h
  exact List.mem_map_of_mem hw

theorem refWF_losses {m : Market} (hm : RefWF m) (hI : InterWF m) (f : List LossFn) (b : List BreakPt) : RefWF (m.setLosses f b).1 := by
  simp only [Market.setLosses]
  split
  · exact hm
  split
  · rename_i ds vs im hds hvs him
    split
    · exact refWF_same hm rfl rfl rfl
    rename_i hne
    have hne := fun h => hne (List.isEmpty_iff.2 h)
    have hlv := losses_lv_ne (n := m.nextVar) hI hds hvs hne
    set fr := mergeFromRegion f ds
    set lv := lossVariables vs fr m.nextVar with hlve
    set ws := weightVariables b (nextAfter (lv.map LossVar.vid)) with hws
    have h1 : ∀ v ∈ lv.map LossVar.vid, m.nextVar ≤ v := by
      intro v hv
      obtain ⟨l, hl, rfl⟩ := List.mem_map.1 hv
      exact lossVariables_mem hl
    have h2 : m.nextVar ≤ nextAfter (lv.map LossVar.vid) := le_nextAfter h1 (by simpa using hlv)
    have h3 : ∀ v ∈ ws.map WeightVar.vid, m.nextVar ≤ v := by
      intro v hv
      rw [hws, weightVariables_vids] at hv
      simp only [List.mem_range'_1] at hv; omega
    have h4 : ∀ v, v ∈ lv.map LossVar.vid ∨ v ∈ ws.map WeightVar.vid →
        m.nextVar ≤ v ∧ v < nextAfter (lv.map LossVar.vid ++ ws.map WeightVar.vid) := by
      intro v hv
      exact ⟨hv.elim (h1 v) (h3 v), lt_nextAfter (List.mem_append.2 hv)⟩
    refine refWF_of hm rfl ?_ ?_
    · apply le_nextAfter
      · intro j hj
        exact (h4 j (List.mem_append.1 hj)).1
      · simp [hlv]
    · intro v hv
      simp only [Market.refs, Option.getD_some, List.mem_append] at hv
      have hin : v ∈ (m.inters.getD []).map InterVar.vid → v ∈ m.refs := by
        intro h; simp only [Market.refs, List.mem_append]; tauto
      rcases hv with ((((((((h | h) | h) | h) | h) | h) | h) | h) | h)
      · left; simp only [Market.refs, List.mem_append]; tauto
      · left; simp only [Market.refs, List.mem_append]; tauto
      · exact Or.inl (hin h)
      · exact Or.inr (h4 v (Or.inl h))
      · right
        apply h4 v; left
        obtain ⟨l, hl, rfl⟩ := List.mem_map.1 h
        exact lossMap_mem hl
      · exact Or.inr (h4 v (Or.inr h))
      · right
        apply h4 v; right
        obtain ⟨t, ht, rfl⟩ := List.mem_map.1 h
        simp only [List.mem_append] at ht
        rcases ht with (ht | ht) | ht
        · exact weightTerms_mem ht
        · exact weightTerms_mem ht
        · simp only [linkLossToWeights, List.mem_flatMap, List.mem_map] at ht
          obtain ⟨w, hw, _, _, _, _, rfl⟩ := ht
          exact List.mem_map_of_mem hw
      · left; simp only [Market.refs, List.mem_append]; tauto
      · obtain ⟨t, ht, rfl⟩ := List.mem_map.1 h
        simp only [List.mem_append] at ht
        rcases ht with ht | ht
        · left
          simp only [linkWeightsToFlow, List.mem_flatMap, List.mem_map] at ht
          obtain ⟨_, _, w, hw, rfl⟩ := ht
          apply hin
          rw [hvs]
          exact List.mem_map_of_mem (List.mem_filter.1 hw).1
        · right
          apply h4; left
          simp only [linkLossToWeights, List.mem_flatMap, List.mem_map] at ht
          obtain ⟨_, _, w, hw, rfl⟩ := ht
          exact List.mem_map_of_mem (List.mem_filter.1 hw).1
  · exact refWF_same hm rfl rfl rfl

theorem bidCosts_mem {vars : List BidVar} {ps : List BidRow} {us : List UnitInfo} {c : BidCost}
    (h : c ∈ scaleByLossFactors (bidCosts vars ps) us) : c.vid ∈ vars.map BidVar.vid := by
  simp only [scaleByLossFactors, List.mem_flatMap, List.mem_map] at h
  obtain ⟨a, ha, _, _, rfl⟩ := h
  simp only [bidCosts, List.mem_flatMap, List.mem_map] at ha
  obtain ⟨v, hv, _, _, _, _, rfl⟩ := ha
  exact List.mem_map_of_mem hv

theorem tiePairs_mem {costs : List BidCost} {vars : List BidVar} {us : List UnitInfo} {p : TieBid × TieBid}
    (h : p ∈ tiePairs (tieBids costs vars us)) : p.1 ∈ tieBids costs vars us ∧ p.2 ∈ tieBids costs vars us := by
  have h := mem_of_mem_dropDup h
  simp only [List.mem_flatMap, List.mem_map, List.mem_filter] at h
  obtain ⟨a, ha, b, ⟨hb, _⟩, rfl⟩ := h
  exact ⟨ha, hb⟩

theorem tieBids_mem {costs : List BidCost} {vars : List BidVar} {us : List UnitInfo} {t : TieBid} (h : t ∈ tieBids costs vars us) :
    t.vid ∈ costs.map BidCost.vid := by
  simp only [tieBids, List.mem_flatMap, List.mem_map, List.mem_filter] at h
  obtain ⟨cv, ⟨c, ⟨hc, _⟩, v, _, rfl⟩, u, _, rfl⟩ := h
  exact List.mem_map_of_mem hc

theorem refWF_prim {good : Prop} {ks : List Part} {m m' : Market} (h : Prim good ks m m') (hm : RefWF m ∧ InterWF m) : RefWF m' := by
  obtain ⟨hm, hI⟩ := hm
  cases h with
  | bids _ b =>
    simp only [Market.setVolumeBids]
    split
    · exact hm
    split
    · exact hm
    split
    · rename_i h
      have h0 : bidVariables b m.nextVar = [] := by simpa using h
      refine refWF_of hm rfl le_rfl ?_
      intro v hv
      simp only [Market.refs, h0, Option.getD_some, List.map_nil, List.nil_append, List.append_nil, List.mem_append] at hv ⊢
      tauto
    · rename_i h
      have hmem : ∀ v ∈ (bidVariables b m.nextVar).map BidVar.vid, m.nextVar ≤ v := by
        intro v hv; rw [bidVariables_vids] at hv; simp only [List.mem_range'_1] at hv; omega
      refine refWF_of hm rfl (le_nextAfter hmem ?_) ?_
      · intro h0; simp at h0; simp [h0] at h
      · intro v hv
        have hnew := fun h => (⟨hmem v h, lt_nextAfter h⟩ : _ ∧ _)
        simp only [Market.refs, Option.getD_some, List.mem_append] at hv ⊢
        tauto
  | prices _ b =>
    simp only [Market.setPriceBids]
    split
    · exact hm
    split
    · exact hm
    split
    · exact hm
    rename_i vars hv _ _
    refine refWF_of hm rfl le_rfl ?_
    intro v hv'
    left
    simp only [Market.refs, Option.getD_some, List.mem_append] at hv' ⊢
    rcases hv' with ((((((((h | h) | h) | h) | h) | h) | h) | h) | h)
    · tauto
    · obtain ⟨c, hc, rfl⟩ := List.mem_map.1 h
      have := bidCosts_mem hc
      rw [hv, Option.getD_some]
      tauto
    all_goals tauto
  | unitSet _ k t hk ht => simp only [Market.addUnitSet]; split <;> exact refWF_same hm rfl rfl rfl
  | regSet _ k t hk ht => simp only [Market.addRegSet]; split <;> exact refWF_same hm rfl rfl rfl
  | elastic _ k c => exact refWF_elastic hm k c
  | removeFs =>
    have key : ∀ (mm : Market), RefWF mm → RefWF { mm with deficits := mm.deficits.erase .fastStart } := by
      intro mm hm
      have hs := Dict.erase_sublist mm.deficits .fastStart
      have hd : ∀ v ∈ ({ mm with deficits := mm.deficits.erase .fastStart } : Market).defVids, v ∈ mm.defVids := by
        intro v hv
        simp only [Market.defVids, List.mem_flatMap] at hv ⊢
        obtain ⟨e, he, hv⟩ := hv
        exact ⟨e, hs.subset he, hv⟩
      exact ⟨fun v hv => ⟨(hm.refs v hv).1, fun hc => (hm.refs v hv).2 (hd v hc)⟩, fun v hv => hm.defs v (hd v hv),
        fun e he => hm.own e (hs.subset he)⟩
    simp only [Market.removeFastStart]
    split <;> split
    · exact key _ (refWF_same hm rfl rfl rfl)
    · exact refWF_same hm rfl rfl rfl
    · exact key _ hm
    · exact hm
  | inters _ d =>
    simp only [Market.setInterconnectors]
    split
    · exact hm
    split
    · rename_i h
      have h0 : interVariables d m.nextVar = [] := by simpa using h
      refine refWF_of hm rfl le_rfl ?_
      intro v hv
      simp only [Market.refs, h0, Option.getD_some, List.map_nil, List.nil_append, List.append_nil, List.mem_append] at hv ⊢
      tauto
    · rename_i h
      have hmem : ∀ v ∈ (interVariables d m.nextVar).map InterVar.vid, m.nextVar ≤ v := by
        intro v hv; rw [interVariables_vids] at hv; simp only [List.mem_range'_1] at hv; omega
      refine refWF_of hm rfl (le_nextAfter hmem ?_) ?_
      · intro h0; simp at h0; simp [h0] at h
      · intro v hv
        have hnew := fun h => (⟨hmem v h, lt_nextAfter h⟩ : _ ∧ _)
        simp only [Market.refs, Option.getD_some, List.mem_append] at hv ⊢
        tauto
  | losses _ f b => exact refWF_losses hm hI f b
  | generic _ g =>
    simp only [Market.setGeneric, Market.elasticOpt]
    split
    · exact hm
    · split <;> exact refWF_same hm rfl rfl rfl
  | linkUnits _ g => simp only [Market.linkUnits]; split <;> exact refWF_same hm rfl rfl rfl
  | linkRegions _ g => simp only [Market.linkRegions]; split <;> exact refWF_same hm rfl rfl rfl
  | linkInters _ g => simp only [Market.linkInters]; split <;> exact refWF_same hm rfl rfl rfl
  | tie _ ps hne hp =>
    obtain ⟨costs, vars, e1, e2, rfl⟩ := hp
    refine refWF_of hm rfl le_rfl ?_
    intro v hv
    left
    have hc : ∀ t ∈ tieBids costs vars m.units, t.vid ∈ m.refs := by
      intro t ht
      have := tieBids_mem ht
      simp only [Market.refs, e1, Option.getD_some, List.mem_append]
      tauto
    simp only [Market.refs, Option.getD_some, List.mem_append] at hv
    rcases hv with ((((((((h | h) | h) | h) | h) | h) | h) | h) | h)
    iterate 7 (simp only [Market.refs, List.mem_append]; tauto)
    · obtain ⟨t, ht, rfl⟩ := List.mem_map.1 h
      simp only [tieConstraints, List.mem_append] at ht
      rcases ht with ht | ht
      · obtain ⟨i, p, hi, rfl⟩ := mem_saveIndex.1 ht
        exact hc _ (tiePairs_mem (List.mem_of_getElem? hi)).1
      · obtain ⟨i, p, hi, rfl⟩ := mem_saveIndex.1 ht
        exact hc _ (tiePairs_mem (List.mem_of_getElem? hi)).2
    · simp only [Market.refs, List.mem_append]; tauto

theorem Reached.refs {m : Market} (h : Reached m) : RefWF m := by
  obtain ⟨r, u, di, m0, ops, h1, h2, rfl⟩ := h
  have h3 : RefWF m0 ∧ InterWF m0 := by
    rw [(init_fresh h1).1]
    refine ⟨⟨?_, ?_, ?_⟩, (wf_fresh r u di).2.1⟩ <;> simp [Market.refs, Market.defVids]
  exact (run_invariant (good := True) (P := fun m => RefWF m ∧ InterWF m)
    (fun m m' ks hp hq => ⟨refWF_prim hp hq, interWF_prim hp hq.2⟩) (fun _ => h2) h3).1

end Verif
