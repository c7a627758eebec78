import Verif.Proofs.PowerStep
import Verif.Proofs.Merit

/-! Which variables and constraints of a market are about shares and which about amounts of power. -/

namespace Verif

/-- ids of the interpolation weights -/
def Market.weightRefs (m : Market) : List Nat := (m.weights.getD []).map WeightVar.vid ++ (m.lossLhs.getD []).map Term.vid

/-- ids of bids, flows and losses, as they occur in the tables -/
def Market.plainRefs (m : Market) : List Nat :=
  (m.bids.getD []).map BidVar.vid ++ (m.bidCost.getD []).map BidCost.vid ++ (m.inters.getD []).map InterVar.vid ++
  (m.losses.getD []).map LossVar.vid ++ (m.lossReg.getD []).map VarReg.vid ++ (m.tieLhs.getD []).map Term.vid ++
  (m.dynRhs.getD []).map DynRow.rhsVid

def PlainWF (m : Market) : Prop := ∀ v ∈ m.plainRefs, v ∉ m.weightRefs

theorem RefWF.plain {m : Market} (h : RefWF m) {v : Nat} (hv : v ∈ m.plainRefs) : v < m.nextVar ∧ v ∉ m.defVids :=
  h.refs v (by simp only [Market.plainRefs, Market.refs, List.mem_append] at hv ⊢; tauto)

theorem RefWF.weight {m : Market} (h : RefWF m) {v : Nat} (hv : v ∈ m.weightRefs) : v < m.nextVar ∧ v ∉ m.defVids :=
  h.refs v (by simp only [Market.weightRefs, Market.refs, List.mem_append] at hv ⊢; tauto)

theorem plainWF_same {m m' : Market} (hm : PlainWF m) (hb : m'.plainRefs = m.plainRefs) (hn : m'.weightRefs = m.weightRefs) : PlainWF m' := by
  unfold PlainWF; rw [hb, hn]; exact hm

theorem plainWF_of {m m' : Market} (hm : PlainWF m) (hr : RefWF m) (hn : m'.weightRefs = m.weightRefs)
    (hp : ∀ v ∈ m'.plainRefs, v ∈ m.plainRefs ∨ m.nextVar ≤ v) : PlainWF m' := by
  intro v hv hc
  rw [hn] at hc
  rcases hp v hv with h | h
  · exact hm v h hc
  · have := (hr.weight hc).1; omega

theorem plainWF_losses {m : Market} (hm : PlainWF m) (hr : RefWF m) (hI : InterWF m) (f : List LossFn) (b : List BreakPt) :
    PlainWF (m.setLosses f b).1 := by
  simp only [Market.setLosses]
  split
  · exact hm
  split
  · rename_i ds vs im hds hvs him
    split
    · exact plainWF_same hm rfl rfl
    rename_i hne
    have hne := fun h => hne (List.isEmpty_iff.2 h)
    have hlv := losses_lv_ne (n := m.nextVar) hI hds hvs hne
    set fr := mergeFromRegion f ds
    set lv := lossVariables vs fr m.nextVar with hlve
    set ws := weightVariables b (nextAfter (lv.map LossVar.vid)) with hws
    have h1 : ∀ v ∈ lv.map LossVar.vid, m.nextVar ≤ v := by
      intro v hv
      obtain ⟨l, hl, rfl⟩ := List.mem_map.1 hv
      exact lossVariables_mem hl
    have h2 : m.nextVar ≤ nextAfter (lv.map LossVar.vid) := le_nextAfter h1 (by simpa using hlv)
    have h3 : ∀ v ∈ ws.map WeightVar.vid, nextAfter (lv.map LossVar.vid) ≤ v := by
      intro v hv
      rw [hws, weightVariables_vids] at hv
      simp only [List.mem_range'_1] at hv; omega
    intro v hv hc
    have hw : nextAfter (lv.map LossVar.vid) ≤ v := by
      apply h3
      simp only [Market.weightRefs, Option.getD_some, List.mem_append] at hc
      rcases hc with hc | hc
      · exact hc
      · obtain ⟨t, ht, rfl⟩ := List.mem_map.1 hc
        simp only [List.mem_append] at ht
        rcases ht with (ht | ht) | ht
        · exact weightTerms_mem ht
        · exact weightTerms_mem ht
        · simp only [linkLossToWeights, List.mem_flatMap, List.mem_map] at ht
          obtain ⟨w, hw, _, _, _, _, rfl⟩ := ht
          exact List.mem_map_of_mem hw
    have hold : v ∉ m.plainRefs := fun h => by have := (hr.plain h).1; omega
    have hnew : v ∉ lv.map LossVar.vid := fun h => by have := lt_nextAfter h; omega
    simp only [Market.plainRefs, List.mem_append, not_or] at hold
    simp only [Market.plainRefs, Option.getD_some, List.mem_append] at hv
    rcases hv with ((((((h | h) | h) | h) | h) | h) | h)
    · tauto
    · tauto
    · tauto
    · exact hnew h
    · obtain ⟨l, hl, rfl⟩ := List.mem_map.1 h
      exact hnew (lossMap_mem hl)
    · tauto
    · obtain ⟨t, ht, rfl⟩ := List.mem_map.1 h
      simp only [List.mem_append] at ht
      rcases ht with ht | ht
      · simp only [linkWeightsToFlow, List.mem_flatMap, List.mem_map] at ht
        obtain ⟨_, _, w, hx, rfl⟩ := ht
        apply hold.1.1.1.1.2
        rw [hvs]
        exact List.mem_map_of_mem (List.mem_filter.1 hx).1
      · apply hnew
        simp only [linkLossToWeights, List.mem_flatMap, List.mem_map] at ht
        obtain ⟨_, _, w, hx, rfl⟩ := ht
        exact List.mem_map_of_mem (List.mem_filter.1 hx).1
  · exact plainWF_same hm rfl rfl

theorem plainWF_prim {good : Prop} {ks : List Part} {m m' : Market} (h : Prim good ks m m') (hm : PlainWF m) (hr : RefWF m) (hI : InterWF m) :
    PlainWF m' := by
  cases h with
  | bids _ b =>
    simp only [Market.setVolumeBids]
    have hmem : ∀ v ∈ (bidVariables b m.nextVar).map BidVar.vid, m.nextVar ≤ v := by
      intro v hv; rw [bidVariables_vids] at hv; simp only [List.mem_range'_1] at hv; omega
    split
    · exact hm
    split
    · exact hm
    split
    all_goals
      refine plainWF_of hm hr rfl ?_
      intro v hv
      have := hmem v
      simp only [Market.plainRefs, Option.getD_some, List.mem_append] at hv ⊢
      tauto
  | prices _ b =>
    simp only [Market.setPriceBids]
    split
    · exact hm
    split
    · exact hm
    split
    · exact hm
    rename_i vars hv _ _
    refine plainWF_of hm hr rfl ?_
    intro v hv'
    left
    simp only [Market.plainRefs, Option.getD_some, List.mem_append] at hv' ⊢
    rcases hv' with ((((((h | h) | h) | h) | h) | h) | h)
    · tauto
    · obtain ⟨c, hc, rfl⟩ := List.mem_map.1 h
      have := bidCosts_mem hc
      rw [hv, Option.getD_some]
      tauto
    all_goals tauto
  | unitSet _ k t hk ht => simp only [Market.addUnitSet]; split <;> exact plainWF_same hm rfl rfl
  | regSet _ k t hk ht => simp only [Market.addRegSet]; split <;> exact plainWF_same hm rfl rfl
  | elastic _ k c =>
    simp only [Market.makeElastic]
    split
    · exact hm
    split
    · exact hm
    split
    · exact hm
    split <;> exact plainWF_same hm rfl rfl
  | removeFs =>
    simp only [Market.removeFastStart]
    split <;> split <;> exact plainWF_same hm rfl rfl
  | inters _ d =>
    simp only [Market.setInterconnectors]
    have hmem : ∀ v ∈ (interVariables d m.nextVar).map InterVar.vid, m.nextVar ≤ v := by
      intro v hv; rw [interVariables_vids] at hv; simp only [List.mem_range'_1] at hv; omega
    split
    · exact hm
    split
    all_goals
      refine plainWF_of hm hr rfl ?_
      intro v hv
      have := hmem v
      simp only [Market.plainRefs, Option.getD_some, List.mem_append] at hv ⊢
      tauto
  | losses _ f b => exact plainWF_losses hm hr hI f b
  | generic _ g =>
    simp only [Market.setGeneric, Market.elasticOpt]
    split
    · exact hm
    · split <;> exact plainWF_same hm rfl rfl
  | linkUnits _ g => simp only [Market.linkUnits]; split <;> exact plainWF_same hm rfl rfl
  | linkRegions _ g => simp only [Market.linkRegions]; split <;> exact plainWF_same hm rfl rfl
  | linkInters _ g => simp only [Market.linkInters]; split <;> exact plainWF_same hm rfl rfl
  | tie _ ps hne hp =>
    obtain ⟨costs, vars, e1, e2, rfl⟩ := hp
    refine plainWF_of hm hr rfl ?_
    intro v hv
    left
    have hc : ∀ t ∈ tieBids costs vars m.units, t.vid ∈ m.plainRefs := by
      intro t ht
      have := tieBids_mem ht
      simp only [Market.plainRefs, e1, Option.getD_some, List.mem_append]
      tauto
    simp only [Market.plainRefs, Option.getD_some, List.mem_append] at hv
    rcases hv with ((((((h | h) | h) | h) | h) | h) | h)
    iterate 5 (simp only [Market.plainRefs, List.mem_append]; tauto)
    · obtain ⟨t, ht, rfl⟩ := List.mem_map.1 h
      simp only [tieConstraints, List.mem_append] at ht
      rcases ht with ht | ht
      · obtain ⟨i, p, hi, rfl⟩ := mem_saveIndex.1 ht
        exact hc _ (tiePairs_mem (List.mem_of_getElem? hi)).1
      · obtain ⟨i, p, hi, rfl⟩ := mem_saveIndex.1 ht
        exact hc _ (tiePairs_mem (List.mem_of_getElem? hi)).2
    · simp only [Market.plainRefs, List.mem_append]; tauto

/-- The constraints on flows and losses have no violation variables: those of the set of weights are in the constraints on their
sums. -/
structure LinkWF (m : Market) : Prop where
  lhs : ∀ d, (CKey.interpWeights, d) ∈ m.deficits → ∀ t ∈ d.2, ∀ l ∈ m.lossLhs.getD [], l.cid ∉ m.sumIds → l.cid ≠ t.cid
  dyn : ∀ d, (CKey.interpWeights, d) ∈ m.deficits → ∀ t ∈ d.2, ∀ r ∈ m.dynRhs.getD [], r.cid ≠ t.cid

theorem linkWF_of {m m' : Market} (hm : LinkWF m) (h1 : ∀ d, (CKey.interpWeights, d) ∈ m'.deficits → (CKey.interpWeights, d) ∈ m.deficits)
    (h2 : m'.lossLhs = m.lossLhs) (h3 : m'.dynRhs = m.dynRhs)
    (h4 : m'.conRhs.get? .interpWeights = m.conRhs.get? .interpWeights) : LinkWF m' where
  lhs := by
    intro d hd t ht l hl hs
    have e : m'.sumIds = m.sumIds := by unfold Market.sumIds; rw [h4]
    rw [h2] at hl
    rw [e] at hs
    exact hm.lhs d (h1 d hd) t ht l hl hs
  dyn := by
    intro d hd t ht r hr
    rw [h3] at hr
    exact hm.dyn d (h1 d hd) t ht r hr

theorem dyn_sumIds {m : Market} (h : ConWF m) {i : Nat} (h1 : i ∈ (m.dynRhs.getD []).map DynRow.cid) : i ∉ m.sumIds := by
  intro h2
  have hc := (h.rows i).1
  unfold Market.sumIds at h2
  have h3 : i ∈ m.conRhs.flatMap (fun d => d.2.map Row.cid) := by
    cases hg : m.conRhs.get? .interpWeights with
    | none => rw [hg] at h2; simp at h2
    | some rows =>
      rw [hg, Option.getD_some] at h2
      exact List.mem_flatMap.2 ⟨_, Dict.mem_of_get? hg, h2⟩
  have a := List.count_pos_iff.2 h1
  have b := List.count_pos_iff.2 h3
  unfold Market.rcount at hc
  omega

theorem linkWF_prim {ks : List Part} {m m' : Market} (h : Prim True ks m m') (hm : LinkWF m) (hc : ConWF m) (hI : InterWF m) : LinkWF m' := by
  have sub : ∀ {k : CKey} {v : List DefVar × List Term}, k ≠ .interpWeights → ∀ d, (CKey.interpWeights, d) ∈ m.deficits.set k v →
      (CKey.interpWeights, d) ∈ m.deficits := by
    intro k v hk d hd
    rcases Dict.mem_set hd with h | h
    · exact absurd (congrArg Prod.fst h).symm hk
    · exact h
  cases h with
  | bids _ b =>
    simp only [Market.setVolumeBids]
    split
    · exact hm
    split
    · exact hm
    split <;> exact linkWF_of hm (fun _ h => h) rfl rfl rfl
  | prices _ b =>
    simp only [Market.setPriceBids]
    split
    · exact hm
    split
    · exact hm
    split
    · exact hm
    exact linkWF_of hm (fun _ h => h) rfl rfl rfl
  | unitSet _ k t hk ht =>
    have hne : k ≠ .interpWeights := by rintro rfl; simp [CKey.isUnit] at hk
    simp only [Market.addUnitSet]
    split <;> exact linkWF_of hm (fun _ h => h) rfl rfl (sumIds_set hne _)
  | regSet _ k t hk ht => simp only [Market.addRegSet]; split <;> exact linkWF_of hm (fun _ h => h) rfl rfl rfl
  | elastic _ k c =>
    simp only [Market.makeElastic]
    split
    · exact hm
    rename_i rows hrows
    split
    · exact hm
    rename_i rs hrs
    split
    · exact hm
    by_cases hk : k = .interpWeights
    · subst hk
      have hin : ∀ t ∈ (deficitVariables rs m.nextVar).2, t.cid ∈ m.sumIds := by
        intro t ht
        obtain ⟨r, hr, e⟩ := deficit_cid ht
        have hr := costRows_mem hrs hr
        have hg : m.conRhs.get? .interpWeights = some rows := by
          unfold Market.rowsOf at hrows
          split at hrows
          · rename_i hm'
            have := hc.mktMkt _ (Dict.mem_of_get? hm')
            simp [CKey.isMarket] at this
          · exact hrows
        unfold Market.sumIds
        rw [hg, Option.getD_some, ← e]
        exact List.mem_map_of_mem hr
      have key : ∀ n, LinkWF { m with deficits := m.deficits.set .interpWeights (deficitVariables rs m.nextVar), nextVar := n } := by
        intro n
        refine ⟨?_, ?_⟩
        · intro d hd t ht l hl hs
          rcases Dict.mem_set hd with h | h
          · injection h with _ h
            subst h
            intro e
            exact hs (e ▸ hin t ht)
          · exact hm.lhs d h t ht l hl hs
        · intro d hd t ht r hr
          rcases Dict.mem_set hd with h | h
          · injection h with _ h
            subst h
            intro e
            exact dyn_sumIds hc (List.mem_map_of_mem hr) (e ▸ hin t ht)
          · exact hm.dyn d h t ht r hr
      split
      · exact key m.nextVar
      · exact key _
    · split <;> exact linkWF_of hm (sub hk) rfl rfl rfl
  | removeFs =>
    have e : Dict.get? (m.conRhs.erase .fastStart) .interpWeights = m.conRhs.get? .interpWeights := Dict.get?_erase_ne _ (by decide)
    have hs := Dict.erase_sublist m.deficits .fastStart
    simp only [Market.removeFastStart]
    split <;> split
    · exact linkWF_of hm (fun _ h => hs.subset h) rfl rfl e
    · exact linkWF_of hm (fun _ h => h) rfl rfl e
    · exact linkWF_of hm (fun _ h => hs.subset h) rfl rfl rfl
    · exact hm
  | inters _ d =>
    simp only [Market.setInterconnectors]
    split
    · exact hm
    split <;> exact linkWF_of hm (fun _ h => h) rfl rfl rfl
  | losses _ f b =>
    simp only [Market.setLosses]
    split
    · exact hm
    split
    · rename_i ds vs im hds hvs him
      split
      · exact linkWF_of hm (fun _ h => h) rfl rfl rfl
      rename_i hne
      have hf := losses_cids (fs := f) hI hds hvs m.nextVar m.nextCon (fun h => hne (List.isEmpty_iff.2 h))
      dsimp only at hf
      obtain ⟨f1, f2, f3, -⟩ := hf
      have hlt : ∀ d, (CKey.interpWeights, d) ∈ m.deficits → ∀ t ∈ d.2, t.cid < m.nextCon := by
        intro d hd t ht
        obtain ⟨own, ho⟩ := hc.own
        refine (ho .interpWeights t.cid ?_).2
        right; right; right; right; left
        exact ⟨d, hd, t, ht, rfl⟩
      refine ⟨?_, ?_⟩
      · intro d hd t ht l hl hs
        have h1 := hlt d hd t ht
        simp only [Market.sumIds, Dict.get?_set_self, Option.getD_some] at hs hl
        rw [List.append_assoc] at hl
        rcases List.mem_append.1 hl with hl | hl
        · exact absurd (f1 l hl) hs
        · have := (f2 l hl).2
          omega
      · intro d hd t ht r hr
        have h1 := hlt d hd t ht
        have := (f3 r hr).2
        omega
    · exact linkWF_of hm (fun _ h => h) rfl rfl rfl
  | generic _ g =>
    simp only [Market.setGeneric, Market.elasticOpt]
    split
    · exact hm
    · split <;> exact linkWF_of hm (fun _ h => h) rfl rfl (sumIds_set (by decide) _)
  | linkUnits _ g => simp only [Market.linkUnits]; split <;> exact linkWF_of hm (fun _ h => h) rfl rfl rfl
  | linkRegions _ g => simp only [Market.linkRegions]; split <;> exact linkWF_of hm (fun _ h => h) rfl rfl rfl
  | linkInters _ g => simp only [Market.linkInters]; split <;> exact linkWF_of hm (fun _ h => h) rfl rfl rfl
  | tie _ ps hne hp => exact linkWF_of hm (fun _ h => h) rfl rfl (sumIds_set (by decide) _)

/-- the invariants used for the unit of power -/
structure PowWF (m : Market) : Prop where
  plain : PlainWF m
  link : LinkWF m

theorem Reached.pow {m : Market} (h : Reached m) : PowWF m := by
  obtain ⟨r, u, di, m0, ops, h1, h2, rfl⟩ := h
  have hw := wf_run (ops := []) h1 trivial
  have h3 : PlainWF m0 ∧ RefWF m0 ∧ InterWF m0 := by
    rw [(init_fresh h1).1]
    refine ⟨?_, ⟨?_, ?_, ?_⟩, (wf_fresh r u di).2.1⟩ <;> simp [PlainWF, Market.plainRefs, Market.refs, Market.defVids]
  have h4 : LinkWF m0 ∧ ConWF m0 ∧ InterWF m0 := by
    refine ⟨?_, hw.con, hw.inter⟩
    rw [(init_fresh h1).1]
    constructor <;> simp
  exact ⟨(run_invariant (good := True) (P := fun m => PlainWF m ∧ RefWF m ∧ InterWF m)
    (fun m m' ks hp hq => ⟨plainWF_prim hp hq.1 hq.2.1 hq.2.2, refWF_prim hp hq.2, interWF_prim hp hq.2.2⟩) (fun _ => h2) h3).1,
    (run_invariant (good := True) (P := fun m => LinkWF m ∧ ConWF m ∧ InterWF m)
    (fun m m' ks hp hq => ⟨linkWF_prim hp hq.1 hq.2.1 hq.2.2, conWF_prim hp hq.2, interWF_prim hp hq.2.2⟩) (fun _ => h2) h4).1⟩

/-! ### Factors of variables and constraints -/

/-- ids of the variables that are shares -/
def Market.shareVids (m : Market) : List Nat :=
  m.weightRefs ++ (m.deficits.filter (fun d => d.1.isShare)).flatMap (fun d => d.2.1.map DefVar.vid)

/-- factor of a variable -/
def Market.sv (c : ℚ) (m : Market) (v : Nat) : ℚ := if v ∈ m.shareVids then 1 else c

theorem sv_weight {m : Market} {v : Nat} (c : ℚ) (h : v ∈ m.weightRefs) : m.sv c v = 1 :=
  if_pos (List.mem_append_left _ h)

theorem sv_plain {m : Market} (h : PowWF m) (hr : RefWF m) {v : Nat} (c : ℚ) (hv : v ∈ m.plainRefs) : m.sv c v = c := by
  refine if_neg fun hc => ?_
  rcases List.mem_append.1 hc with h1 | h1
  · exact h.plain v hv h1
  · apply (hr.plain hv).2
    obtain ⟨d, hd, h2⟩ := List.mem_flatMap.1 h1
    exact List.mem_flatMap.2 ⟨d, (List.mem_filter.1 hd).1, h2⟩

theorem count_flatMap_two {α : Type} (g : α → List Nat) (l : List α) (p : α → Bool) {a b : α} (ha : a ∈ l) (hb : b ∈ l) (hpa : p a = true)
    (hpb : p b = false) {v : Nat} (h1 : v ∈ g a) (h2 : v ∈ g b) : 2 ≤ (l.flatMap g).count v := by
  have e : (l.flatMap g).count v = ((l.filter p).flatMap g).count v + ((l.filter (fun a => !p a)).flatMap g).count v := by
    induction l with
    | nil => rfl
    | cons x l ih =>
      have ih' : (l.flatMap g).count v = ((l.filter p).flatMap g).count v + ((l.filter (fun a => !p a)).flatMap g).count v := by
        clear ih ha hb
        induction l with
        | nil => rfl
        | cons x l ih =>
          cases hx : p x <;> simp only [List.filter_cons, hx, Bool.not_true, Bool.not_false, if_true, if_false, List.flatMap_cons, List.count_append, Bool.false_eq_true] <;> omega
      cases hx : p x <;> simp only [List.filter_cons, hx, Bool.not_true, Bool.not_false, if_true, if_false, List.flatMap_cons, List.count_append, Bool.false_eq_true] <;> omega
  have i1 := List.count_pos_iff.2 (List.mem_flatMap.2 ⟨a, List.mem_filter.2 ⟨ha, hpa⟩, h1⟩)
  have i2 : 0 < ((l.filter (fun a => !p a)).flatMap g).count v :=
    List.count_pos_iff.2 (List.mem_flatMap.2 ⟨b, List.mem_filter.2 ⟨hb, by rw [hpb]; rfl⟩, h2⟩)
  omega

theorem sv_def {m : Market} (hr : RefWF m) (hv : VarWF m) (c : ℚ) {e : CKey × List DefVar × List Term} (he : e ∈ m.deficits) {v : Nat}
    (h : v ∈ e.2.1.map DefVar.vid) : m.sv c v = rf c e.1 := by
  unfold Market.sv rf
  cases hk : e.1.isShare with
  | true =>
    have hs : v ∈ m.shareVids := List.mem_append_right _ (List.mem_flatMap.2 ⟨e, List.mem_filter.2 ⟨he, hk⟩, h⟩)
    rw [if_pos hs]
    rfl
  | false =>
    refine (if_neg fun hc => ?_).trans (by simp)
    rcases List.mem_append.1 hc with h1 | h1
    · exact (hr.weight h1).2 (List.mem_flatMap.2 ⟨e, he, h⟩)
    · obtain ⟨d, hd, h2⟩ := List.mem_flatMap.1 h1
      have hd := List.mem_filter.1 hd
      have := count_flatMap_two (fun d : CKey × List DefVar × List Term => d.2.1.map DefVar.vid) m.deficits (fun d => d.1.isShare) hd.1 he hd.2 hk h2 h
      have := (hv v).1
      unfold Market.vcount at this
      omega

/-- ids of the constraints on sums of weights -/
def Market.oneCids (m : Market) : List Nat :=
  m.sumIds ++ (m.deficits.filter (fun d => decide (d.1 = .interpWeights))).flatMap (fun d => d.2.2.map Term.cid)

/-- factor of a constraint -/
def rowFactor (c : ℚ) (m : Market) (own : Nat → CKey) (i : Nat) : ℚ :=
  if own i = .tieBreak ∨ (own i = .interpWeights ∧ i ∈ m.oneCids) then 1 else c

structure RowFactor (c : ℚ) (m : Market) (r : Nat → ℚ) : Prop where
  con : ∀ e ∈ m.conRhs, ∀ t ∈ e.2, r t.cid = rf c e.1
  mkt : ∀ e ∈ m.mktRhs, ∀ t ∈ e.2, r t.cid = rf c e.1
  unit : ∀ e ∈ m.unitCon, ∀ t ∈ e.2, r t.cid = c
  reg : ∀ e ∈ m.regCon, ∀ t ∈ e.2, r t.cid = c
  defs : ∀ e ∈ m.deficits, ∀ t ∈ e.2.2, r t.cid = rf c e.1
  tie : ∀ t ∈ m.tieLhs.getD [], r t.cid = 1
  link : ∀ t ∈ m.lossLhs.getD [], r t.cid = if t.cid ∈ m.sumIds then 1 else c
  dyn : ∀ t ∈ m.dynRhs.getD [], r t.cid = c
  cases : ∀ i, r i = 1 ∨ r i = c

theorem exists_rowFactor {m : Market} (hm : Reached m) (c : ℚ) : ∃ r, RowFactor c m r := by
  have hw := hm.wf
  have hp := hm.pow
  obtain ⟨own, ho⟩ := hw.con.own
  have hplain : ∀ k i, InTab m k i → k.isShare = false → rowFactor c m own i = c := by
    intro k i h hk
    have e := (ho k i h).1
    refine if_neg ?_
    rw [e]
    rintro (h | ⟨h, -⟩) <;> subst h <;> simp [CKey.isShare] at hk
  have htie : ∀ i, InTab m .tieBreak i → rowFactor c m own i = 1 := fun i h => if_pos (Or.inl (ho _ i h).1)
  have hone : ∀ i, InTab m .interpWeights i → i ∈ m.oneCids → rowFactor c m own i = 1 := fun i h h' => if_pos (Or.inr ⟨(ho _ i h).1, h'⟩)
  have hlink : ∀ i, InTab m .interpWeights i → i ∉ m.oneCids → rowFactor c m own i = c := by
    intro i h h'
    refine if_neg ?_
    rw [(ho _ i h).1]
    rintro (h | ⟨-, h⟩)
    · cases h
    · exact h' h
  have hgen : ∀ k i, InTab m k i → (k = .interpWeights → i ∈ m.oneCids) → rowFactor c m own i = rf c k := by
    intro k i h h'
    cases hk : k.isShare with
    | false => rw [hplain k i h hk, rf_plain c hk]
    | true =>
      have e1 : rf c k = 1 := by unfold rf; rw [hk]; rfl
      rw [e1]
      cases k <;> simp only [CKey.isShare, Bool.false_eq_true] at hk
      · exact hone i h (h' rfl)
      · exact htie i h
  refine ⟨rowFactor c m own, ?_, ?_, ?_, ?_, ?_, ?_, ?_, ?_, ?_⟩
  · intro e he t ht
    refine hgen e.1 t.cid (Or.inr (Or.inr (Or.inl ⟨e.2, he, t, ht, rfl⟩))) fun hk => ?_
    refine List.mem_append_left _ ?_
    unfold Market.sumIds
    have : m.conRhs.get? .interpWeights = some e.2 := Dict.get?_of_mem hw.con.conKeys (by rw [← hk]; exact he)
    rw [this]
    exact List.mem_map_of_mem ht
  · intro e he t ht
    refine hgen e.1 t.cid (Or.inr (Or.inr (Or.inr (Or.inl ⟨e.2, he, t, ht, rfl⟩)))) fun hk => ?_
    have := hw.con.mktMkt e he
    rw [hk] at this
    simp [CKey.isMarket] at this
  · intro e he t ht
    refine hplain e.1 t.cid (Or.inl ⟨e.2, he, t, ht, rfl⟩) ?_
    have := hw.key.1 e he
    revert this
    cases e.1 <;> simp [CKey.isUnit, CKey.isShare]
  · intro e he t ht
    refine hplain e.1 t.cid (Or.inr (Or.inl ⟨e.2, he, t, ht, rfl⟩)) ?_
    have := hw.key.2 e he
    revert this
    cases e.1 <;> simp [CKey.isMarket, CKey.isShare]
  · intro e he t ht
    refine hgen e.1 t.cid (Or.inr (Or.inr (Or.inr (Or.inr (Or.inl ⟨e.2, he, t, ht, rfl⟩))))) fun hk => ?_
    exact List.mem_append_right _ (List.mem_flatMap.2 ⟨e, List.mem_filter.2 ⟨he, by simpa using hk⟩, List.mem_map_of_mem ht⟩)
  · intro t ht
    exact htie _ (Or.inr (Or.inr (Or.inr (Or.inr (Or.inr (Or.inr ⟨rfl, t, ht, rfl⟩))))))
  · intro t ht
    have hin : InTab m .interpWeights t.cid := Or.inr (Or.inr (Or.inr (Or.inr (Or.inr (Or.inl ⟨rfl, Or.inl ⟨t, ht, rfl⟩⟩)))))
    split
    · rename_i hs
      exact hone _ hin (List.mem_append_left _ hs)
    · rename_i hs
      refine hlink _ hin fun hc => ?_
      rcases List.mem_append.1 hc with h | h
      · exact hs h
      · obtain ⟨e, he, h⟩ := List.mem_flatMap.1 h
        obtain ⟨u, hu, hue⟩ := List.mem_map.1 h
        have he := List.mem_filter.1 he
        simp only [decide_eq_true_eq] at he
        exact hp.link.lhs e.2 (by rw [← he.2]; exact he.1) u hu t ht hs hue.symm
  · intro t ht
    have hin : InTab m .interpWeights t.cid := Or.inr (Or.inr (Or.inr (Or.inr (Or.inr (Or.inl ⟨rfl, Or.inr ⟨t, ht, rfl⟩⟩)))))
    refine hlink _ hin fun hc => ?_
    rcases List.mem_append.1 hc with h | h
    · exact dyn_sumIds hw.con (List.mem_map_of_mem ht) h
    · obtain ⟨e, he, h⟩ := List.mem_flatMap.1 h
      obtain ⟨u, hu, hue⟩ := List.mem_map.1 h
      have he := List.mem_filter.1 he
      simp only [decide_eq_true_eq] at he
      exact hp.link.dyn e.2 (by rw [← he.2]; exact he.1) u hu t ht hue.symm
  · intro i
    unfold rowFactor
    split
    · exact Or.inl rfl
    · exact Or.inr rfl

end Verif
