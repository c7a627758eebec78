import Verif.Proofs.Steps

/-! Invariants about identifiers. -/

namespace Verif

/-! ## Variables -/

/-- number of decision variables with id `i` -/
def Market.vcount (m : Market) (i : Nat) : Nat :=
  ((m.bids.getD []).map BidVar.vid).count i + ((m.inters.getD []).map InterVar.vid).count i +
  ((m.losses.getD []).map LossVar.vid).count i + ((m.weights.getD []).map WeightVar.vid).count i +
  (m.deficits.flatMap (fun d => d.2.1.map DefVar.vid)).count i

theorem vcount_eq (m : Market) (i : Nat) : (m.allVars.map LVar.vid).count i = m.vcount i := by
  have : m.allVars.map LVar.vid = (m.bids.getD []).map BidVar.vid ++ (m.inters.getD []).map InterVar.vid ++
      (m.losses.getD []).map LossVar.vid ++ (m.weights.getD []).map WeightVar.vid ++
      m.deficits.flatMap (fun d => d.2.1.map DefVar.vid) := by
    simp only [Market.allVars, List.map_append, List.map_map, List.map_flatMap]
    rfl
  rw [this]; simp only [List.count_append, Market.vcount]

/-- Variable ids are distinct and below the next id. -/
def VarWF (m : Market) : Prop := ∀ i, m.vcount i ≤ 1 ∧ (m.nextVar ≤ i → m.vcount i = 0)

/-- The interconnector tables come from the definition table. -/
def InterWF (m : Market) : Prop :=
  (m.dirs = none ∧ m.inters = none ∧ m.interReg = none) ∨
  ∃ ds n, m.dirs = some ds ∧ m.inters = some (interVariables ds n) ∧ m.interReg = some (interMap ds n) ∧
    m.interDefsOk ds = true

theorem bidVariables_vids (b : List BidRow) (n : Nat) :
    (bidVariables b n).map BidVar.vid = List.range' n (meltVolumes b).length := by
  simp only [bidVariables, map_saveIndex, saveIndex_ids, List.length_insertionSort]

theorem interVariables_vids (d : List InterDef) (n : Nat) :
    (interVariables d n).map InterVar.vid = List.range' n d.length := by
  simp only [interVariables, map_saveIndex, saveIndex_ids]

theorem weightVariables_vids (d : List BreakPt) (n : Nat) :
    (weightVariables d n).map WeightVar.vid = List.range' n d.length := by
  simp only [weightVariables, map_saveIndex, saveIndex_ids]

theorem deficit_vids (rs : List (Row × ℚ)) (n : Nat) :
    (deficitVariables rs n).1.map DefVar.vid =
      List.range' n ((rs.filter isIneq).length + (rs.filter isEqual).length + (rs.filter isEqual).length) := by
  simp only [deficitVariables, List.map_append, map_saveIndex, saveIndex_ids]
  rw [List.range'_append_1, Nat.add_assoc n, List.range'_append_1]

theorem lossVariablesAux_fr {ds : List InterDef} {fs : List LossFn} (hd : (ds.map (fun d => (d.inter, d.link))).Nodup)
    (hf : (fs.map (fun f => (f.inter, f.link))).Nodup) :
    ((mergeFromRegion fs ds).map (fun f => (f.inter, f.link))).Nodup := by
  induction fs with
  | nil => simp [mergeFromRegion]
  | cons f fs ih =>
    simp only [List.map_cons, List.nodup_cons] at hf
    simp only [mergeFromRegion, List.flatMap_cons, List.map_append]
    rw [List.nodup_append]
    refine ⟨?_, ih hf.2, ?_⟩
    · rw [List.map_map]
      by_cases hex : ∃ d ∈ ds, d.inter = f.inter ∧ d.link = f.link
      · obtain ⟨d, hdm, h1, h2⟩ := hex
        have := filter_key_unique hd hdm
        have h3 : ds.filter (fun b => decide ((b.inter, b.link) = (d.inter, d.link))) =
            ds.filter (fun d => decide (d.inter = f.inter ∧ d.link = f.link)) := by
          apply List.filter_congr; intro b _; rw [h1, h2]; simp
        rw [← h3, this]; simp
      · have : ds.filter (fun d => decide (d.inter = f.inter ∧ d.link = f.link)) = [] := by
          rw [List.filter_eq_nil_iff]; intro d hdm; simp; intro h1 h2; exact hex ⟨d, hdm, h1, h2⟩
        rw [this]; simp
    · intro a ha b hb hab
      simp only [List.map_map, List.mem_map, Function.comp] at ha
      obtain ⟨d, _, rfl⟩ := ha
      obtain ⟨r, hr, rfl⟩ := List.mem_map.1 hb
      obtain ⟨g, hg, hr⟩ := List.mem_flatMap.1 hr
      obtain ⟨d', _, rfl⟩ := List.mem_map.1 hr
      exact hf.1 (List.mem_map.2 ⟨g, hg, hab.symm⟩)

/-- a join with at most one match per row is a sublist -/
theorem flatMap_sublist_map {α β : Type} (l : List α) (f : α → List β) (g : α → β)
    (h : ∀ a ∈ l, f a = [] ∨ f a = [g a]) : (l.flatMap f).Sublist (l.map g) := by
  induction l with
  | nil => simp
  | cons a l ih =>
    have ih := ih (fun b hb => h b (by simp [hb]))
    rw [List.flatMap_cons, List.map_cons]
    rcases h a (by simp) with h0 | h0 <;> rw [h0]
    · exact ih.cons _
    · exact ih.cons_cons _

/-- filtering on a key that is unique gives at most one row -/
theorem filter_key_le_one {α κ : Type} [DecidableEq κ] {l : List α} {key : α → κ} (h : (l.map key).Nodup) (k : κ) :
    l.filter (fun b => decide (key b = k)) = [] ∨
    ∃ a ∈ l, key a = k ∧ l.filter (fun b => decide (key b = k)) = [a] := by
  by_cases hex : ∃ a ∈ l, key a = k
  · obtain ⟨a, ha, rfl⟩ := hex
    exact Or.inr ⟨a, ha, rfl, filter_key_unique h ha⟩
  · left
    rw [List.filter_eq_nil_iff]
    intro a ha; simp; intro hk; exact hex ⟨a, ha, hk⟩

/-- loss variables: ids and links are a sublist of the numbered flow variables -/
theorem lossVariables_sublist' {vs : List InterVar} {fr : List LossFnR} (n : Nat)
    (hf : (fr.map (fun f => (f.inter, f.link))).Nodup) :
    ((lossVariables vs fr n).map (fun l => (l.vid, l.inter, l.link))).Sublist
      (saveIndex vs n (fun i v => (i, v.inter, v.link))) := by
  have e : (saveIndex vs n (fun i v => (i, v.inter, v.link))) = (saveIndex vs n (fun i v =>
    ({ inter := v.inter, link := v.link, vid := i, lb := -1 * Max.max |v.lb| |v.ub|,
       ub := Max.max |v.lb| |v.ub| } : LossVar))).map (fun l => (l.vid, l.inter, l.link)) := by
    rw [map_saveIndex]
  rw [e]
  simp only [lossVariables, lossVariablesAux, List.map_flatMap]
  apply flatMap_sublist_map
  intro l _
  have := filter_key_le_one hf (l.inter, l.link)
  simp only [Prod.mk.injEq] at this
  rcases this with h | ⟨a, _, _, h⟩
  · left; rw [h]; rfl
  · right; rw [h]; rfl

theorem lossVariables_sublist {vs : List InterVar} {fr : List LossFnR} (n : Nat)
    (hf : (fr.map (fun f => (f.inter, f.link))).Nodup) :
    ((lossVariables vs fr n).map LossVar.vid).Sublist (List.range' n vs.length) := by
  have := (lossVariables_sublist' (vs := vs) n hf).map Prod.fst
  rwa [List.map_map, map_saveIndex, saveIndex_ids] at this

theorem lossVariables_keys {vs : List InterVar} {fr : List LossFnR} (n : Nat)
    (hf : (fr.map (fun f => (f.inter, f.link))).Nodup) (hv : (vs.map (fun v => (v.inter, v.link))).Nodup) :
    ((lossVariables vs fr n).map (fun l => (l.inter, l.link))).Nodup := by
  have := (lossVariables_sublist' (vs := vs) n hf).map Prod.snd
  rw [List.map_map, map_saveIndex, saveIndex_vals] at this
  exact hv.sublist this

theorem interWF_prim {good : Prop} {ks : List Part} {m m' : Market} (h : Prim good ks m m') (hm : InterWF m) :
    InterWF m' := by
  have key : ∀ m' : Market, m'.regions = m.regions → m'.dirs = m.dirs → m'.inters = m.inters →
      m'.interReg = m.interReg → InterWF m' := by
    intro m' hr h1 h2 h3
    unfold InterWF at *
    rw [h1, h2, h3]
    have : ∀ ds, m'.interDefsOk ds = m.interDefsOk ds := by
      intro ds; simp only [Market.interDefsOk, hr]
    simp only [this]; exact hm
  cases h with
  | bids _ b =>
    apply key <;> (simp only [Market.setVolumeBids]; split <;> [rfl; (split <;> [rfl; (split <;> rfl)])])
  | prices _ b =>
    apply key <;> (simp only [Market.setPriceBids]; split <;> [rfl; (split <;> [rfl; (split <;> rfl)])])
  | unitSet _ k t hk ht => apply key <;> (simp only [Market.addUnitSet]; split <;> rfl)
  | regSet _ k t hk ht => apply key <;> (simp only [Market.addRegSet]; split <;> rfl)
  | elastic _ k c =>
    apply key <;> (simp only [Market.makeElastic]; split <;> [rfl; (split <;> [rfl; (split <;> [rfl; (split <;> rfl)])])])
  | removeFs => apply key <;> (simp only [Market.removeFastStart]; split <;> split <;> rfl)
  | inters _ d =>
    simp only [Market.setInterconnectors]
    split
    · exact hm
    · rename_i h
      have h : m.interDefsOk d = true := by simpa using h
      split <;> exact Or.inr ⟨d, m.nextVar, rfl, rfl, rfl, h⟩
  | losses _ f b =>
    apply key <;> (simp only [Market.setLosses]; split <;> [rfl; (split <;> [(split <;> rfl); rfl])])
  | generic _ g =>
    apply key <;> (simp only [Market.setGeneric, Market.elasticOpt]; split <;> [rfl; (split; all_goals rfl)])
  | linkUnits _ g => apply key <;> (simp only [Market.linkUnits]; split <;> rfl)
  | linkRegions _ g => apply key <;> (simp only [Market.linkRegions]; split <;> rfl)
  | linkInters _ g => apply key <;> (simp only [Market.linkInters]; split <;> rfl)
  | tie _ ps => exact hm

theorem range'_count_facts (n len i : Nat) :
    (List.range' n len).count i ≤ 1 ∧ (i < n → (List.range' n len).count i = 0) ∧
    (0 < (List.range' n len).count i → i < n + len) := by
  rw [count_range']
  split <;> simp <;> omega

theorem count_zero_of_ge_nextAfter {l : List Nat} {i : Nat} (h : nextAfter l ≤ i) : l.count i = 0 := by
  rw [List.count_eq_zero]
  intro hm
  have := lt_nextAfter hm
  omega

theorem varWF_prim {good : Prop} {ks : List Part} {m m' : Market} (h : Prim good ks m m')
    (hm : VarWF m ∧ InterWF m) : VarWF m' := by
  obtain ⟨hv, hI⟩ := hm
  cases h with
  | bids _ b =>
    simp only [Market.setVolumeBids]
    split
    · exact hv
    split
    · exact hv
    have hr := fun i => range'_count_facts m.nextVar (meltVolumes b).length i
    split
    · rename_i h
      intro i
      have h0 : bidVariables b m.nextVar = [] := by simpa using h
      have := hv i
      simp only [Market.vcount, h0, Option.getD_some, List.map_nil, List.count_nil] at *
      omega
    · rename_i h
      intro i
      have h1 := hr i
      have h2 : nextAfter ((bidVariables b m.nextVar).map BidVar.vid) ≤ i →
          ((bidVariables b m.nextVar).map BidVar.vid).count i = 0 := count_zero_of_ge_nextAfter
      have h3 : m.nextVar ≤ nextAfter ((bidVariables b m.nextVar).map BidVar.vid) := by
        rw [bidVariables_vids]
        apply le_nextAfter
        · intro j hj; simp only [List.mem_range'_1] at hj; omega
        · intro h0
          have : ((bidVariables b m.nextVar).map BidVar.vid) = [] := by rw [bidVariables_vids, h0]
          simp at this; simp [this] at h
      rw [← bidVariables_vids] at h1
      have h4 := hv i
      simp only [Market.vcount, Option.getD_some] at *
      omega
  | prices _ b =>
    simp only [Market.setPriceBids]
    split
    · exact hv
    split
    · exact hv
    split
    · exact hv
    · exact hv
  | unitSet _ k t hk ht => simp only [Market.addUnitSet]; split <;> exact hv
  | regSet _ k t hk ht => simp only [Market.addRegSet]; split <;> exact hv
  | elastic _ k c =>
    simp only [Market.makeElastic]
    split
    · exact hv
    split
    · exact hv
    split
    · exact hv
    rename_i rs _ _
    have hc := fun i => Dict.count_set m.deficits k (deficitVariables rs m.nextVar) (fun d => d.1.map DefVar.vid) i
    have hr := fun i => range'_count_facts m.nextVar
      ((rs.filter isIneq).length + (rs.filter isEqual).length + (rs.filter isEqual).length) i
    simp only [← deficit_vids] at hr
    split
    · rename_i h
      have h0 : (deficitVariables rs m.nextVar).1 = [] := by simpa using h
      intro i
      have h1 := hv i; have h2 := hc i
      simp only [Market.vcount, h0, List.map_nil, List.count_nil] at *
      omega
    · rename_i h
      intro i
      have h1 := hv i; have h2 := hc i; have h3 := hr i
      have h4 : nextAfter ((deficitVariables rs m.nextVar).1.map DefVar.vid) ≤ i →
          ((deficitVariables rs m.nextVar).1.map DefVar.vid).count i = 0 := count_zero_of_ge_nextAfter
      have h5 : m.nextVar ≤ nextAfter ((deficitVariables rs m.nextVar).1.map DefVar.vid) := by
        apply le_nextAfter
        · intro j hj; rw [deficit_vids] at hj; simp only [List.mem_range'_1] at hj; omega
        · intro h0; simp at h0; simp [h0] at h
      simp only [Market.vcount] at *
      omega
  | removeFs =>
    have key : ∀ i, (m.removeFastStart.1).vcount i ≤ m.vcount i ∧ (m.removeFastStart.1).nextVar = m.nextVar := by
      intro i
      have h := Dict.count_erase_le m.deficits .fastStart (fun d => d.1.map DefVar.vid) i
      simp only [Market.removeFastStart]
      split <;> split <;> simp only [Market.vcount, and_true] <;> omega
    intro i
    have := hv i; have := key i
    omega
  | inters _ d =>
    simp only [Market.setInterconnectors]
    split
    · exact hv
    have hr := fun i => range'_count_facts m.nextVar d.length i
    simp only [← interVariables_vids] at hr
    split
    · rename_i h
      have h0 : interVariables d m.nextVar = [] := by simpa using h
      intro i
      have := hv i
      simp only [Market.vcount, h0, Option.getD_some, List.map_nil, List.count_nil] at *
      omega
    · rename_i h
      intro i
      have h1 := hr i
      have h2 : nextAfter ((interVariables d m.nextVar).map InterVar.vid) ≤ i →
          ((interVariables d m.nextVar).map InterVar.vid).count i = 0 := count_zero_of_ge_nextAfter
      have h3 : m.nextVar ≤ nextAfter ((interVariables d m.nextVar).map InterVar.vid) := by
        apply le_nextAfter
        · intro j hj; rw [interVariables_vids] at hj; simp only [List.mem_range'_1] at hj; omega
        · intro h0; simp at h0; simp [h0] at h
      have h4 := hv i
      simp only [Market.vcount, Option.getD_some] at *
      omega
  | losses _ f b =>
    simp only [Market.setLosses]
    split
    · exact hv
    rename_i hok
    split
    · rename_i ds vs im hds hvs him
      split
      · exact hv
      rename_i hne
      have hds' : m.interDefsOk ds = true := by
        rcases hI with ⟨h, _⟩ | ⟨ds', n, h1, h2, h3, h4⟩
        · rw [h] at hds; exact absurd hds (by simp)
        · rw [h1] at hds; injection hds with hds; rw [← hds]; exact h4
      have hdn : (ds.map (fun d => (d.inter, d.link))).Nodup := by
        simp only [Market.interDefsOk, Bool.and_eq_true, decide_eq_true_eq] at hds'; exact hds'.2
      have hfn : (f.map (fun d => (d.inter, d.link))).Nodup := by
        simp only [lossInputsOk, Bool.not_eq_true', Bool.not_eq_false, Bool.and_eq_true, decide_eq_true_eq] at hok
        exact hok.1.2
      have hsub := lossVariables_sublist (vs := vs) m.nextVar (lossVariablesAux_fr hdn hfn)
      set fr := mergeFromRegion f ds with hfr
      set lv := lossVariables vs fr m.nextVar with hlv
      have hlvne : lv ≠ [] := by
        intro h0
        apply hne
        -- no loss variable means no matching loss function
        have hnone : ∀ g ∈ fr, ∀ v ∈ vs, ¬ (g.inter = v.inter ∧ g.link = v.link) := by
          intro g hg v hvm hc
          obtain ⟨i, hi⟩ := List.mem_iff_getElem?.1 hvm
          have : (LossVar.mk v.inter v.link (m.nextVar + i) (-1 * Max.max (|v.lb|) (|v.ub|)) (Max.max (|v.lb|) (|v.ub|))) ∈ lv := by
            rw [hlv]
            simp only [lossVariables, lossVariablesAux, List.map_flatMap, List.mem_flatMap, List.mem_map]
            exact ⟨_, mem_saveIndex.2 ⟨i, v, hi, rfl⟩, _, ⟨g, by simpa using ⟨hg, hc⟩, rfl⟩, rfl⟩
          rw [h0] at this; simp at this
        have hfrnil : fr = [] := by
          by_contra hfr0
          obtain ⟨g, hg⟩ := List.exists_mem_of_ne_nil _ hfr0
          have hg' := hg
          rw [hfr] at hg'
          simp only [mergeFromRegion, List.mem_flatMap, List.mem_map, List.mem_filter] at hg'
          obtain ⟨f0, _, d, ⟨hd1, hd2⟩, rfl⟩ := hg'
          simp only [decide_eq_true_eq] at hd2
          rcases hI with ⟨h, _⟩ | ⟨ds', n, h1, h2, h3, h4⟩
          · rw [h] at hds; simp at hds
          · rw [h1] at hds; injection hds with hds; subst hds
            rw [h2] at hvs; injection hvs with hvs; subst hvs
            obtain ⟨i, hi⟩ := List.mem_iff_getElem?.1 hd1
            exact hnone _ hg _ (mem_saveIndex.2 ⟨i, d, hi, rfl⟩) ⟨hd2.1.symm, hd2.2.symm⟩
        simp [linkLossToWeights, hfrnil]
      have hmem : ∀ j ∈ lv.map LossVar.vid, m.nextVar ≤ j := by
        intro j hj; have := hsub.subset hj; simp only [List.mem_range'_1] at this; omega
      have hn1 : m.nextVar ≤ nextAfter (lv.map LossVar.vid) := le_nextAfter hmem (by simpa using hlvne)
      intro i
      have h1 := hv i
      have hlc1 : (lv.map LossVar.vid).count i ≤ 1 := by
        have := hsub.count_le i
        have := (range'_count_facts m.nextVar vs.length i).1
        omega
      have hlc2 : i < m.nextVar → (lv.map LossVar.vid).count i = 0 := by
        intro hi; rw [List.count_eq_zero]; intro hc; have := hmem i hc; omega
      have hlc3 : nextAfter (lv.map LossVar.vid) ≤ i → (lv.map LossVar.vid).count i = 0 :=
        count_zero_of_ge_nextAfter
      have hw := range'_count_facts (nextAfter (lv.map LossVar.vid)) b.length i
      rw [← weightVariables_vids] at hw
      set ws := weightVariables b (nextAfter (lv.map LossVar.vid)) with hws
      have hend : nextAfter (lv.map LossVar.vid ++ ws.map WeightVar.vid) ≤ i →
          (lv.map LossVar.vid).count i = 0 ∧ (ws.map WeightVar.vid).count i = 0 := by
        intro hi
        have := count_zero_of_ge_nextAfter hi
        rw [List.count_append] at this; omega
      have hle : m.nextVar ≤ nextAfter (lv.map LossVar.vid ++ ws.map WeightVar.vid) := by
        apply le_nextAfter
        · intro j hj
          rcases List.mem_append.1 hj with hj | hj
          · exact hmem j hj
          · rw [hws, weightVariables_vids] at hj
            simp only [List.mem_range'_1] at hj; omega
        · simp [hlvne]
      simp only [Market.vcount, Option.getD_some] at *
      omega
    · exact hv
  | generic _ g =>
    simp only [Market.setGeneric, Market.elasticOpt]
    split
    · exact hv
    · split <;> exact hv
  | linkUnits _ g => simp only [Market.linkUnits]; split <;> exact hv
  | linkRegions _ g => simp only [Market.linkRegions]; split <;> exact hv
  | linkInters _ g => simp only [Market.linkInters]; split <;> exact hv
  | tie _ ps => exact hv

/-! ## Constraints -/

/-- Constraint id `c` occurs in a table of constraint set `k`. -/
def InTab (m : Market) (k : CKey) (c : Nat) : Prop :=
  (∃ t, (k, t) ∈ m.unitCon ∧ ∃ r ∈ t, r.cid = c) ∨
  (∃ t, (k, t) ∈ m.regCon ∧ ∃ r ∈ t, r.cid = c) ∨
  (∃ t, (k, t) ∈ m.conRhs ∧ ∃ r ∈ t, r.cid = c) ∨
  (∃ t, (k, t) ∈ m.mktRhs ∧ ∃ r ∈ t, r.cid = c) ∨
  (∃ d, (k, d) ∈ m.deficits ∧ ∃ r ∈ d.2, r.cid = c) ∨
  (k = .interpWeights ∧ ((∃ r ∈ m.lossLhs.getD [], r.cid = c) ∨ ∃ r ∈ m.dynRhs.getD [], r.cid = c)) ∨
  (k = .tieBreak ∧ ∃ r ∈ m.tieLhs.getD [], r.cid = c)

/-- number of right hand sides with id `i` -/
def Market.rcount (m : Market) (i : Nat) : Nat :=
  (m.conRhs.flatMap (fun d => d.2.map Row.cid)).count i + (m.mktRhs.flatMap (fun d => d.2.map Row.cid)).count i +
  ((m.dynRhs.getD []).map DynRow.cid).count i

theorem rcount_eq (m : Market) (i : Nat) : (m.allRows.map Prod.fst).count i = m.rcount i := by
  have : m.allRows.map Prod.fst = m.conRhs.flatMap (fun d => d.2.map Row.cid) ++
      m.mktRhs.flatMap (fun d => d.2.map Row.cid) ++ (m.dynRhs.getD []).map DynRow.cid := by
    simp only [Market.allRows, Dict.concat, List.map_append, List.map_map, List.map_flatMap]
    rfl
  rw [this]; simp only [List.count_append, Market.rcount]

/-- Ownership of constraint ids. -/
structure ConWF (m : Market) : Prop where
  own : ∃ own : Nat → CKey, ∀ k c, InTab m k c → own c = k ∧ c < m.nextCon
  rows : ∀ i, m.rcount i ≤ 1 ∧ (m.nextCon ≤ i → m.rcount i = 0)
  unitKeys : m.unitCon.NodupKeys
  regKeys : m.regCon.NodupKeys
  conKeys : m.conRhs.NodupKeys
  mktKeys : m.mktRhs.NodupKeys
  defKeys : m.deficits.NodupKeys
  conMkt : ∀ e ∈ m.conRhs, e.1.isMarket = false
  mktMkt : ∀ e ∈ m.mktRhs, e.1.isMarket = true

theorem own_preserved {m m' : Market} {k0 : CKey}
    (h : ∃ own : Nat → CKey, ∀ k c, InTab m k c → own c = k ∧ c < m.nextCon)
    (hle : m.nextCon ≤ m'.nextCon)
    (hn : ∀ k c, InTab m' k c → InTab m k c ∨ (k = k0 ∧ m.nextCon ≤ c ∧ c < m'.nextCon)) :
    ∃ own : Nat → CKey, ∀ k c, InTab m' k c → own c = k ∧ c < m'.nextCon := by
  obtain ⟨own, ho⟩ := h
  refine ⟨fun c => if m.nextCon ≤ c then k0 else own c, ?_⟩
  intro k c hc
  rcases hn k c hc with h1 | ⟨rfl, h2, h3⟩
  · have := ho k c h1
    have hlt : ¬ m.nextCon ≤ c := by omega
    simp only [hlt, if_false]; exact ⟨this.1, by omega⟩
  · simp [h2, h3]

theorem nextAfter_rows_bounds {n : Nat} {rows : List Row} (hge : ∀ r ∈ rows, n ≤ r.cid) (hne : rows ≠ []) :
    n ≤ nextAfter (rows.map Row.cid) ∧ ∀ r ∈ rows, r.cid < nextAfter (rows.map Row.cid) := by
  constructor
  · apply le_nextAfter
    · intro i hi; obtain ⟨r, hr, rfl⟩ := List.mem_map.1 hi; exact hge r hr
    · simpa using hne
  · intro r hr; exact lt_nextAfter (List.mem_map.2 ⟨r, hr, rfl⟩)

theorem count_rows_facts {n : Nat} {rows : List Row} (hnd : (rows.map Row.cid).Nodup) (hge : ∀ r ∈ rows, n ≤ r.cid) (i : Nat) :
    (rows.map Row.cid).count i ≤ 1 ∧ (i < n → (rows.map Row.cid).count i = 0) := by
  constructor
  · exact List.nodup_iff_count_le_one.1 hnd i
  · intro hi
    rw [List.count_eq_zero]; intro hm
    obtain ⟨r, hr, rfl⟩ := List.mem_map.1 hm
    have := hge r hr; omega

theorem weightConIds_facts (ws : List WeightVar) (n : Nat) :
    ((weightConIds ws n).map (·.1)).Nodup ∧ (∀ c ∈ weightConIds ws n, n ≤ c.1) ∧
    ((weightConIds ws n).map (·.2)).Nodup ∧
    (∀ w ∈ ws, ∃ c ∈ weightConIds ws n, c.2 = (w.inter, w.link)) ∧
    (∀ c ∈ weightConIds ws n, ∃ w ∈ ws, c.2 = (w.inter, w.link)) := by
  refine ⟨?_, ?_, ?_, ?_, ?_⟩
  · simp only [weightConIds, map_saveIndex, saveIndex_ids]; exact nodup_range' _ _
  · intro c hc
    obtain ⟨i, l, _, h1, _, rfl⟩ := mem_saveIndex_lt hc
    exact h1
  · simp only [weightConIds, map_saveIndex, saveIndex_vals]
    exact dropDup_nodup _ _
  · intro w hw
    obtain ⟨b, hb, hk⟩ := exists_dropDup (key := fun w : WeightVar => (w.inter, w.link)) hw
    obtain ⟨i, hi⟩ := List.mem_iff_getElem?.1 hb
    exact ⟨_, mem_saveIndex.2 ⟨i, b, hi, rfl⟩, hk⟩
  · intro c hc
    obtain ⟨i, w, h, _, _, rfl⟩ := mem_saveIndex_lt hc
    exact ⟨w, mem_of_mem_dropDup h, rfl⟩

theorem inTab_same {m m' : Market} (h1 : m'.unitCon = m.unitCon) (h2 : m'.regCon = m.regCon) (h3 : m'.conRhs = m.conRhs)
    (h4 : m'.mktRhs = m.mktRhs) (h5 : m'.deficits = m.deficits) (h6 : m'.lossLhs = m.lossLhs)
    (h7 : m'.dynRhs = m.dynRhs) (h8 : m'.tieLhs = m.tieLhs) {k : CKey} {c : Nat} : InTab m' k c ↔ InTab m k c := by
  unfold InTab; rw [h1, h2, h3, h4, h5, h6, h7, h8]

theorem conWF_same {m m' : Market} (hm : ConWF m) (h1 : m'.unitCon = m.unitCon) (h2 : m'.regCon = m.regCon)
    (h3 : m'.conRhs = m.conRhs) (h4 : m'.mktRhs = m.mktRhs) (h5 : m'.deficits = m.deficits)
    (h6 : m'.lossLhs = m.lossLhs) (h7 : m'.dynRhs = m.dynRhs) (h8 : m'.tieLhs = m.tieLhs)
    (h9 : m'.nextCon = m.nextCon) : ConWF m' := by
  obtain ⟨a, b, c, d, e, f, g, i, j⟩ := hm
  refine ⟨?_, ?_, ?_, ?_, ?_, ?_, ?_, ?_, ?_⟩
  · obtain ⟨own, ho⟩ := a
    refine ⟨own, fun k c hc => ?_⟩
    rw [h9]; exact ho k c ((inTab_same h1 h2 h3 h4 h5 h6 h7 h8).1 hc)
  · intro i; have := b i
    simp only [Market.rcount, h3, h4, h7, h9] at *; exact this
  · rw [h1]; exact c
  · rw [h2]; exact d
  · rw [h3]; exact e
  · rw [h4]; exact f
  · rw [h5]; exact g
  · rw [h3]; exact i
  · rw [h4]; exact j

theorem isUnit_not_market {k : CKey} (h : k.isUnit = true) : k.isMarket = false := by
  cases k <;> simp_all [CKey.isUnit, CKey.isMarket]

theorem rowsOf_mem {m : Market} {k : CKey} {rows : List Row} (h : m.rowsOf k = some rows) :
    (k, rows) ∈ m.mktRhs ∨ (k, rows) ∈ m.conRhs := by
  unfold Market.rowsOf at h
  split at h
  · rename_i r hr; injection h with h; subst h; exact Or.inl (Dict.mem_of_get? hr)
  · exact Or.inr (Dict.mem_of_get? h)

theorem costRows_mem {k : CKey} {rows : List Row} {vc : VCost} {rs : List (Row × ℚ)} (h : costRows k rows vc = .ok rs)
    {r : Row × ℚ} (hr : r ∈ rs) : r.1 ∈ rows := by
  cases vc with
  | num c =>
    simp only [costRows, Except.ok.injEq] at h; subst h
    obtain ⟨a, ha, rfl⟩ := List.mem_map.1 hr; exact ha
  | table t =>
    simp only [costRows] at h
    split at h
    · cases h
    split at h
    · cases h
    · simp only [Except.ok.injEq] at h; subst h
      simp only [List.mem_flatMap, List.mem_map] at hr
      obtain ⟨a, ha, b, _, rfl⟩ := hr; exact ha

theorem deficit_cid {rs : List (Row × ℚ)} {n : Nat} {t : Term} (h : t ∈ (deficitVariables rs n).2) :
    ∃ r ∈ rs, r.1.cid = t.cid := by
  simp only [deficitVariables, List.mem_append] at h
  rcases h with (h | h) | h <;>
  · obtain ⟨i, r, hr, _, _, rfl⟩ := mem_saveIndex_lt h
    exact ⟨r, (List.mem_filter.1 hr).1, rfl⟩

theorem conWF_elastic {m : Market} (hm : ConWF m) (k : CKey) (c : VCost) : ConWF (m.makeElastic k c).1 := by
  simp only [Market.makeElastic]
  split
  · exact hm
  rename_i rows hrows
  split
  · exact hm
  rename_i rs hrs
  split
  · exact hm
  have key : ConWF { m with deficits := m.deficits.set k (deficitVariables rs m.nextVar) } := by
    refine ⟨?_, hm.rows, hm.unitKeys, hm.regKeys, hm.conKeys, hm.mktKeys, hm.defKeys.set _ _, hm.conMkt, hm.mktMkt⟩
    refine own_preserved (k0 := k) hm.own (by exact le_refl m.nextCon) ?_
    intro k' c' hc
    left
    unfold InTab at hc ⊢
    rcases hc with h | h | h | h | h | h | h
    · exact Or.inl h
    · exact Or.inr (Or.inl h)
    · exact Or.inr (Or.inr (Or.inl h))
    · exact Or.inr (Or.inr (Or.inr (Or.inl h)))
    · obtain ⟨d, hd, r, hr, rfl⟩ := h
      rcases Dict.mem_set hd with e | e
      · injection e with e1 e2; subst e1; subst e2
        obtain ⟨r', hr', he⟩ := deficit_cid hr
        have hmem := costRows_mem hrs hr'
        rcases rowsOf_mem hrows with h | h
        · exact Or.inr (Or.inr (Or.inr (Or.inl ⟨rows, h, r'.1, hmem, he⟩)))
        · exact Or.inr (Or.inr (Or.inl ⟨rows, h, r'.1, hmem, he⟩))
      · exact Or.inr (Or.inr (Or.inr (Or.inr (Or.inl ⟨d, e, r, hr, rfl⟩))))
    · exact Or.inr (Or.inr (Or.inr (Or.inr (Or.inr (Or.inl h)))))
    · exact Or.inr (Or.inr (Or.inr (Or.inr (Or.inr (Or.inr h)))))
  split
  · exact key
  · exact conWF_same key rfl rfl rfl rfl rfl rfl rfl rfl rfl

theorem conWF_unitSet {m : Market} (hm : ConWF m) (k : CKey) (t : List Row × List ConUnit) (hk : k.isUnit = true)
    (ht : FreshUnit m.nextCon t) : ConWF (m.addUnitSet k t).1 := by
  have hcnt := fun i => Dict.count_set m.conRhs k t.1 (fun d => d.map Row.cid) i
  have hf := fun i => count_rows_facts ht.nodup ht.ge i
  have hmem : ∀ e ∈ m.conRhs.set k t.1, e.1.isMarket = false := by
    intro e he
    rcases Dict.mem_set he with rfl | he
    · exact isUnit_not_market hk
    · exact hm.conMkt e he
  have intab : ∀ (n : Nat) k' c', InTab { m with conRhs := m.conRhs.set k t.1, unitCon := m.unitCon.set k t.2, nextCon := n } k' c' →
      InTab m k' c' ∨ (k' = k ∧ ∃ r ∈ t.1, r.cid = c') := by
    intro n k' c' hc
    unfold InTab at hc ⊢
    rcases hc with h | h | h | h | h | h | h
    · obtain ⟨d, hd, r, hr, rfl⟩ := h
      rcases Dict.mem_set hd with e | e
      · injection e with e1 e2; subst e1; subst e2
        exact Or.inr ⟨rfl, ht.sub r hr⟩
      · exact Or.inl (Or.inl ⟨d, e, r, hr, rfl⟩)
    · exact Or.inl (Or.inr (Or.inl h))
    · obtain ⟨d, hd, r, hr, rfl⟩ := h
      rcases Dict.mem_set hd with e | e
      · injection e with e1 e2; subst e1; subst e2
        exact Or.inr ⟨rfl, r, hr, rfl⟩
      · exact Or.inl (Or.inr (Or.inr (Or.inl ⟨d, e, r, hr, rfl⟩)))
    · exact Or.inl (Or.inr (Or.inr (Or.inr (Or.inl h))))
    · exact Or.inl (Or.inr (Or.inr (Or.inr (Or.inr (Or.inl h)))))
    · exact Or.inl (Or.inr (Or.inr (Or.inr (Or.inr (Or.inr (Or.inl h))))))
    · exact Or.inl (Or.inr (Or.inr (Or.inr (Or.inr (Or.inr (Or.inr h))))))
  simp only [Market.addUnitSet]
  split
  · rename_i h
    have h0 : t.1 = [] := by simpa using h
    refine ⟨?_, ?_, hm.unitKeys.set _ _, hm.regKeys, hm.conKeys.set _ _, hm.mktKeys, hm.defKeys, hmem, hm.mktMkt⟩
    · refine own_preserved (k0 := k) hm.own (by exact le_refl m.nextCon) ?_
      intro k' c' hc
      rcases intab m.nextCon k' c' hc with h | ⟨_, r, hr, _⟩
      · exact Or.inl h
      · rw [h0] at hr; simp at hr
    · intro i
      have h1 := hm.rows i; have h2 := hcnt i
      simp only [h0, List.map_nil, List.count_nil] at h2
      simp only [Market.rcount, h0] at *
      omega
  · rename_i h
    have hne : t.1 ≠ [] := by intro h0; rw [h0] at h; simp at h
    have hb := nextAfter_rows_bounds ht.ge hne
    refine ⟨?_, ?_, hm.unitKeys.set _ _, hm.regKeys, hm.conKeys.set _ _, hm.mktKeys, hm.defKeys, hmem, hm.mktMkt⟩
    · apply own_preserved (k0 := k) hm.own hb.1
      intro k' c' hc
      rcases intab _ k' c' hc with h | ⟨hk', r, hr, hrc⟩
      · exact Or.inl h
      · subst hrc; exact Or.inr ⟨hk', ht.ge r hr, hb.2 r hr⟩
    · intro i
      have h1 := hm.rows i; have h2 := hcnt i; have h3 := hf i
      have h4 : nextAfter (t.1.map Row.cid) ≤ i → (t.1.map Row.cid).count i = 0 := count_zero_of_ge_nextAfter
      have h5 := hb.1
      simp only [Market.rcount] at *
      omega

theorem conWF_regSet {m : Market} (hm : ConWF m) (k : CKey) (t : List Row × List ConReg) (hk : k.isMarket = true)
    (ht : FreshReg m.nextCon t) : ConWF (m.addRegSet k t).1 := by
  have hcnt := fun i => Dict.count_set m.mktRhs k t.1 (fun d => d.map Row.cid) i
  have hf := fun i => count_rows_facts ht.nodup ht.ge i
  have hmem : ∀ e ∈ m.mktRhs.set k t.1, e.1.isMarket = true := by
    intro e he
    rcases Dict.mem_set he with rfl | he
    · exact hk
    · exact hm.mktMkt e he
  have intab : ∀ (n : Nat) k' c', InTab { m with mktRhs := m.mktRhs.set k t.1, regCon := m.regCon.set k t.2, nextCon := n } k' c' →
      InTab m k' c' ∨ (k' = k ∧ ∃ r ∈ t.1, r.cid = c') := by
    intro n k' c' hc
    unfold InTab at hc ⊢
    rcases hc with h | h | h | h | h | h | h
    · exact Or.inl (Or.inl h)
    · obtain ⟨d, hd, r, hr, rfl⟩ := h
      rcases Dict.mem_set hd with e | e
      · injection e with e1 e2; subst e1; subst e2
        exact Or.inr ⟨rfl, ht.sub r hr⟩
      · exact Or.inl (Or.inr (Or.inl ⟨d, e, r, hr, rfl⟩))
    · exact Or.inl (Or.inr (Or.inr (Or.inl h)))
    · obtain ⟨d, hd, r, hr, rfl⟩ := h
      rcases Dict.mem_set hd with e | e
      · injection e with e1 e2; subst e1; subst e2
        exact Or.inr ⟨rfl, r, hr, rfl⟩
      · exact Or.inl (Or.inr (Or.inr (Or.inr (Or.inl ⟨d, e, r, hr, rfl⟩))))
    · exact Or.inl (Or.inr (Or.inr (Or.inr (Or.inr (Or.inl h)))))
    · exact Or.inl (Or.inr (Or.inr (Or.inr (Or.inr (Or.inr (Or.inl h))))))
    · exact Or.inl (Or.inr (Or.inr (Or.inr (Or.inr (Or.inr (Or.inr h))))))
  simp only [Market.addRegSet]
  split
  · rename_i h
    have h0 : t.1 = [] := by simpa using h
    refine ⟨?_, ?_, hm.unitKeys, hm.regKeys.set _ _, hm.conKeys, hm.mktKeys.set _ _, hm.defKeys, hm.conMkt, hmem⟩
    · refine own_preserved (k0 := k) hm.own (by exact le_refl m.nextCon) ?_
      intro k' c' hc
      rcases intab m.nextCon k' c' hc with h | ⟨_, r, hr, _⟩
      · exact Or.inl h
      · rw [h0] at hr; simp at hr
    · intro i
      have h1 := hm.rows i; have h2 := hcnt i
      simp only [h0, List.map_nil, List.count_nil] at h2
      simp only [Market.rcount, h0] at *
      omega
  · rename_i h
    have hne : t.1 ≠ [] := by intro h0; rw [h0] at h; simp at h
    have hb := nextAfter_rows_bounds ht.ge hne
    refine ⟨?_, ?_, hm.unitKeys, hm.regKeys.set _ _, hm.conKeys, hm.mktKeys.set _ _, hm.defKeys, hm.conMkt, hmem⟩
    · apply own_preserved (k0 := k) hm.own hb.1
      intro k' c' hc
      rcases intab _ k' c' hc with h | ⟨hk', r, hr, hrc⟩
      · exact Or.inl h
      · subst hrc; exact Or.inr ⟨hk', ht.ge r hr, hb.2 r hr⟩
    · intro i
      have h1 := hm.rows i; have h2 := hcnt i; have h3 := hf i
      have h4 : nextAfter (t.1.map Row.cid) ≤ i → (t.1.map Row.cid).count i = 0 := count_zero_of_ge_nextAfter
      have h5 := hb.1
      simp only [Market.rcount] at *
      omega

/-- rows written without a map: generic and tie break sets -/
theorem conWF_rows {m : Market} (hm : ConWF m) (k : CKey) (rows : List Row) (hk : k.isMarket = false)
    (hnd : (rows.map Row.cid).Nodup) (hge : ∀ r ∈ rows, m.nextCon ≤ r.cid) (hne : rows ≠ [])
    (tl : Option (List Term)) (htl : tl = m.tieLhs ∨ k = .tieBreak ∧ ∀ r ∈ tl.getD [], ∃ r' ∈ rows, r'.cid = r.cid) :
    ConWF { m with conRhs := m.conRhs.set k rows, tieLhs := tl, nextCon := nextAfter (rows.map Row.cid) } := by
  have hcnt := fun i => Dict.count_set m.conRhs k rows (fun d => d.map Row.cid) i
  have hf := fun i => count_rows_facts hnd hge i
  have hb := nextAfter_rows_bounds hge hne
  refine ⟨?_, ?_, hm.unitKeys, hm.regKeys, hm.conKeys.set _ _, hm.mktKeys, hm.defKeys, ?_, hm.mktMkt⟩
  · apply own_preserved (k0 := k) hm.own hb.1
    intro k' c' hc
    unfold InTab at hc ⊢
    rcases hc with h | h | h | h | h | h | ⟨h1, h2⟩
    · exact Or.inl (Or.inl h)
    · exact Or.inl (Or.inr (Or.inl h))
    · obtain ⟨d, hd, r, hr, rfl⟩ := h
      rcases Dict.mem_set hd with e | e
      · injection e with e1 e2; subst e1; subst e2
        exact Or.inr ⟨rfl, hge r hr, hb.2 r hr⟩
      · exact Or.inl (Or.inr (Or.inr (Or.inl ⟨d, e, r, hr, rfl⟩)))
    · exact Or.inl (Or.inr (Or.inr (Or.inr (Or.inl h))))
    · exact Or.inl (Or.inr (Or.inr (Or.inr (Or.inr (Or.inl h)))))
    · exact Or.inl (Or.inr (Or.inr (Or.inr (Or.inr (Or.inr (Or.inl h))))))
    · rcases htl with e | ⟨e1, e2⟩
      · rw [e] at h2; exact Or.inl (Or.inr (Or.inr (Or.inr (Or.inr (Or.inr (Or.inr ⟨h1, h2⟩))))))
      · obtain ⟨r, hr, rfl⟩ := h2
        obtain ⟨r', hr', e⟩ := e2 r hr
        rw [← e]
        exact Or.inr ⟨h1.trans e1.symm, hge r' hr', hb.2 r' hr'⟩
  · intro i
    have h1 := hm.rows i; have h2 := hcnt i; have h3 := hf i
    have h4 : nextAfter (rows.map Row.cid) ≤ i → (rows.map Row.cid).count i = 0 := count_zero_of_ge_nextAfter
    have h5 := hb.1
    simp only [Market.rcount] at *
    omega
  · intro e he
    rcases Dict.mem_set he with rfl | he
    · exact hk
    · exact hm.conMkt e he

theorem conWF_rows_empty {m : Market} (hm : ConWF m) (k : CKey) (hk : k.isMarket = false) (b : Bool) :
    ConWF { m with conRhs := m.conRhs.set k [], nanCon := b } := by
  have hcnt := fun i => Dict.count_set m.conRhs k [] (fun d => d.map Row.cid) i
  refine ⟨?_, ?_, hm.unitKeys, hm.regKeys, hm.conKeys.set _ _, hm.mktKeys, hm.defKeys, ?_, hm.mktMkt⟩
  · refine own_preserved (k0 := k) hm.own (by exact le_refl m.nextCon) ?_
    intro k' c' hc
    left
    unfold InTab at hc ⊢
    rcases hc with h | h | h | h | h | h | h
    · exact Or.inl h
    · exact Or.inr (Or.inl h)
    · obtain ⟨d, hd, r, hr, rfl⟩ := h
      rcases Dict.mem_set hd with e | e
      · injection e with e1 e2; subst e2; simp at hr
      · exact Or.inr (Or.inr (Or.inl ⟨d, e, r, hr, rfl⟩))
    · exact Or.inr (Or.inr (Or.inr (Or.inl h)))
    · exact Or.inr (Or.inr (Or.inr (Or.inr (Or.inl h))))
    · exact Or.inr (Or.inr (Or.inr (Or.inr (Or.inr (Or.inl h)))))
    · exact Or.inr (Or.inr (Or.inr (Or.inr (Or.inr (Or.inr h)))))
  · intro i
    have h1 := hm.rows i; have h2 := hcnt i
    simp only [List.map_nil, List.count_nil] at h2
    simp only [Market.rcount] at *
    omega
  · intro e he
    rcases Dict.mem_set he with rfl | he
    · exact hk
    · exact hm.conMkt e he

/-- ids in a join of constraint ids with a table -/
theorem join_count (cids : List (Nat × String × String)) (ls : List (String × String × Nat))
    (hc : (cids.map (·.1)).Nodup) (hl : (ls.map (fun l => (l.1, l.2.1))).Nodup) :
    ((cids.flatMap (fun c => (ls.filter (fun l => decide (l.1 = c.2.1 ∧ l.2.1 = c.2.2))).map (fun _ => c.1)))).Nodup := by
  refine List.Nodup.sublist ?_ hc
  apply flatMap_sublist_map
  intro c _
  have := filter_key_le_one hl (c.2.1, c.2.2)
  simp only [Prod.mk.injEq] at this
  rcases this with h | ⟨a, _, _, h⟩
  · left; rw [h]; rfl
  · right; rw [h]; rfl

theorem interVariables_keys (ds : List InterDef) (n : Nat) :
    (interVariables ds n).map (fun v => (v.inter, v.link)) = ds.map (fun d => (d.inter, d.link)) := by
  simp only [interVariables, map_saveIndex, saveIndex_vals]

theorem mem_lossVariables_of {vs : List InterVar} {fr : List LossFnR} {n : Nat} {v : InterVar} {g : LossFnR} (hv : v ∈ vs)
    (hg : g ∈ fr) (h1 : g.inter = v.inter) (h2 : g.link = v.link) :
    ∃ l ∈ lossVariables vs fr n, l.inter = v.inter ∧ l.link = v.link := by
  obtain ⟨i, hi⟩ := List.mem_iff_getElem?.1 hv
  refine ⟨LossVar.mk v.inter v.link (n + i) (-1 * Max.max (|v.lb|) (|v.ub|)) (Max.max (|v.lb|) (|v.ub|)), ?_, rfl, rfl⟩
  simp only [lossVariables, lossVariablesAux, List.map_flatMap, List.mem_flatMap, List.mem_map]
  exact ⟨_, mem_saveIndex.2 ⟨i, v, hi, rfl⟩, _, ⟨g, by simpa using ⟨hg, h1, h2⟩, rfl⟩, rfl⟩

theorem conWF_losses {m : Market} (hm : ConWF m) (hI : InterWF m) (f : List LossFn) (b : List BreakPt)
    (hk : LinksKnown m b) : ConWF (m.setLosses f b).1 := by
  simp only [Market.setLosses]
  split
  · exact hm
  rename_i hok
  split
  swap
  · exact conWF_same hm rfl rfl rfl rfl rfl rfl rfl rfl rfl
  rename_i ds vs im hds hvs him
  split
  · exact conWF_same hm rfl rfl rfl rfl rfl rfl rfl rfl rfl
  rename_i hne
  obtain ⟨n0, hvs', hds'⟩ : ∃ n0, vs = interVariables ds n0 ∧ m.interDefsOk ds = true := by
    rcases hI with ⟨h, _⟩ | ⟨ds', n, h1, h2, h3, h4⟩
    · rw [h] at hds; exact absurd hds (by simp)
    · rw [h1] at hds; injection hds with hds; subst hds
      rw [h2] at hvs; injection hvs with hvs; exact ⟨n, hvs.symm, h4⟩
  have hdn : (ds.map (fun d => (d.inter, d.link))).Nodup := by
    simp only [Market.interDefsOk, Bool.and_eq_true, decide_eq_true_eq] at hds'; exact hds'.2
  have hvn : (vs.map (fun d => (d.inter, d.link))).Nodup := by rw [hvs', interVariables_keys]; exact hdn
  have hfn : (f.map (fun d => (d.inter, d.link))).Nodup := by
    simp only [lossInputsOk, Bool.not_eq_true', Bool.not_eq_false, Bool.and_eq_true, decide_eq_true_eq] at hok
    exact hok.1.2
  have hfrn := lossVariablesAux_fr hdn hfn
  have hfrv : ∀ g ∈ mergeFromRegion f ds, ∃ v ∈ vs, g.inter = v.inter ∧ g.link = v.link := by
    intro g hg
    simp only [mergeFromRegion, List.mem_flatMap, List.mem_map, List.mem_filter, decide_eq_true_eq] at hg
    obtain ⟨f0, _, d, ⟨hd1, hd2, hd3⟩, rfl⟩ := hg
    obtain ⟨i, hi⟩ := List.mem_iff_getElem?.1 hd1
    rw [hvs']
    exact ⟨_, mem_saveIndex.2 ⟨i, d, hi, rfl⟩, hd2.symm, hd3.symm⟩
  generalize hfr : mergeFromRegion f ds = fr at *
  have hlvn := lossVariables_keys (vs := vs) m.nextVar hfrn hvn
  generalize hlv : lossVariables vs fr m.nextVar = lv at *
  have hlvmem : ∀ g ∈ fr, ∃ l ∈ lv, l.inter = g.inter ∧ l.link = g.link := by
    intro g hg
    obtain ⟨v, hv, h1, h2⟩ := hfrv g hg
    obtain ⟨l, hl, h3, h4⟩ := mem_lossVariables_of (n := m.nextVar) hv hg h1 h2
    rw [hlv] at hl
    exact ⟨l, hl, by rw [h3, h1], by rw [h4, h2]⟩
  have hwlink : ∀ w ∈ weightVariables b (nextAfter (lv.map LossVar.vid)), ∃ v ∈ vs, v.inter = w.inter ∧ v.link = w.link := by
    intro w hw
    obtain ⟨i, x, hx, _, _, rfl⟩ := mem_saveIndex_lt hw
    obtain ⟨v, hv, h1, h2⟩ := hk x hx
    rw [hvs] at hv
    exact ⟨v, hv, h1, h2⟩
  generalize hws : weightVariables b (nextAfter (lv.map LossVar.vid)) = ws at *
  -- ranges of the three groups
  have hwsne : ws ≠ [] := by
    intro h0; apply hne; rw [h0]; simp [linkLossToWeights]
  have fA := weightConIds_facts ws m.nextCon
  have sub1 : ∀ t ∈ (weightsSumToOne ws m.nextCon).1, ∃ r ∈ (weightsSumToOne ws m.nextCon).2, r.cid = t.cid := by
    intro t ht
    simp only [weightsSumToOne, weightTerms, List.mem_flatMap, List.mem_map] at ht ⊢
    obtain ⟨w, _, c, hc, rfl⟩ := ht
    exact ⟨_, ⟨c, (List.mem_filter.1 hc).1, rfl⟩, rfl⟩
  have geA : ∀ r ∈ (weightsSumToOne ws m.nextCon).2, m.nextCon ≤ r.cid := by
    intro r hr
    simp only [weightsSumToOne, List.mem_map] at hr
    obtain ⟨c, hc, rfl⟩ := hr
    exact fA.2.1 c hc
  have ndA : ((weightsSumToOne ws m.nextCon).2.map Row.cid).Nodup := by
    simp only [weightsSumToOne, List.map_map]
    exact fA.1
  have neA : (weightsSumToOne ws m.nextCon).2 ≠ [] := by
    obtain ⟨w, hw⟩ := List.exists_mem_of_ne_nil _ hwsne
    obtain ⟨c, hc, _⟩ := fA.2.2.2.1 w hw
    intro h0
    simp only [weightsSumToOne, List.map_eq_nil_iff] at h0
    rw [h0] at hc; simp at hc
  have hbA := nextAfter_rows_bounds geA neA
  generalize hs : weightsSumToOne ws m.nextCon = s at *
  generalize hn2 : nextAfter (s.2.map Row.cid) = n2 at *
  have fB := weightConIds_facts ws n2
  have sub2 : ∀ t ∈ (linkLossToWeights ws lv fr n2).1, ∃ r ∈ (linkLossToWeights ws lv fr n2).2, r.cid = t.cid := by
    intro t ht
    simp only [linkLossToWeights, List.mem_flatMap, List.mem_map, List.mem_filter, decide_eq_true_eq] at ht ⊢
    obtain ⟨w, _, c, ⟨hc, hc1, hc2⟩, g, ⟨hg, hg1, hg2⟩, rfl⟩ := ht
    obtain ⟨l, hl, h1, h2⟩ := hlvmem g hg
    exact ⟨_, ⟨c, hc, l, ⟨hl, by rw [h1, hg1, hc1], by rw [h2, hg2, hc2]⟩, rfl⟩, rfl⟩
  have geB : ∀ r ∈ (linkLossToWeights ws lv fr n2).2, n2 ≤ r.cid := by
    intro r hr
    simp only [linkLossToWeights, List.mem_flatMap, List.mem_map] at hr
    obtain ⟨c, hc, l, _, rfl⟩ := hr
    exact fB.2.1 c hc
  have ndB : ((linkLossToWeights ws lv fr n2).2.map DynRow.cid).Nodup := by
    have e : (linkLossToWeights ws lv fr n2).2.map DynRow.cid = (weightConIds ws n2).flatMap (fun c =>
        ((lv.map (fun l => (l.inter, l.link, l.vid))).filter (fun l => decide (l.1 = c.2.1 ∧ l.2.1 = c.2.2))).map (fun _ => c.1)) := by
      simp only [linkLossToWeights, List.map_flatMap, List.map_map, List.filter_map]
      rfl
    rw [e]
    apply join_count _ _ fB.1
    rw [List.map_map]; exact hlvn
  have neB : (linkLossToWeights ws lv fr n2).2 ≠ [] := by
    intro h0
    have h1 : (linkLossToWeights ws lv fr n2).1 ≠ [] := by simpa using hne
    obtain ⟨t, ht⟩ := List.exists_mem_of_ne_nil _ h1
    obtain ⟨r, hr, _⟩ := sub2 t ht
    rw [h0] at hr; simp at hr
  generalize hll : linkLossToWeights ws lv fr n2 = ll at *
  have hbB : n2 ≤ nextAfter (ll.2.map DynRow.cid) ∧ ∀ r ∈ ll.2, r.cid < nextAfter (ll.2.map DynRow.cid) := by
    constructor
    · apply le_nextAfter
      · intro i hi; obtain ⟨r, hr, rfl⟩ := List.mem_map.1 hi; exact geB r hr
      · simpa using neB
    · intro r hr; exact lt_nextAfter (List.mem_map.2 ⟨r, hr, rfl⟩)
  generalize hn3 : nextAfter (ll.2.map DynRow.cid) = n3 at *
  have fC := weightConIds_facts ws n3
  have sub3 : ∀ t ∈ (linkWeightsToFlow ws vs n3).1, ∃ r ∈ (linkWeightsToFlow ws vs n3).2, r.cid = t.cid := by
    intro t ht
    simp only [linkWeightsToFlow, weightTerms, List.mem_flatMap, List.mem_map, List.mem_filter, decide_eq_true_eq] at ht ⊢
    obtain ⟨w, hw, c, ⟨hc, hc1, hc2⟩, rfl⟩ := ht
    obtain ⟨v, hv, h1, h2⟩ := hwlink w hw
    exact ⟨_, ⟨c, hc, v, ⟨hv, by rw [h1, hc1], by rw [h2, hc2]⟩, rfl⟩, rfl⟩
  have geC : ∀ r ∈ (linkWeightsToFlow ws vs n3).2, n3 ≤ r.cid := by
    intro r hr
    simp only [linkWeightsToFlow, List.mem_flatMap, List.mem_map] at hr
    obtain ⟨c, hc, l, _, rfl⟩ := hr
    exact fC.2.1 c hc
  have ndC : ((linkWeightsToFlow ws vs n3).2.map DynRow.cid).Nodup := by
    have e : (linkWeightsToFlow ws vs n3).2.map DynRow.cid = (weightConIds ws n3).flatMap (fun c =>
        ((vs.map (fun l => (l.inter, l.link, l.vid))).filter (fun l => decide (l.1 = c.2.1 ∧ l.2.1 = c.2.2))).map (fun _ => c.1)) := by
      simp only [linkWeightsToFlow, List.map_flatMap, List.map_map, List.filter_map]
      rfl
    rw [e]
    apply join_count _ _ fC.1
    rw [List.map_map]; exact hvn
  generalize hlf : linkWeightsToFlow ws vs n3 = lf at *
  -- all ids are in range
  set N := nextAfter (s.2.map Row.cid ++ (lf.2 ++ ll.2).map DynRow.cid) with hN
  have ltS : ∀ r ∈ s.2, r.cid < N := fun r hr =>
    lt_nextAfter (List.mem_append_left _ (List.mem_map.2 ⟨r, hr, rfl⟩))
  have ltD : ∀ r ∈ lf.2 ++ ll.2, r.cid < N := fun r hr =>
    lt_nextAfter (List.mem_append_right _ (List.mem_map.2 ⟨r, hr, rfl⟩))
  have leN : m.nextCon ≤ N := by
    obtain ⟨r, hr⟩ := List.exists_mem_of_ne_nil _ neA
    have := geA r hr; have := ltS r hr; omega
  have hcnt := fun i => Dict.count_set m.conRhs .interpWeights s.2 (fun d => d.map Row.cid) i
  refine ⟨?_, ?_, hm.unitKeys, hm.regKeys, hm.conKeys.set _ _, hm.mktKeys, hm.defKeys, ?_, hm.mktMkt⟩
  · refine own_preserved (k0 := .interpWeights) hm.own (by exact leN) ?_
    intro k' c' hc
    unfold InTab at hc ⊢
    rcases hc with h | h | h | h | h | ⟨rfl, h⟩ | h
    · exact Or.inl (Or.inl h)
    · exact Or.inl (Or.inr (Or.inl h))
    · obtain ⟨d, hd, r, hr, rfl⟩ := h
      rcases Dict.mem_set hd with e | e
      · injection e with e1 e2; subst e1; subst e2
        exact Or.inr ⟨rfl, geA r hr, ltS r hr⟩
      · exact Or.inl (Or.inr (Or.inr (Or.inl ⟨d, e, r, hr, rfl⟩)))
    · exact Or.inl (Or.inr (Or.inr (Or.inr (Or.inl h))))
    · exact Or.inl (Or.inr (Or.inr (Or.inr (Or.inr (Or.inl h)))))
    · right
      refine ⟨rfl, ?_⟩
      rcases h with ⟨t, ht, rfl⟩ | ⟨r, hr, rfl⟩
      · simp only [Option.getD_some, List.mem_append] at ht
        rcases ht with (ht | ht) | ht
        · obtain ⟨r, hr, e⟩ := sub1 t ht
          rw [← e]; exact ⟨geA r hr, ltS r hr⟩
        · obtain ⟨r, hr, e⟩ := sub3 t ht
          have := geC r hr
          rw [← e]; exact ⟨by omega, ltD r (List.mem_append_left _ hr)⟩
        · obtain ⟨r, hr, e⟩ := sub2 t ht
          have := geB r hr
          rw [← e]; exact ⟨by omega, ltD r (List.mem_append_right _ hr)⟩
      · simp only [Option.getD_some] at hr
        refine ⟨?_, ltD r hr⟩
        rcases List.mem_append.1 hr with hr | hr
        · have := geC r hr; omega
        · have := geB r hr; omega
    · exact Or.inl (Or.inr (Or.inr (Or.inr (Or.inr (Or.inr (Or.inr h))))))
  · intro i
    have h1 := hm.rows i; have h2 := hcnt i
    have h3 := count_rows_facts ndA geA i
    have h4 : nextAfter (s.2.map Row.cid) ≤ i → (s.2.map Row.cid).count i = 0 := count_zero_of_ge_nextAfter
    rw [hn2] at h4
    have h5 : (ll.2.map DynRow.cid).count i ≤ 1 := List.nodup_iff_count_le_one.1 ndB i
    have h6 : i < n2 → (ll.2.map DynRow.cid).count i = 0 := by
      intro hi; rw [List.count_eq_zero]; intro hc
      obtain ⟨r, hr, rfl⟩ := List.mem_map.1 hc
      have := geB r hr; omega
    have h7 : nextAfter (ll.2.map DynRow.cid) ≤ i → (ll.2.map DynRow.cid).count i = 0 := count_zero_of_ge_nextAfter
    rw [hn3] at h7
    have h8 : (lf.2.map DynRow.cid).count i ≤ 1 := List.nodup_iff_count_le_one.1 ndC i
    have h9 : i < n3 → (lf.2.map DynRow.cid).count i = 0 := by
      intro hi; rw [List.count_eq_zero]; intro hc
      obtain ⟨r, hr, rfl⟩ := List.mem_map.1 hc
      have := geC r hr; omega
    have h10 : N ≤ i → (s.2.map Row.cid ++ (lf.2 ++ ll.2).map DynRow.cid).count i = 0 := count_zero_of_ge_nextAfter
    rw [List.count_append, List.map_append, List.count_append] at h10
    have h11 := hbA.1; have h12 := hbB.1
    have e : m.rcount i = (m.conRhs.flatMap (fun d => d.2.map Row.cid)).count i +
        (m.mktRhs.flatMap (fun d => d.2.map Row.cid)).count i + ((m.dynRhs.getD []).map DynRow.cid).count i := rfl
    simp only [Market.rcount, Option.getD_some, List.map_append, List.count_append] at *
    omega
  · intro e he
    rcases Dict.mem_set he with rfl | he
    · rfl
    · exact hm.conMkt e he

theorem inTab_sub {m m' : Market} (h1 : ∀ e ∈ m'.unitCon, e ∈ m.unitCon) (h2 : m'.regCon = m.regCon)
    (h3 : ∀ e ∈ m'.conRhs, e ∈ m.conRhs)
    (h4 : m'.mktRhs = m.mktRhs) (h5 : ∀ e ∈ m'.deficits, e ∈ m.deficits) (h6 : m'.lossLhs = m.lossLhs)
    (h7 : m'.dynRhs = m.dynRhs) (h8 : m'.tieLhs = m.tieLhs) {k : CKey} {c : Nat} (h : InTab m' k c) : InTab m k c := by
  unfold InTab at *; rw [h2, h4, h6, h7, h8] at h
  rcases h with ⟨t, ht, h⟩ | h | ⟨t, ht, h⟩ | h | ⟨t, ht, h⟩ | h | h
  · exact Or.inl ⟨t, h1 _ ht, h⟩
  · exact Or.inr (Or.inl h)
  · exact Or.inr (Or.inr (Or.inl ⟨t, h3 _ ht, h⟩))
  · exact Or.inr (Or.inr (Or.inr (Or.inl h)))
  · exact Or.inr (Or.inr (Or.inr (Or.inr (Or.inl ⟨t, h5 _ ht, h⟩))))
  · exact Or.inr (Or.inr (Or.inr (Or.inr (Or.inr (Or.inl h)))))
  · exact Or.inr (Or.inr (Or.inr (Or.inr (Or.inr (Or.inr h)))))

theorem conWF_erase_con {m : Market} (hm : ConWF m) (k : CKey) :
    ConWF { m with conRhs := m.conRhs.erase k, unitCon := m.unitCon.erase k } := by
  refine ⟨?_, ?_, hm.unitKeys.erase _, hm.regKeys, hm.conKeys.erase _, hm.mktKeys, hm.defKeys, ?_, hm.mktMkt⟩
  · refine own_preserved (k0 := k) hm.own (by exact le_refl m.nextCon) ?_
    intro k' c' hc
    refine Or.inl (inTab_sub (m := m) ?_ (by rfl) ?_ (by rfl) ?_ (by rfl) (by rfl) (by rfl) hc) <;> first | exact (fun e he => Dict.mem_erase he) | exact (fun e he => he)
  · intro i
    have h1 := hm.rows i
    have h2 := Dict.count_erase_le m.conRhs k (fun d => d.map Row.cid) i
    simp only [Market.rcount] at *; omega
  · intro e he; exact hm.conMkt e (Dict.mem_erase he)

theorem conWF_erase_def {m : Market} (hm : ConWF m) (k : CKey) :
    ConWF { m with deficits := m.deficits.erase k } := by
  refine ⟨?_, hm.rows, hm.unitKeys, hm.regKeys, hm.conKeys, hm.mktKeys, hm.defKeys.erase _, hm.conMkt, hm.mktMkt⟩
  refine own_preserved (k0 := k) hm.own (by exact le_refl m.nextCon) ?_
  intro k' c' hc
  refine Or.inl (inTab_sub (m := m) ?_ (by rfl) ?_ (by rfl) ?_ (by rfl) (by rfl) (by rfl) hc) <;> first | exact (fun e he => Dict.mem_erase he) | exact (fun e he => he)

theorem conWF_prim {ks : List Part} {m m' : Market} (h : Prim True ks m m') (hm : ConWF m ∧ InterWF m) : ConWF m' := by
  obtain ⟨hm, hI⟩ := hm
  have same : ∀ m' : Market, m'.unitCon = m.unitCon → m'.regCon = m.regCon →
    m'.conRhs = m.conRhs → m'.mktRhs = m.mktRhs → m'.deficits = m.deficits →
    m'.lossLhs = m.lossLhs → m'.dynRhs = m.dynRhs → m'.tieLhs = m.tieLhs →
    m'.nextCon = m.nextCon → ConWF m' := fun m' => conWF_same hm
  cases h with
  | bids _ b =>
    apply same <;> (simp only [Market.setVolumeBids]; split <;> [rfl; (split <;> [rfl; (split <;> rfl)])])
  | prices _ b =>
    apply same <;> (simp only [Market.setPriceBids]; split <;> [rfl; (split <;> [rfl; (split <;> rfl)])])
  | unitSet _ k t hk ht => exact conWF_unitSet hm k t hk ht
  | regSet _ k t hk ht => exact conWF_regSet hm k t hk ht
  | elastic _ k c => exact conWF_elastic hm k c
  | removeFs =>
    simp only [Market.removeFastStart]
    split <;> split
    · exact conWF_erase_def (conWF_erase_con hm _) _
    · exact conWF_erase_con hm _
    · exact conWF_erase_def hm _
    · exact hm
  | inters _ d =>
    apply same <;> (simp only [Market.setInterconnectors]; split <;> [rfl; (split <;> rfl)])
  | losses _ f b h => exact conWF_losses hm hI f b (h trivial)
  | generic _ g =>
    simp only [Market.setGeneric, Market.elasticOpt]
    split
    · exact hm
    · split
      · rename_i h
        have h0 : (saveIndex g m.nextCon (fun i g =>
          ({ cid := i, ctype := g.ctype, rhs := g.rhs, set := some g.set } : Row))) = [] := by simpa using h
        rw [h0]
        exact conWF_rows_empty hm .generic rfl true
      · rename_i h
        have h0 : (saveIndex g m.nextCon (fun i g =>
          ({ cid := i, ctype := g.ctype, rhs := g.rhs, set := some g.set } : Row))) ≠ [] := by simpa using h
        refine conWF_rows hm .generic _ rfl ?_ ?_ h0 m.tieLhs (Or.inl rfl)
        · rw [map_saveIndex, saveIndex_ids]; exact nodup_range' _ _
        · intro r hr
          obtain ⟨i, l, _, h1, _, rfl⟩ := mem_saveIndex_lt hr
          exact h1
  | linkUnits _ g => apply same <;> (simp only [Market.linkUnits]; split <;> rfl)
  | linkRegions _ g => apply same <;> (simp only [Market.linkRegions]; split <;> rfl)
  | linkInters _ g => apply same <;> (simp only [Market.linkInters]; split <;> rfl)
  | tie _ ps hne =>
    refine conWF_rows hm .tieBreak _ rfl ?_ ?_ ?_ _ (Or.inr ⟨rfl, ?_⟩)
    · simp only [tieConstraints, map_saveIndex, saveIndex_ids]; exact nodup_range' _ _
    · intro r hr
      obtain ⟨i, l, _, h1, _, rfl⟩ := mem_saveIndex_lt hr
      exact h1
    · intro h0
      apply hne
      have := congrArg List.length h0
      simpa [tieConstraints] using this
    · intro t ht
      simp only [Option.getD_some, tieConstraints, List.mem_append] at ht ⊢
      rcases ht with ht | ht <;>
      · obtain ⟨i, l, h, rfl⟩ := mem_saveIndex.1 ht
        exact ⟨_, mem_saveIndex.2 ⟨i, l, h, rfl⟩, rfl⟩

/-! ## Reachable markets -/

theorem wf_fresh (r : List String) (u : List UnitInfo) (d : ℚ) :
    VarWF { regions := r, units := u, di := d } ∧ InterWF { regions := r, units := u, di := d } ∧
    ConWF { regions := r, units := u, di := d } := by
  refine ⟨?_, Or.inl ⟨rfl, rfl, rfl⟩, ?_⟩
  · intro i; simp [Market.vcount]
  · refine ⟨⟨fun _ => .demand, ?_⟩, ?_, ?_, ?_, ?_, ?_, ?_, ?_, ?_⟩
    · intro k c h; simp [InTab] at h
    · intro i; simp [Market.rcount]
    all_goals simp [Dict.NodupKeys]

theorem init_fresh {r : List String} {u : List UnitInfo} {d : ℚ} {m : Market} (h : Market.init r u d = .ok m) :
    m = { regions := r, units := u, di := d } ∧ (u.map (fun u => (u.unit, u.dtype))).Nodup := by
  unfold Market.init at h
  split at h
  · rename_i hc
    simp only [Bool.and_eq_true, decide_eq_true_eq] at hc
    injection h with h
    exact ⟨h.symm, hc.2⟩
  · cases h

theorem run_varWF {r : List String} {u : List UnitInfo} {d : ℚ} {m : Market} (h : Market.init r u d = .ok m)
    (ops : List Op) : VarWF (m.run ops) ∧ InterWF (m.run ops) := by
  have h0 := wf_fresh r u d
  rw [(init_fresh h).1]
  refine run_invariant (good := False) (P := fun m => VarWF m ∧ InterWF m) ?_ (fun h => h.elim) ⟨h0.1, h0.2.1⟩
  intro m m' ks hp hm
  exact ⟨varWF_prim hp hm, interWF_prim hp hm.2⟩

theorem run_conWF {r : List String} {u : List UnitInfo} {d : ℚ} {m : Market} (h : Market.init r u d = .ok m)
    {ops : List Op} (hb : Benign m ops) : ConWF (m.run ops) := by
  have h0 := wf_fresh r u d
  rw [(init_fresh h).1] at hb ⊢
  refine (run_invariant (good := True) (P := fun m => ConWF m ∧ InterWF m) ?_ (fun _ => hb) ⟨h0.2.2, h0.2.1⟩).1
  intro m m' ks hp hm
  exact ⟨conWF_prim hp hm, interWF_prim hp hm.2⟩

end Verif
