import Verif.Proofs.Refs
import Verif.Proofs.Balance
import Verif.Proofs.Duality
import Verif.Proofs.Reads
import Verif.Proofs.Bids

/-! Moving dispatch from one bid to another. -/

namespace Verif

/-- ids of variables that occur in the tables of interconnectors and losses -/
def Market.netRefs (m : Market) : List Nat :=
  (m.inters.getD []).map InterVar.vid ++
  (m.losses.getD []).map LossVar.vid ++ (m.lossReg.getD []).map VarReg.vid ++ (m.weights.getD []).map WeightVar.vid ++
  (m.lossLhs.getD []).map Term.vid ++ (m.dynRhs.getD []).map DynRow.rhsVid

def NetWF (m : Market) : Prop := ∀ v ∈ (m.bids.getD []).map BidVar.vid, v ∉ m.netRefs

theorem RefWF.bids {m : Market} (h : RefWF m) {v : Nat} (hv : v ∈ (m.bids.getD []).map BidVar.vid) : v < m.nextVar ∧ v ∉ m.defVids :=
  h.refs v (by simp only [Market.refs, List.mem_append]; tauto)

theorem RefWF.net {m : Market} (h : RefWF m) {v : Nat} (hv : v ∈ m.netRefs) : v < m.nextVar ∧ v ∉ m.defVids :=
  h.refs v (by simp only [Market.netRefs, Market.refs, List.mem_append] at hv ⊢; tauto)

theorem netWF_same {m m' : Market} (hm : NetWF m) (hb : m'.bids = m.bids) (hn : m'.netRefs = m.netRefs) : NetWF m' := by
  unfold NetWF; rw [hb, hn]; exact hm

theorem netWF_net {m m' : Market} (hm : NetWF m) (hr : RefWF m) (hb : m'.bids = m.bids)
    (hn : ∀ v ∈ m'.netRefs, v ∈ m.netRefs ∨ m.nextVar ≤ v) : NetWF m' := by
  intro v hv hc
  rw [hb] at hv
  rcases hn v hc with h | h
  · exact hm v hv h
  · have := (hr.bids hv).1; omega

theorem netWF_losses {m : Market} (hm : NetWF m) (hr : RefWF m) (hI : InterWF m) (f : List LossFn) (b : List BreakPt) : NetWF (m.setLosses f b).1 := by
  simp only [Market.setLosses]
  split
  · exact hm
  split
  · rename_i ds vs im hds hvs him
    split
    · exact netWF_same hm rfl rfl
    rename_i hne
    have hne := fun h => hne (List.isEmpty_iff.2 h)
    have hlv := losses_lv_ne (n := m.nextVar) hI hds hvs hne
    set fr := mergeFromRegion f ds
    set lv := lossVariables vs fr m.nextVar with hlve
    set ws := weightVariables b (nextAfter (lv.map LossVar.vid)) with hws
    have h1 : ∀ v ∈ lv.map LossVar.vid, m.nextVar ≤ v := by
      intro v hv
      obtain ⟨l, hl, rfl⟩ := List.mem_map.1 hv
      exact lossVariables_mem hl
    have h2 : m.nextVar ≤ nextAfter (lv.map LossVar.vid) := le_nextAfter h1 (by simpa using hlv)
    have h3 : ∀ v ∈ ws.map WeightVar.vid, m.nextVar ≤ v := by
      intro v hv
      rw [hws, weightVariables_vids] at hv
      simp only [List.mem_range'_1] at hv; omega
    refine netWF_net hm hr rfl ?_
    · intro v hv
      simp only [Market.netRefs, Option.getD_some, List.mem_append] at hv
      have hin : v ∈ (m.inters.getD []).map InterVar.vid → v ∈ m.netRefs := by
        intro h; simp only [Market.netRefs, List.mem_append]; tauto
      rcases hv with (((((h | h) | h) | h) | h) | h)
      · exact Or.inl (hin h)
      · exact Or.inr (h1 v h)
      · right
        obtain ⟨l, hl, rfl⟩ := List.mem_map.1 h
        exact h1 _ (lossMap_mem hl)
      · exact Or.inr (h3 v h)
      · right
        obtain ⟨t, ht, rfl⟩ := List.mem_map.1 h
        apply h3
        simp only [List.mem_append] at ht
        rcases ht with (ht | ht) | ht
        · exact weightTerms_mem ht
        · exact weightTerms_mem ht
        · simp only [linkLossToWeights, List.mem_flatMap, List.mem_map] at ht
          obtain ⟨w, hw, _, _, _, _, rfl⟩ := ht
          exact List.mem_map_of_mem hw
      · obtain ⟨t, ht, rfl⟩ := List.mem_map.1 h
        simp only [List.mem_append] at ht
        rcases ht with ht | ht
        · left
          simp only [linkWeightsToFlow, List.mem_flatMap, List.mem_map] at ht
          obtain ⟨_, _, w, hw, rfl⟩ := ht
          apply hin
          rw [hvs]
          exact List.mem_map_of_mem (List.mem_filter.1 hw).1
        · right
          apply h1
          simp only [linkLossToWeights, List.mem_flatMap, List.mem_map] at ht
          obtain ⟨_, _, w, hw, rfl⟩ := ht
          exact List.mem_map_of_mem (List.mem_filter.1 hw).1
  · exact netWF_same hm rfl rfl

theorem netWF_prim {good : Prop} {ks : List Part} {m m' : Market} (h : Prim good ks m m') (hm : NetWF m) (hr : RefWF m) (hI : InterWF m) : NetWF m' := by
  cases h with
  | bids _ b =>
    simp only [Market.setVolumeBids]
    have hmem : ∀ v ∈ (bidVariables b m.nextVar).map BidVar.vid, m.nextVar ≤ v := by
      intro v hv; rw [bidVariables_vids] at hv; simp only [List.mem_range'_1] at hv; omega
    have key : ∀ mm : Market, mm.bids = some (bidVariables b m.nextVar) → mm.netRefs = m.netRefs → NetWF mm := by
      intro mm h1 h2 v hv hc
      rw [h1, Option.getD_some] at hv
      rw [h2] at hc
      have := hmem v hv
      have := (hr.net hc).1
      omega
    split
    · exact hm
    split
    · exact hm
    split <;> exact key _ rfl rfl
  | prices _ b =>
    simp only [Market.setPriceBids]
    split
    · exact hm
    split
    · exact hm
    split
    · exact hm
    exact netWF_same hm rfl rfl
  | unitSet _ k t hk ht => simp only [Market.addUnitSet]; split <;> exact netWF_same hm rfl rfl
  | regSet _ k t hk ht => simp only [Market.addRegSet]; split <;> exact netWF_same hm rfl rfl
  | elastic _ k c =>
    simp only [Market.makeElastic]
    split
    · exact hm
    split
    · exact hm
    split
    · exact hm
    split <;> exact netWF_same hm rfl rfl
  | removeFs =>
    simp only [Market.removeFastStart]
    split <;> split <;> exact netWF_same hm rfl rfl
  | inters _ d =>
    simp only [Market.setInterconnectors]
    have hmem : ∀ v ∈ (interVariables d m.nextVar).map InterVar.vid, m.nextVar ≤ v := by
      intro v hv; rw [interVariables_vids] at hv; simp only [List.mem_range'_1] at hv; omega
    split
    · exact hm
    split
    all_goals
      refine netWF_net hm hr rfl ?_
      intro v hv
      have := hmem v
      simp only [Market.netRefs, Option.getD_some, List.mem_append] at hv ⊢
      tauto
  | losses _ f b => exact netWF_losses hm hr hI f b
  | generic _ g =>
    simp only [Market.setGeneric, Market.elasticOpt]
    split
    · exact hm
    · split <;> exact netWF_same hm rfl rfl
  | linkUnits _ g => simp only [Market.linkUnits]; split <;> exact netWF_same hm rfl rfl
  | linkRegions _ g => simp only [Market.linkRegions]; split <;> exact netWF_same hm rfl rfl
  | linkInters _ g => simp only [Market.linkInters]; split <;> exact netWF_same hm rfl rfl
  | tie _ ps hne hp => exact netWF_same hm rfl rfl

theorem Reached.net {m : Market} (h : Reached m) : NetWF m := by
  obtain ⟨r, u, di, m0, ops, h1, h2, rfl⟩ := h
  have h3 : NetWF m0 ∧ RefWF m0 ∧ InterWF m0 := by
    rw [(init_fresh h1).1]
    refine ⟨?_, ⟨?_, ?_, ?_⟩, (wf_fresh r u di).2.1⟩ <;> simp [NetWF, Market.refs, Market.defVids]
  exact (run_invariant (good := True) (P := fun m => NetWF m ∧ RefWF m ∧ InterWF m)
    (fun m m' ks hp hq => ⟨netWF_prim hp hq.1 hq.2.1 hq.2.2, refWF_prim hp hq.2, interWF_prim hp hq.2.2⟩) (fun _ => h2) h3).1

/-- the assignment that is one for one variable and zero for all others -/
def unitVec (a : Nat) : Nat → ℚ := fun v => if v = a then 1 else 0

/-- move `δ` from variable `b` to variable `a` -/
def move (x : Nat → ℚ) (a b : Nat) (δ : ℚ) : Nat → ℚ := fun v => x v + δ * (unitVec a v - unitVec b v)

theorem linVal_move (x : Nat → ℚ) (a b : Nat) (δ : ℚ) (cs : List (Nat × ℚ)) :
    linVal (move x a b δ) cs = linVal x cs + δ * (linVal (unitVec a) cs - linVal (unitVec b) cs) := by
  simp only [linVal, move]
  induction cs with
  | nil => simp
  | cons c cs ih => simp only [List.map_cons, List.sum_cons, ih]; ring

theorem move_other (x : Nat → ℚ) {a b v : Nat} (δ : ℚ) (ha : v ≠ a) (hb : v ≠ b) : move x a b δ v = x v := by
  simp [move, unitVec, ha, hb]

theorem mapVal_congr {m : Market} (hw : WF m) {x y : Nat → ℚ} (h : ∀ u s d, m.dispatched x u s d = m.dispatched y u s d)
    (u : String) (s : Service) (d : DType) : m.mapVal x u s d = m.mapVal y u s d := by
  by_cases hl : m.lists u d
  · rw [mapVal_eq hw hl, mapVal_eq hw hl, h]
  · have hn : ∀ v ∈ m.bidUnit.getD [], decide (v.unit = u ∧ v.service = s ∧ v.dtype = d) = false := by
      intro v hv
      rw [decide_eq_false_iff_not]
      intro hc
      exact hl ((mem_bidUnit_iff hw).1 ⟨v, hv, hc⟩).1
    unfold Market.mapVal
    rw [filter_nil_of hn]
    simp

theorem unitTerms_congr {m : Market} (hw : WF m) {x y : Nat → ℚ} (h : ∀ u s d, m.dispatched x u s d = m.dispatched y u s d)
    (c : Nat) : rowVal m.unitTerms x c = rowVal m.unitTerms y c := by
  unfold Market.unitTerms
  rw [rowVal_createLhsUnit, rowVal_createLhsUnit]
  unfold Market.unitLhs
  apply sum_map_congr
  intro k _
  rw [mapVal_congr hw h]

theorem regSum_congr {vs : List VarReg} {x y : Nat → ℚ} (h : ∀ v ∈ vs, x v.vid = y v.vid) (r : String) (s : Service) :
    regSum vs x r s = regSum vs y r s := by
  unfold regSum
  apply sum_map_congr
  intro v hv
  rw [h v (List.mem_of_mem_filter hv)]

theorem interReg_inters {m : Market} (hw : WF m) {v : InterMap} (h : v ∈ m.interReg.getD []) :
    v.vid ∈ (m.inters.getD []).map InterVar.vid := by
  rcases hw.inter with ⟨_, _, b⟩ | ⟨ds, n, _, e1, e2, _⟩
  · rw [b] at h; simp at h
  · rw [e2] at h
    have hv : v ∈ interMap ds n := h
    have : ∃ b' ∈ interVariables ds n, b'.vid = v.vid := by
      simp only [interMap, interVariables, List.mem_append] at hv ⊢
      rcases hv with hv | hv <;>
      · obtain ⟨i, a, ha, rfl⟩ := mem_saveIndex.1 hv
        exact ⟨_, mem_saveIndex.2 ⟨i, a, ha, rfl⟩, rfl⟩
    obtain ⟨b', hb, e⟩ := this
    rw [e1, Option.getD_some, ← e]
    exact List.mem_map_of_mem hb

theorem regTerms_congr {m : Market} (hw : WF m) {x y : Nat → ℚ} (hn : ∀ v ∈ m.netRefs, x v = y v)
    (hs : ∀ r s, m.supply x r s = m.supply y r s) (c : Nat) : rowVal m.regTerms x c = rowVal m.regTerms y c := by
  unfold Market.regTerms
  rw [rowVal_createLhsReg, rowVal_createLhsReg]
  apply sum_map_congr
  intro k _
  congr 1
  unfold Market.regVars
  rw [regSum_append, regSum_append, regSum_append, regSum_append, supply_eq hw, supply_eq hw, hs]
  congr 1
  · congr 1
    apply regSum_congr
    intro v hv
    apply hn
    obtain ⟨i, hi, rfl⟩ := List.mem_map.1 hv
    have h2 : i.vid ∈ (m.inters.getD []).map InterVar.vid := interReg_inters hw hi
    unfold Market.netRefs
    simp only [List.mem_append]
    tauto
  · apply regSum_congr
    intro v hv
    apply hn
    have h2 := List.mem_map_of_mem (f := VarReg.vid) hv
    unfold Market.netRefs
    simp only [List.mem_append]
    tauto

/-- the rows of generic constraints -/
theorem rowVal_links {α β : Type} (gs : List α) (vs : List β) (ids : List (Nat × String)) (set : α → String)
    (p : α → β → Bool) (vid : β → Nat) (co : α → β → ℚ) (x : Nat → ℚ) (c : Nat) :
    rowVal (gs.flatMap (fun g => (vs.filter (p g)).flatMap (fun v =>
      (ids.filter (fun i => decide (i.2 = set g))).map (fun i => ({ cid := i.1, vid := vid v, coef := co g v } : Term))))) x c =
    (gs.map (fun g => ((ids.filter (fun i => decide (i.2 = set g))).filter (fun i => decide (i.1 = c))).length *
      ((vs.filter (p g)).map (fun v => co g v * x (vid v))).sum)).sum := by
  rw [rowVal_flatMap]
  apply sum_map_congr
  intro g _
  rw [rowVal_flatMap, ← sum_map_mul_left]
  apply sum_map_congr
  intro v _
  unfold rowVal
  rw [List.filter_map, List.map_map]
  exact sum_map_const (List.filter (fun i => decide (i.1 = c)) (List.filter (fun i => decide (i.2 = set g)) ids)) (co g v * x (vid v))

theorem genericTerms_congr {m : Market} (hw : WF m) {x y : Nat → ℚ} (hn : ∀ v ∈ m.netRefs, x v = y v)
    (hr : ∀ r s, m.regionTotal x r s = m.regionTotal y r s)
    (hu : m.gUnit = none ∨ ∀ u s, m.unitTotal x u s = m.unitTotal y u s) (ids : List (Nat × String)) (c : Nat) :
    rowVal (m.genericTermsFor ids) x c = rowVal (m.genericTermsFor ids) y c := by
  unfold Market.genericTermsFor
  rw [rowVal_append, rowVal_append, rowVal_append, rowVal_append]
  congr 1
  · congr 1
    · rcases hu with hu | hu
      · split
        · rename_i h _; rw [hu] at h; cases h
        · rfl
      · split
        · rename_i g v _ hv
          unfold genericUnitLhs
          rw [rowVal_links _ _ _ GUnit.set _ VarUnit.vid (fun g v => g.coef * v.coef),
            rowVal_links _ _ _ GUnit.set _ VarUnit.vid (fun g v => g.coef * v.coef)]
          apply sum_map_congr
          intro k _
          congr 1
          have e : ∀ z : Nat → ℚ, ((v.filter (fun v => decide (v.unit = k.unit ∧ v.service = k.service))).map
              (fun v => k.coef * v.coef * z v.vid)).sum = k.coef * m.unitTotal z k.unit k.service := by
            intro z
            rw [← genericUnit_val hw, hv, Option.getD_some, ← sum_map_mul_left]
            apply sum_map_congr
            intro _ _; ring
          rw [e, e, hu]
        · rfl
    · split
      · rename_i g v _ hv
        unfold genericRegionLhs
        rw [rowVal_links _ _ _ GRegion.set _ VarReg.vid (fun g v => g.coef),
          rowVal_links _ _ _ GRegion.set _ VarReg.vid (fun g v => g.coef)]
        apply sum_map_congr
        intro k _
        congr 1
        have e : ∀ z : Nat → ℚ, ((v.filter (fun v => decide (v.region = k.region ∧ v.service = k.service))).map
            (fun v => k.coef * z v.vid)).sum = k.coef * m.regionTotal z k.region k.service := by
          intro z
          rw [← genericRegion_val hw, hv, Option.getD_some, ← sum_map_mul_left]
        rw [e, e, hr]
      · rfl
  · split
    · rename_i g v _ hv
      unfold genericInterLhs
      rw [rowVal_links _ _ _ GInter.set _ InterVar.vid (fun g v => g.coef * v.gcf),
        rowVal_links _ _ _ GInter.set _ InterVar.vid (fun g v => g.coef * v.gcf)]
      apply sum_map_congr
      intro k _
      congr 1
      apply sum_map_congr
      intro w hw
      rw [hn]
      have := List.mem_map_of_mem (f := InterVar.vid) (List.mem_of_mem_filter hw)
      unfold Market.netRefs
      rw [hv, Option.getD_some]
      simp only [List.mem_append]
      tauto
    · rfl

/-- Constraints other than tie breaks only depend on dispatch totals, flows, losses and violations. -/
theorem rowVal_totals {m : Market} (hm : Reached m) (ht : m.tieLhs = none) {x y : Nat → ℚ}
    (hn : ∀ v ∈ m.netRefs, x v = y v) (hd : ∀ v ∈ m.defVids, x v = y v)
    (hs : ∀ r s, m.supply x r s = m.supply y r s) (hr : ∀ r s, m.regionTotal x r s = m.regionTotal y r s)
    (hu : (m.unitCon = [] ∧ m.gUnit = none) ∨ ∀ u s d, m.dispatched x u s d = m.dispatched y u s d) (c : Nat) :
    rowVal m.terms x c = rowVal m.terms y c := by
  have hw := hm.wf
  unfold Market.terms
  rw [rowVal_append, rowVal_append, rowVal_append, rowVal_append, rowVal_append, rowVal_append]
  congr 1
  · congr 1
    · congr 1
      · unfold Market.fixedTerms
        rw [ht]
        apply rowVal_agree
        intro t h
        simp only [Option.getD_none, List.append_nil, List.mem_append, List.mem_flatMap] at h
        rcases h with h | ⟨e, he, h⟩
        · apply hn
          have := List.mem_map_of_mem (f := Term.vid) h
          unfold Market.netRefs
          simp only [List.mem_append]
          tauto
        · apply hd
          exact List.mem_flatMap.2 ⟨e, he, hm.refs.own e he t h⟩
      · rw [genericTerms_eq]
        refine genericTerms_congr hw hn hr ?_ _ _
        rcases hu with hu | hu
        · exact Or.inl hu.2
        · right
          intro u s
          unfold Market.unitTotal
          apply sum_map_congr
          intro i _
          rw [hu]
    · exact regTerms_congr hw hn hs c
  · rcases hu with hu | hu
    · unfold Market.unitTerms
      rw [hu.1]
      rfl
    · exact unitTerms_congr hw hu c

theorem bids_nodup {m : Market} (hw : VarWF m) : ((m.bids.getD []).map BidVar.vid).Nodup := by
  rw [List.nodup_iff_count_le_one]
  intro i
  have := (hw i).1
  rw [← vcount_eq] at this
  simp only [Market.allVars, List.map_append, List.count_append, List.map_map, Function.comp_def] at this
  have e : (m.bids.getD []).map BidVar.vid = (m.bids.getD []).map (fun v => v.vid) := rfl
  rw [e]
  omega

theorem sum_unitVec {bs : List BidVar} (hn : (bs.map BidVar.vid).Nodup) {a : BidVar} (ha : a ∈ bs) (f : BidVar → ℚ) :
    (bs.map (fun b => f b * unitVec a.vid b.vid)).sum = f a := by
  have e : (bs.map (fun b => f b * unitVec a.vid b.vid)) = bs.map (fun b => if decide (b.vid = a.vid) then f b else 0) := by
    apply List.map_congr_left
    intro b _
    by_cases h : b.vid = a.vid <;> simp [unitVec, h]
  rw [e, ← sum_filter_eq_ite, filter_key_unique hn ha]
  simp

theorem dispatched_move (m : Market) (x : Nat → ℚ) (a b : Nat) (δ : ℚ) (u : String) (s : Service) (d : DType) :
    m.dispatched (move x a b δ) u s d = m.dispatched x u s d +
      δ * (m.dispatched (unitVec a) u s d - m.dispatched (unitVec b) u s d) := by
  unfold Market.dispatched
  rw [← sum_map_sub, ← sum_map_mul_left, ← sum_map_add]
  rfl

theorem dispatched_unitVec {m : Market} (hw : VarWF m) {a : BidVar} (ha : a ∈ m.bids.getD []) (u : String) (s : Service) (d : DType) :
    m.dispatched (unitVec a.vid) u s d = if a.unit = u ∧ a.service = s ∧ a.dtype = d then 1 else 0 := by
  unfold Market.dispatched
  rw [sum_filter_eq_ite]
  have := sum_unitVec (bids_nodup hw) ha (fun b => if a.unit = u ∧ a.service = s ∧ a.dtype = d then 1 else 0)
  rw [← this]
  apply sum_map_congr
  intro b hb
  by_cases h : b.vid = a.vid
  · have : b = a := List.inj_on_of_nodup_map (bids_nodup hw) hb ha h
    subst this
    by_cases h2 : b.unit = u ∧ b.service = s ∧ b.dtype = d <;> simp [h2]
  · simp [unitVec, h]

/-- If moving dispatch between two bids changes no constraint, the cheaper bid is dispatched first. -/
theorem exchange {m : Market} (hm : Reached m) {a b : BidVar} (ha : a ∈ m.bids.getD []) (hb : b ∈ m.bids.getD [])
    {lp : Lp} (hl : m.assemble = .ok lp) {x : Nat → ℚ} (hx : Optimal lp x)
    (hrow : ∀ δ c, rowVal m.terms (move x a.vid b.vid δ) c = rowVal m.terms x c)
    (hc : lp.cost (unitVec a.vid) < lp.cost (unitVec b.vid)) : x a.vid = a.ub ∨ x b.vid = 0 := by
  by_contra hcon
  push Not at hcon
  obtain ⟨h1, h2⟩ := hcon
  have hw := hm.wf
  have hab : a.vid ≠ b.vid := by intro h; rw [h] at hc; exact lt_irrefl _ hc
  obtain ⟨fa0, fa1⟩ := bid_bounds hl hx.1 ha
  obtain ⟨fb0, fb1⟩ := bid_bounds hl hx.1 hb
  set δ := min (a.ub - x a.vid) (x b.vid) with hδ
  have hδ0 : 0 < δ := by
    apply lt_min
    · exact sub_pos.2 (lt_of_le_of_ne fa1 h1)
    · exact lt_of_le_of_ne fb0 (Ne.symm h2)
  have hδa : δ ≤ a.ub - x a.vid := min_le_left _ _
  have hδb : δ ≤ x b.vid := min_le_right _ _
  set y := move x a.vid b.vid δ with hy
  have hav := List.mem_map_of_mem (f := BidVar.vid) ha
  have hbv := List.mem_map_of_mem (f := BidVar.vid) hb
  have hout : ∀ v, v ∈ m.netRefs ∨ v ∈ m.defVids → y v = x v := by
    intro v hv
    apply move_other
    · rintro rfl
      exact hv.elim (hm.net _ hav) (hm.refs.bids hav).2
    · rintro rfl
      exact hv.elim (hm.net _ hbv) (hm.refs.bids hbv).2
  obtain ⟨p1, p2, p3, p4, -, -⟩ := assemble_parts hl
  have hf : Feasible lp y := by
    refine ⟨?_, ?_, ?_, ?_⟩
    · intro v hv
      have hv0 := hx.1.vars v hv
      rw [p1] at hv
      have hsame : y v.vid = x v.vid → v.holds y := by
        intro e; unfold LVar.holds at hv0 ⊢; rwa [e]
      simp only [Market.allVars, List.mem_append, List.mem_map, List.mem_flatMap] at hv
      rcases hv with (((⟨w, hw', rfl⟩ | ⟨w, hw', rfl⟩) | ⟨w, hw', rfl⟩) | ⟨w, hw', rfl⟩) | ⟨d, hd, w, hw', rfl⟩
      · by_cases e1 : w.vid = a.vid
        · have : w = a := List.inj_on_of_nodup_map (bids_nodup hw.var) hw' ha e1
          subst this
          have : y w.vid = x w.vid + δ := by simp [hy, move, unitVec, hab]
          refine ⟨?_, ?_⟩
          · show (0 : ℚ) ≤ y w.vid
            rw [this]; linarith
          · intro u hu
            injection hu with hu
            subst hu
            show y w.vid ≤ w.ub
            rw [this]; linarith
        · by_cases e2 : w.vid = b.vid
          · have : w = b := List.inj_on_of_nodup_map (bids_nodup hw.var) hw' hb e2
            subst this
            have : y w.vid = x w.vid - δ := by simp [hy, move, unitVec, e1]; ring
            refine ⟨?_, ?_⟩
            · show (0 : ℚ) ≤ y w.vid
              rw [this]; linarith
            · intro u hu
              injection hu with hu
              subst hu
              show y w.vid ≤ w.ub
              rw [this]; linarith
          · exact hsame (move_other _ _ e1 e2)
      · apply hsame; apply hout; left
        have := List.mem_map_of_mem (f := InterVar.vid) hw'
        simp only [Market.netRefs, List.mem_append]; tauto
      · apply hsame; apply hout; left
        have := List.mem_map_of_mem (f := LossVar.vid) hw'
        simp only [Market.netRefs, List.mem_append]; tauto
      · apply hsame; apply hout; left
        have := List.mem_map_of_mem (f := WeightVar.vid) hw'
        simp only [Market.netRefs, List.mem_append]; tauto
      · apply hsame; apply hout; right
        exact List.mem_flatMap.2 ⟨d, hd, List.mem_map_of_mem hw'⟩
    · intro r hr
      obtain ⟨-, hr2, hr3⟩ := lpRow hl hr
      have h0 := hx.1.rows r hr
      rw [hr3] at h0 ⊢
      rw [hrow]
      have : r.rhs.eval y = r.rhs.eval x := by
        simp only [Market.allRows, List.mem_append, List.mem_map] at hr2
        rcases hr2 with (⟨q, _, e⟩ | ⟨q, _, e⟩) | ⟨q, hq, e⟩
        · simp only [Prod.mk.injEq] at e; rw [← e.2.2]; rfl
        · simp only [Prod.mk.injEq] at e; rw [← e.2.2]; rfl
        · simp only [Prod.mk.injEq] at e; rw [← e.2.2]
          apply hout; left
          have := List.mem_map_of_mem (f := DynRow.rhsVid) hq
          simp only [Market.netRefs, List.mem_append]; tauto
      rwa [this]
    · intro g hg
      have h0 := hx.1.sos2 g hg
      have e : ∀ p ∈ g, y p.1 = x p.1 := by
        intro p hp
        rw [p3] at hg
        simp only [Market.sos2Groups, groupBy, List.map_map, List.mem_map] at hg
        obtain ⟨k, _, rfl⟩ := hg
        simp only [Function.comp, List.mem_map] at hp
        obtain ⟨w, hw', rfl⟩ := hp
        apply hout; left
        have := List.mem_map_of_mem (f := WeightVar.vid) (List.mem_of_mem_filter hw')
        simp only [Market.netRefs, List.mem_append]; tauto
      intro p hp q hq h3 h4
      rw [e p hp] at h3
      rw [e q hq] at h4
      exact h0 p hp q hq h3 h4
    · intro g hg
      have h0 := hx.1.sos1 g hg
      have e : ∀ p ∈ g, y p = x p := by
        intro p hp
        rw [p4] at hg
        simp only [Market.sos1Groups, groupBy, List.map_map, List.mem_map] at hg
        obtain ⟨k, _, rfl⟩ := hg
        simp only [Function.comp, List.mem_map] at hp
        obtain ⟨w, hw', rfl⟩ := hp
        apply hout; left
        have := List.mem_map_of_mem (f := InterVar.vid) (List.mem_of_mem_filter (List.mem_of_mem_filter hw'))
        simp only [Market.netRefs, List.mem_append]; tauto
      intro p hp q hq h3 h4
      rw [e p hp] at h3
      rw [e q hq] at h4
      exact h0 p hp q hq h3 h4
  have hle := hx.2 y hf
  unfold Lp.cost at hle hc
  rw [hy, linVal_move] at hle
  nlinarith

end Verif
