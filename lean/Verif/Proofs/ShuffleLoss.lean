import Verif.Proofs.ShuffleStep

/-! Interconnector losses, given the same tables with the rows in another order. -/

namespace Verif

section
variable {f g : Nat → Nat} {m M : Market}

theorem nextAfter_mem {l : List Nat} {n N : Nat} (h : ∀ i, i ∈ l ↔ n ≤ i ∧ i < n + N) (hN : 0 < N) : nextAfter l = n + N := by
  unfold nextAfter
  have h1 : l.foldl max 0 ≤ n + N - 1 := foldl_max_le (Nat.zero_le _) (fun i hi => by have := (h i).1 hi; omega)
  have h2 : n + N - 1 ≤ l.foldl max 0 := mem_le_foldl_max ((h _).2 (by omega))
  omega

theorem moved_mem {σ : Nat → Nat} {n N : Nat} (h : Moves σ n N) {l L : List Nat} (h1 : L.Perm (l.map σ)) (h2 : ∀ i, i ∈ l ↔ n ≤ i ∧ i < n + N) :
    ∀ i, i ∈ L ↔ n ≤ i ∧ i < n + N := by
  intro i
  have hr : i ∈ (List.range' n N).map σ ↔ i ∈ List.range' n N := h.range.mem_iff
  rw [h1.mem_iff, ← List.mem_range'_1, ← hr, List.mem_map, List.mem_map]
  simp only [List.mem_range'_1, h2]

theorem mergeFrom_perm {fs FS : List LossFn} (hf : FS.Perm fs) {ds DS : List InterDef} (hd : DS.Perm ds) :
    (mergeFromRegion FS DS).Perm (mergeFromRegion fs ds) :=
  flatMap_perm hf (fun _ => (hd.filter _).map _)

theorem lossAux_perm {vs VS : List InterVar} (hv : VS.Perm (vs.map (InterVar.ren f))) {fr FR : List LossFnR} (hf : FR.Perm fr) (n : Nat) :
    ∃ σ, Moves σ n vs.length ∧ (lossVariablesAux VS FR n).Perm ((lossVariablesAux vs fr n).map (fun p => (p.1.ren σ, p.2))) := by
  obtain ⟨σ, hσ, hF⟩ := saveIndex_perm hv n
  rw [List.length_map] at hσ
  refine ⟨σ, hσ, ?_⟩
  unfold lossVariablesAux
  refine (flatMap_perm (hF _) (fun v => (hf.filter _).map _)).trans (.of_eq ?_)
  rw [saveIndex_of_map, List.map_flatMap, List.flatMap_def, List.flatMap_def, map_saveIndex, map_saveIndex]
  congr 1
  refine saveIndex_ext (fun i v _ _ _ => ?_)
  dsimp only
  rw [List.map_map]
  rfl

theorem lossVars_perm {vs VS : List InterVar} {fr FR : List LossFnR} {n : Nat} {σ : Nat → Nat}
    (h : (lossVariablesAux VS FR n).Perm ((lossVariablesAux vs fr n).map (fun p => (p.1.ren σ, p.2)))) :
    (lossVariables VS FR n).Perm ((lossVariables vs fr n).map (LossVar.ren σ)) := by
  unfold lossVariables
  refine (h.map _).trans (.of_eq ?_)
  rw [List.map_map, List.map_map]
  rfl

theorem lossMap_perm {vs VS : List InterVar} {fr FR : List LossFnR} {n : Nat} {σ : Nat → Nat}
    (h : (lossVariablesAux VS FR n).Perm ((lossVariablesAux vs fr n).map (fun p => (p.1.ren σ, p.2))))
    {im IM : List InterMap} (hi : IM.Perm (im.map (InterMap.ren f))) :
    (lossMap VS IM FR n).Perm ((lossMap vs im fr n).map (VarReg.ren σ)) := by
  unfold lossMap
  refine (flatMap_perm h (fun p => (hi.filter _).map _)).trans (.of_eq ?_)
  rw [List.flatMap_map, List.map_flatMap]
  congr 1
  funext p
  rw [List.filter_map, List.map_map, List.map_map]
  rfl

theorem lossIds {vs : List InterVar} {fr : List LossFnR} {n : Nat} (h : ∀ v ∈ vs, ∃ l ∈ fr, l.inter = v.inter ∧ l.link = v.link) :
    ∀ i, i ∈ (lossVariables vs fr n).map LossVar.vid ↔ n ≤ i ∧ i < n + vs.length := by
  intro i
  unfold lossVariables lossVariablesAux
  simp only [List.mem_map, List.mem_flatMap, List.mem_filter, decide_eq_true_eq]
  constructor
  · rintro ⟨_, ⟨_, ⟨v, hv, l, _, rfl⟩, rfl⟩, rfl⟩
    obtain ⟨j, r, _, h1, h2, rfl⟩ := mem_saveIndex_lt hv
    exact ⟨h1, h2⟩
  · rintro ⟨h1, h2⟩
    have hj : i - n < vs.length := by omega
    obtain ⟨l, hl, e1, e2⟩ := h vs[i - n] (List.getElem_mem hj)
    refine ⟨_, ⟨_, ⟨_, mem_saveIndex.2 ⟨i - n, vs[i - n], List.getElem?_eq_getElem hj, rfl⟩, l, ⟨hl, e1, e2⟩, rfl⟩, rfl⟩, ?_⟩
    show n + (i - n) = i
    omega

theorem weightVars_perm {bs BS : List BreakPt} (hb : BS.Perm bs) (n : Nat) :
    ∃ σ, Moves σ n bs.length ∧ (weightVariables BS n).Perm ((weightVariables bs n).map (WeightVar.ren σ)) := by
  obtain ⟨σ, hσ, hF⟩ := saveIndex_perm hb n
  refine ⟨σ, hσ, ?_⟩
  unfold weightVariables
  refine (hF _).trans (.of_eq ?_)
  rw [map_saveIndex]
  rfl

/-- the links that have weights -/
def weightLinks (ws : List WeightVar) : List (String × String) := (dropDup (fun w => (w.inter, w.link)) ws).map (fun w => (w.inter, w.link))

theorem conIds_eq (ws : List WeightVar) (n : Nat) : weightConIds ws n = saveIndex (weightLinks ws) n (fun i k => (i, k)) := by
  unfold weightConIds weightLinks
  rw [saveIndex_of_map]

theorem mem_weightLinks {ws : List WeightVar} {k : String × String} : k ∈ weightLinks ws ↔ ∃ w ∈ ws, (w.inter, w.link) = k := by
  unfold weightLinks
  rw [List.mem_map]
  constructor
  · rintro ⟨w, hw, rfl⟩; exact ⟨w, mem_of_mem_dropDup hw, rfl⟩
  · rintro ⟨w, hw, rfl⟩
    obtain ⟨v, hv, e⟩ := exists_dropDup (key := fun w : WeightVar => (w.inter, w.link)) hw
    exact ⟨v, hv, e⟩

theorem weightLinks_perm {τ : Nat → Nat} {ws WS : List WeightVar} (h : WS.Perm (ws.map (WeightVar.ren τ))) : (weightLinks WS).Perm (weightLinks ws) := by
  have hn : ∀ ws, (weightLinks ws).Nodup := fun ws => dropDup_nodup _ ws
  rw [List.perm_ext_iff_of_nodup (hn _) (hn _)]
  intro k
  rw [mem_weightLinks, mem_weightLinks]
  constructor
  · rintro ⟨w, hw, rfl⟩
    obtain ⟨v, hv, rfl⟩ := List.mem_map.1 (h.mem_iff.1 hw)
    exact ⟨v, hv, rfl⟩
  · rintro ⟨w, hw, rfl⟩
    exact ⟨_, h.mem_iff.2 (List.mem_map.2 ⟨w, hw, rfl⟩), rfl⟩

theorem conIds_perm {τ : Nat → Nat} {ws WS : List WeightVar} (h : WS.Perm (ws.map (WeightVar.ren τ))) (n : Nat) :
    ∃ σ, Moves σ n (weightLinks ws).length ∧ (weightConIds WS n).Perm ((weightConIds ws n).map (fun c => (σ c.1, c.2))) := by
  obtain ⟨σ, hσ, hF⟩ := saveIndex_perm (weightLinks_perm h) n
  refine ⟨σ, hσ, ?_⟩
  rw [conIds_eq, conIds_eq]
  refine (hF _).trans (.of_eq ?_)
  rw [map_saveIndex]

variable {τ σ : Nat → Nat} {ws WS : List WeightVar} {n : Nat}

theorem weightTerms_perm (h : WS.Perm (ws.map (WeightVar.ren τ))) (hc : (weightConIds WS n).Perm ((weightConIds ws n).map (fun c => (σ c.1, c.2))))
    (c : WeightVar → ℚ) (hcr : ∀ w, c (WeightVar.ren τ w) = c w) :
    (weightTerms WS n c).Perm ((weightTerms ws n c).map (Term.ren τ σ)) := by
  unfold weightTerms
  refine (flatMap_perm h (fun w => (hc.filter _).map _)).trans (.of_eq ?_)
  rw [List.flatMap_map, List.map_flatMap]
  congr 1
  funext w
  rw [List.filter_map, List.map_map, List.map_map, hcr]
  rfl

theorem weightsSum_perm (h : WS.Perm (ws.map (WeightVar.ren τ))) (hc : (weightConIds WS n).Perm ((weightConIds ws n).map (fun c => (σ c.1, c.2)))) :
    (weightsSumToOne WS n).1.Perm ((weightsSumToOne ws n).1.map (Term.ren τ σ)) ∧
    (weightsSumToOne WS n).2.Perm ((weightsSumToOne ws n).2.map (Row.ren σ)) := by
  refine ⟨weightTerms_perm h hc _ (fun _ => rfl), ?_⟩
  unfold weightsSumToOne
  refine (hc.map _).trans (.of_eq ?_)
  rw [List.map_map, List.map_map]
  rfl

theorem linkLoss_perm (h : WS.Perm (ws.map (WeightVar.ren τ))) (hc : (weightConIds WS n).Perm ((weightConIds ws n).map (fun c => (σ c.1, c.2))))
    {fr FR : List LossFnR} (hf : FR.Perm fr) {ρ : Nat → Nat} {ls LS : List LossVar} (hl : LS.Perm (ls.map (LossVar.ren ρ))) :
    (linkLossToWeights WS LS FR n).1.Perm ((linkLossToWeights ws ls fr n).1.map (Term.ren τ σ)) ∧
    (linkLossToWeights WS LS FR n).2.Perm ((linkLossToWeights ws ls fr n).2.map (DynRow.ren ρ σ)) := by
  unfold linkLossToWeights
  dsimp only
  constructor
  · refine (flatMap_perm h (fun w => flatMap_perm (hc.filter _) (fun c => (hf.filter _).map _))).trans (.of_eq ?_)
    rw [List.flatMap_map, List.map_flatMap]
    congr 1
    funext w
    rw [List.filter_map, List.flatMap_map, List.map_flatMap]
    congr 1
    funext c
    rw [List.map_map]
    rfl
  · refine (flatMap_perm hc (fun c => (hl.filter _).map _)).trans (.of_eq ?_)
    rw [List.flatMap_map, List.map_flatMap]
    congr 1
    funext w
    rw [List.filter_map, List.map_map, List.map_map]
    rfl

theorem linkFlow_perm (h : WS.Perm (ws.map (WeightVar.ren τ))) (hc : (weightConIds WS n).Perm ((weightConIds ws n).map (fun c => (σ c.1, c.2))))
    {ρ : Nat → Nat} {vs VS : List InterVar} (hl : VS.Perm (vs.map (InterVar.ren ρ))) :
    (linkWeightsToFlow WS VS n).1.Perm ((linkWeightsToFlow ws vs n).1.map (Term.ren τ σ)) ∧
    (linkWeightsToFlow WS VS n).2.Perm ((linkWeightsToFlow ws vs n).2.map (DynRow.ren ρ σ)) := by
  refine ⟨weightTerms_perm h hc _ (fun _ => rfl), ?_⟩
  unfold linkWeightsToFlow
  refine (flatMap_perm hc (fun c => (hl.filter _).map _)).trans (.of_eq ?_)
  rw [List.flatMap_map, List.map_flatMap]
  congr 1
  funext w
  rw [List.filter_map, List.map_map, List.map_map]
  rfl

theorem mem_conIds {i : Nat} : i ∈ (weightConIds ws n).map Prod.fst ↔ n ≤ i ∧ i < n + (weightLinks ws).length := by
  rw [conIds_eq, map_saveIndex, saveIndex_ids, List.mem_range'_1]

theorem conIds_link {c : Nat × String × String} (hc : c ∈ weightConIds ws n) : ∃ w ∈ ws, (w.inter, w.link) = c.2 := by
  rw [conIds_eq] at hc
  obtain ⟨i, k, hk, _, _, rfl⟩ := mem_saveIndex_lt hc
  exact mem_weightLinks.1 hk

theorem weightTerms_ids {c : WeightVar → ℚ} {t : Term} (h : t ∈ weightTerms ws n c) :
    (∃ w ∈ ws, w.vid = t.vid) ∧ n ≤ t.cid ∧ t.cid < n + (weightLinks ws).length := by
  obtain ⟨w, hw, ht⟩ := List.mem_flatMap.1 h
  obtain ⟨d, hd, rfl⟩ := List.mem_map.1 ht
  exact ⟨⟨w, hw, rfl⟩, mem_conIds.1 (List.mem_map.2 ⟨d, List.mem_of_mem_filter hd, rfl⟩)⟩

theorem linkLoss_ids {fr : List LossFnR} {ls : List LossVar} :
    (∀ t ∈ (linkLossToWeights ws ls fr n).1, (∃ w ∈ ws, w.vid = t.vid) ∧ n ≤ t.cid ∧ t.cid < n + (weightLinks ws).length) ∧
    (∀ r ∈ (linkLossToWeights ws ls fr n).2, (∃ l ∈ ls, l.vid = r.rhsVid) ∧ n ≤ r.cid ∧ r.cid < n + (weightLinks ws).length) := by
  unfold linkLossToWeights
  dsimp only
  constructor
  · intro t h
    obtain ⟨w, hw, ht⟩ := List.mem_flatMap.1 h
    obtain ⟨d, hd, ht⟩ := List.mem_flatMap.1 ht
    obtain ⟨l, hl, rfl⟩ := List.mem_map.1 ht
    exact ⟨⟨w, hw, rfl⟩, mem_conIds.1 (List.mem_map.2 ⟨d, List.mem_of_mem_filter hd, rfl⟩)⟩
  · intro r h
    obtain ⟨d, hd, ht⟩ := List.mem_flatMap.1 h
    obtain ⟨l, hl, rfl⟩ := List.mem_map.1 ht
    exact ⟨⟨l, List.mem_of_mem_filter hl, rfl⟩, mem_conIds.1 (List.mem_map.2 ⟨d, hd, rfl⟩)⟩

theorem linkFlow_ids {vs : List InterVar} :
    (∀ r ∈ (linkWeightsToFlow ws vs n).2, (∃ l ∈ vs, l.vid = r.rhsVid) ∧ n ≤ r.cid ∧ r.cid < n + (weightLinks ws).length) := by
  unfold linkWeightsToFlow
  intro r h
  obtain ⟨d, hd, ht⟩ := List.mem_flatMap.1 h
  obtain ⟨l, hl, rfl⟩ := List.mem_map.1 ht
  exact ⟨⟨l, List.mem_of_mem_filter hl, rfl⟩, mem_conIds.1 (List.mem_map.2 ⟨d, hd, rfl⟩)⟩

theorem linkLoss_all {fr : List LossFnR} {ls : List LossVar} (h : ∀ w ∈ ws, ∃ l ∈ ls, l.inter = w.inter ∧ l.link = w.link) (i : Nat) :
    i ∈ (linkLossToWeights ws ls fr n).2.map DynRow.cid ↔ n ≤ i ∧ i < n + (weightLinks ws).length := by
  constructor
  · intro hi
    obtain ⟨r, hr, rfl⟩ := List.mem_map.1 hi
    exact (linkLoss_ids.2 r hr).2
  · intro hi
    obtain ⟨c, hc, rfl⟩ := List.mem_map.1 (mem_conIds.2 hi)
    obtain ⟨w, hw, e⟩ := conIds_link hc
    obtain ⟨l, hl, e1, e2⟩ := h w hw
    refine List.mem_map.2 ⟨_, List.mem_flatMap.2 ⟨c, hc, List.mem_map.2 ⟨l, List.mem_filter.2 ⟨hl, ?_⟩, rfl⟩⟩, rfl⟩
    rw [← e]
    simp [e1, e2]

theorem linkFlow_all {vs : List InterVar} (h : ∀ w ∈ ws, ∃ l ∈ vs, l.inter = w.inter ∧ l.link = w.link) (i : Nat) :
    i ∈ (linkWeightsToFlow ws vs n).2.map DynRow.cid ↔ n ≤ i ∧ i < n + (weightLinks ws).length := by
  constructor
  · intro hi
    obtain ⟨r, hr, rfl⟩ := List.mem_map.1 hi
    exact (linkFlow_ids r hr).2
  · intro hi
    obtain ⟨c, hc, rfl⟩ := List.mem_map.1 (mem_conIds.2 hi)
    obtain ⟨w, hw, e⟩ := conIds_link hc
    obtain ⟨l, hl, e1, e2⟩ := h w hw
    refine List.mem_map.2 ⟨_, List.mem_flatMap.2 ⟨c, hc, List.mem_map.2 ⟨l, List.mem_filter.2 ⟨hl, ?_⟩, rfl⟩⟩, rfl⟩
    rw [← e]
    simp [e1, e2]

theorem linkLoss_empty {bs : List BreakPt} {nw nc : Nat} {fr : List LossFnR} {ls : List LossVar} :
    (linkLossToWeights (weightVariables bs nw) ls fr nc).1 = [] ↔ ∀ b ∈ bs, ∀ l ∈ fr, ¬ (l.inter = b.inter ∧ l.link = b.link) := by
  constructor
  · intro h b hb l hl e
    obtain ⟨i, hi⟩ := List.mem_iff_getElem?.1 hb
    have hw : (⟨b.inter, b.link, b.seg, b.bp, nw + i⟩ : WeightVar) ∈ weightVariables bs nw := mem_saveIndex.2 ⟨i, b, hi, rfl⟩
    have hk := mem_weightLinks.2 ⟨_, hw, rfl⟩
    obtain ⟨j, hj⟩ := List.mem_iff_getElem?.1 hk
    have hc : (nc + j, b.inter, b.link) ∈ weightConIds (weightVariables bs nw) nc := by
      rw [conIds_eq]; exact mem_saveIndex.2 ⟨j, _, hj, rfl⟩
    have : (⟨nc + j, nw + i, l.fn b.bp⟩ : Term) ∈ (linkLossToWeights (weightVariables bs nw) ls fr nc).1 := by
      refine List.mem_flatMap.2 ⟨_, hw, List.mem_flatMap.2 ⟨_, List.mem_filter.2 ⟨hc, by simp⟩, List.mem_map.2 ⟨l, List.mem_filter.2 ⟨hl, ?_⟩, rfl⟩⟩⟩
      simpa using e
    rw [h] at this
    cases this
  · intro h
    rw [List.eq_nil_iff_forall_not_mem]
    intro t ht
    obtain ⟨w, hw, ht⟩ := List.mem_flatMap.1 ht
    obtain ⟨d, hd, ht⟩ := List.mem_flatMap.1 ht
    obtain ⟨l, hl, rfl⟩ := List.mem_map.1 ht
    obtain ⟨i, b, hb, _, _, rfl⟩ := mem_saveIndex_lt hw
    have := List.mem_filter.1 hl
    exact h b hb l this.1 (by simpa using this.2)

end

section
variable {f g : Nat → Nat} {m M : Market}

theorem lossInputsOk_perm {fs FS : List LossFn} (hf : FS.Perm fs) {bs BS : List BreakPt} (hb : BS.Perm bs) :
    lossInputsOk FS BS = lossInputsOk fs bs := by
  unfold lossInputsOk
  rw [all_perm hf, nodup_perm (hf.map _), nodup_perm (hb.map _)]

/-- the market after loss functions were accepted -/
def Market.withLosses (m : Market) (fs : List LossFn) (bs : List BreakPt) (ds : List InterDef) (vs : List InterVar) (im : List InterMap)
    (nV nC : Nat) : Res :=
  let m0 := { m with lossShares := some (fs.map (fun f => (f.inter, f.link, f.share))) }
  let fr := mergeFromRegion fs ds
  let lv := lossVariables vs fr nV
  let lm := lossMap vs im fr nV
  let ws := weightVariables bs (nextAfter (lv.map LossVar.vid))
  let s := weightsSumToOne ws nC
  let ll := linkLossToWeights ws lv fr (nextAfter (s.2.map Row.cid))
  let lf := linkWeightsToFlow ws vs (nextAfter (ll.2.map DynRow.cid))
  let dyn := lf.2 ++ ll.2
  if ll.1.isEmpty then (m0, some .valueError)
  else ({ m0 with losses := some lv, lossReg := some lm, weights := some ws,
                  lossLhs := some (s.1 ++ lf.1 ++ ll.1),
                  conRhs := m0.conRhs.set .interpWeights s.2,
                  dynRhs := some dyn,
                  nextVar := nextAfter (lv.map LossVar.vid ++ ws.map WeightVar.vid),
                  nextCon := nextAfter (s.2.map Row.cid ++ dyn.map DynRow.cid) }, none)

theorem setLosses_noDirs {fs : List LossFn} {bs : List BreakPt} (hok : ¬ (!lossInputsOk fs bs) = true) (hd : m.dirs = none) :
    m.setLosses fs bs = ({ m with lossShares := some (fs.map (fun f => (f.inter, f.link, f.share))) }, some .attributeError) := by
  unfold Market.setLosses
  rw [if_neg hok, hd]

theorem setLosses_dirs {fs : List LossFn} {bs : List BreakPt} (hok : ¬ (!lossInputsOk fs bs) = true) {ds : List InterDef} {vs : List InterVar}
    {im : List InterMap} (h1 : m.dirs = some ds) (h2 : m.inters = some vs) (h3 : m.interReg = some im) :
    m.setLosses fs bs = m.withLosses fs bs ds vs im m.nextVar m.nextCon := by
  unfold Market.setLosses Market.withLosses
  rw [if_neg hok, h1, h2, h3]

theorem lossesStep_shuf (w : InterWF m) (h : Shuf f g m M) {fs FS : List LossFn} (hf : FS.Perm fs) {bs BS : List BreakPt} (hb : BS.Perm bs)
    (hcov : ∀ v ∈ m.inters.getD [], ∃ l ∈ fs, l.inter = v.inter ∧ l.link = v.link) (hk : LinksKnown m bs) :
    ShufR (m.setLosses fs bs) (M.setLosses FS BS) := by
  by_cases hok : (!lossInputsOk fs bs) = true
  · unfold Market.setLosses
    rw [lossInputsOk_perm hf hb, if_pos hok, if_pos hok]
    exact h.same _
  have hOK : ¬ (!lossInputsOk FS BS) = true := by rw [lossInputsOk_perm hf hb]; exact hok
  have hsh : TabP id (some (fs.map (fun f => (f.inter, f.link, f.share)))) (some (FS.map (fun f => (f.inter, f.link, f.share)))) := by
    show List.Perm _ (List.map id _)
    rw [List.map_id]
    exact hf.map _
  have h0 : Shuf f g { m with lossShares := some (fs.map (fun f => (f.inter, f.link, f.share))) }
      { M with lossShares := some (FS.map (fun f => (f.inter, f.link, f.share))) } :=
    ⟨{ h.tabs with lossShares := hsh }, h.nextV, h.nextC, h.vars, h.cons, { h.bnd with }⟩
  rcases w with ⟨d1, d2, d3⟩ | ⟨ds, n0, d1, d2, d3, _⟩
  · rw [setLosses_noDirs hok d1, setLosses_noDirs hOK (h.tabs.dirs.none_iff.2 d1)]
    exact h0.same _
  obtain ⟨DS, D1, pd⟩ := h.tabs.dirs.some_of d1
  obtain ⟨VS, D2, pv⟩ := h.tabs.inters.some_of d2
  obtain ⟨IM, D3, pi⟩ := h.tabs.interReg.some_of d3
  rw [List.map_id] at pd
  rw [setLosses_dirs hok d1 d2 d3, setLosses_dirs hOK D1 D2 D3, h.nextV, h.nextC]
  have hcov' : ∀ v ∈ interVariables ds n0, ∃ l ∈ fs, l.inter = v.inter ∧ l.link = v.link := by rw [d2] at hcov; exact hcov
  have hk' : ∀ b ∈ bs, ∃ v ∈ interVariables ds n0, v.inter = b.inter ∧ v.link = b.link := by
    unfold LinksKnown at hk; rw [d2] at hk; exact hk
  have bv : ∀ v ∈ interVariables ds n0, v.vid < m.nextVar := h.bnd.inters _ d2
  -- every link has a loss function with its region
  have hfr : ∀ v ∈ interVariables ds n0, ∃ l ∈ mergeFromRegion fs ds, l.inter = v.inter ∧ l.link = v.link := by
    intro v hv
    obtain ⟨l, hl, e1, e2⟩ := hcov' v hv
    obtain ⟨i, d, hd, _, _, rfl⟩ := mem_saveIndex_lt hv
    exact ⟨_, List.mem_flatMap.2 ⟨l, hl, List.mem_map.2 ⟨d, List.mem_filter.2 ⟨hd, by simp at e1 e2 ⊢; exact ⟨e1.symm, e2.symm⟩⟩, rfl⟩⟩, e1, e2⟩
  have pf : (mergeFromRegion FS DS).Perm (mergeFromRegion fs ds) := mergeFrom_perm hf pd
  have hfrE : ∀ l ∈ mergeFromRegion fs ds, 0 < ds.length := by
    intro l hl
    obtain ⟨_, _, hl⟩ := List.mem_flatMap.1 hl
    obtain ⟨d, hd, _⟩ := List.mem_map.1 hl
    exact List.length_pos_of_mem (List.mem_of_mem_filter hd)
  generalize hFRD : mergeFromRegion FS DS = FR at pf
  generalize hfrD : mergeFromRegion fs ds = fr at pf hfr hfrE
  obtain ⟨τ1, hτ1, paux⟩ := lossAux_perm pv pf m.nextVar
  have plv := lossVars_perm paux
  have plm := lossMap_perm paux pi
  have ilv := lossIds (n := m.nextVar) hfr
  have hlmv : ∀ v ∈ lossMap (interVariables ds n0) (interMap ds n0) fr m.nextVar,
      ∃ l ∈ lossVariables (interVariables ds n0) fr m.nextVar, l.vid = v.vid := by
    intro v hv
    obtain ⟨p, hp, hv⟩ := List.mem_flatMap.1 hv
    obtain ⟨_, _, rfl⟩ := List.mem_map.1 hv
    exact ⟨p.1, List.mem_map.2 ⟨p, hp, rfl⟩, rfl⟩
  have hwl : ∀ w ∈ bs, ∃ l ∈ lossVariables (interVariables ds n0) fr m.nextVar, l.inter = w.inter ∧ l.link = w.link := by
    intro b hb'
    obtain ⟨v, hv, e1, e2⟩ := hk' b hb'
    obtain ⟨l, hl, e3, e4⟩ := hfr v hv
    obtain ⟨i, hi⟩ := List.mem_iff_getElem?.1 hv
    exact ⟨_, List.mem_map.2 ⟨_, List.mem_flatMap.2 ⟨_, mem_saveIndex.2 ⟨i, v, hi, rfl⟩, List.mem_map.2 ⟨l, List.mem_filter.2
      ⟨hl, by simp [e3, e4]⟩, rfl⟩⟩, rfl⟩, e1, e2⟩
  have hvl : (interVariables ds n0).length = ds.length := length_saveIndex _ _ _
  unfold Market.withLosses
  simp only [hfrD, hFRD]
  generalize hlv : lossVariables (interVariables ds n0) fr m.nextVar = lv at plv ilv hlmv hwl
  generalize hlm : lossMap (interVariables ds n0) (interMap ds n0) fr m.nextVar = lm at plm hlmv
  generalize hLV : lossVariables VS FR m.nextVar = LV at plv
  generalize hLM : lossMap VS IM FR m.nextVar = LM at plm
  by_cases hE : ∀ b ∈ bs, ∀ l ∈ fr, ¬ (l.inter = b.inter ∧ l.link = b.link)
  · have hE' : ∀ b ∈ BS, ∀ l ∈ FR, ¬ (l.inter = b.inter ∧ l.link = b.link) :=
      fun b hb' l hl => hE b (hb.mem_iff.1 hb') l (pf.mem_iff.1 hl)
    rw [if_pos (by rw [List.isEmpty_iff]; exact linkLoss_empty.2 hE), if_pos (by rw [List.isEmpty_iff]; exact linkLoss_empty.2 hE')]
    exact h0.same _
  have hE' : ¬ ∀ b ∈ BS, ∀ l ∈ FR, ¬ (l.inter = b.inter ∧ l.link = b.link) :=
    fun H => hE (fun b hb' l hl => H b (hb.mem_iff.2 hb') l (pf.mem_iff.2 hl))
  rw [if_neg (by rw [List.isEmpty_iff]; exact fun H => hE (linkLoss_empty.1 H)),
    if_neg (by rw [List.isEmpty_iff]; exact fun H => hE' (linkLoss_empty.1 H))]
  push Not at hE
  obtain ⟨b0, hb0, l0, hl0, _⟩ := hE
  have hN := hfrE l0 hl0
  rw [hvl] at ilv hτ1
  -- the ids of the loss variables
  have plvid : (LV.map LossVar.vid).Perm ((lv.map LossVar.vid).map τ1) := by
    refine (plv.map _).trans (.of_eq ?_)
    rw [List.map_map, List.map_map]; rfl
  have ILV := moved_mem hτ1 plvid ilv
  rw [nextAfter_mem ilv hN, nextAfter_mem ILV hN]
  -- the weights
  obtain ⟨τ2, hτ2, pws⟩ := weightVars_perm hb (m.nextVar + ds.length)
  have hbl : 0 < bs.length := List.length_pos_of_mem hb0
  have iws := weightVariables_vids bs (m.nextVar + ds.length)
  have hwsl : ∀ w ∈ weightVariables bs (m.nextVar + ds.length), ∃ l ∈ lv, l.inter = w.inter ∧ l.link = w.link := by
    intro w hw
    obtain ⟨i, b, hb', _, _, rfl⟩ := mem_saveIndex_lt hw
    exact hwl b hb'
  have hwsv : ∀ w ∈ weightVariables bs (m.nextVar + ds.length), ∃ l ∈ interVariables ds n0, l.inter = w.inter ∧ l.link = w.link := by
    intro w hw
    obtain ⟨i, b, hb', _, _, rfl⟩ := mem_saveIndex_lt hw
    exact hk' b hb'
  have hws0 : 0 < (weightLinks (weightVariables bs (m.nextVar + ds.length))).length := by
    obtain ⟨i, hi⟩ := List.mem_iff_getElem?.1 hb0
    exact List.length_pos_of_mem (mem_weightLinks.2 ⟨_, mem_saveIndex.2 ⟨i, b0, hi, rfl⟩, rfl⟩)
  generalize weightVariables bs (m.nextVar + ds.length) = ws at pws iws hwsl hwsv hws0
  generalize weightVariables BS (m.nextVar + ds.length) = WS at pws
  generalize hK : (weightLinks ws).length = K at hws0
  -- the constraints
  obtain ⟨σ1, hσ1, pc1⟩ := conIds_perm pws m.nextCon
  obtain ⟨ps1, ps2⟩ := weightsSum_perm pws pc1
  rw [hK] at hσ1
  have is : ∀ i, i ∈ (weightsSumToOne ws m.nextCon).2.map Row.cid ↔ m.nextCon ≤ i ∧ i < m.nextCon + K := by
    intro i
    rw [← hK, ← mem_conIds (ws := ws) (n := m.nextCon)]
    unfold weightsSumToOne
    rw [List.map_map]
    exact Iff.rfl
  have IS := moved_mem hσ1 (map_cid_ren ps2) is
  rw [nextAfter_mem is hws0, nextAfter_mem IS hws0]
  obtain ⟨σ2, hσ2, pc2⟩ := conIds_perm pws (m.nextCon + K)
  rw [hK] at hσ2
  obtain ⟨pl1, pl2⟩ := linkLoss_perm pws pc2 pf plv
  have il := linkLoss_all (n := m.nextCon + K) (fr := fr) hwsl
  rw [hK] at il
  have pll : ((linkLossToWeights WS LV FR (m.nextCon + K)).2.map DynRow.cid).Perm
      (((linkLossToWeights ws lv fr (m.nextCon + K)).2.map DynRow.cid).map σ2) := by
    refine (pl2.map _).trans (.of_eq ?_)
    rw [List.map_map, List.map_map]; rfl
  have IL := moved_mem hσ2 pll il
  rw [nextAfter_mem il hws0, nextAfter_mem IL hws0]
  obtain ⟨σ3, hσ3, pc3⟩ := conIds_perm pws (m.nextCon + K + K)
  rw [hK] at hσ3
  obtain ⟨pf1, pf2⟩ := linkFlow_perm pws pc3 pv
  have ifl := linkFlow_all (n := m.nextCon + K + K) hwsv
  rw [hK] at ifl
  have pfl : ((linkWeightsToFlow WS VS (m.nextCon + K + K)).2.map DynRow.cid).Perm
      (((linkWeightsToFlow ws (interVariables ds n0) (m.nextCon + K + K)).2.map DynRow.cid).map σ3) := by
    refine (pf2.map _).trans (.of_eq ?_)
    rw [List.map_map, List.map_map]; rfl
  have IFL := moved_mem hσ3 pfl ifl
  -- the next ids
  have iws' : ∀ i, i ∈ ws.map WeightVar.vid ↔ m.nextVar + ds.length ≤ i ∧ i < m.nextVar + ds.length + bs.length := by
    intro i; rw [iws, List.mem_range'_1]
  have pwsid : (WS.map WeightVar.vid).Perm ((ws.map WeightVar.vid).map τ2) := by
    refine (pws.map _).trans (.of_eq ?_)
    rw [List.map_map, List.map_map]; rfl
  have IWS := moved_mem hτ2 pwsid iws'
  have nv1 : nextAfter (lv.map LossVar.vid ++ ws.map WeightVar.vid) = m.nextVar + (ds.length + bs.length) := by
    apply nextAfter_mem _ (by omega)
    intro i; rw [List.mem_append, ilv, iws']; omega
  have nv2 : nextAfter (LV.map LossVar.vid ++ WS.map WeightVar.vid) = m.nextVar + (ds.length + bs.length) := by
    apply nextAfter_mem _ (by omega)
    intro i; rw [List.mem_append, ILV, IWS]; omega
  have nc1 : nextAfter ((weightsSumToOne ws m.nextCon).2.map Row.cid ++ ((linkWeightsToFlow ws (interVariables ds n0) (m.nextCon + K + K)).2 ++
      (linkLossToWeights ws lv fr (m.nextCon + K)).2).map DynRow.cid) = m.nextCon + (K + K + K) := by
    apply nextAfter_mem _ (by omega)
    intro i; rw [List.map_append, List.mem_append, List.mem_append, is, ifl, il]; omega
  have nc2 : nextAfter ((weightsSumToOne WS m.nextCon).2.map Row.cid ++ ((linkWeightsToFlow WS VS (m.nextCon + K + K)).2 ++
      (linkLossToWeights WS LV FR (m.nextCon + K)).2).map DynRow.cid) = m.nextCon + (K + K + K) := by
    apply nextAfter_mem _ (by omega)
    intro i; rw [List.map_append, List.mem_append, List.mem_append, IS, IFL, IL]; omega
  rw [nv1, nv2, nc1, nc2]
  -- the renaming
  obtain ⟨r1, a1, a1'⟩ := hτ1.after h.vars
  obtain ⟨r2, a2, a2'⟩ := hτ2.after r1
  obtain ⟨s1, b1, b1'⟩ := hσ1.after h.cons
  obtain ⟨s2, b2, b2'⟩ := hσ2.after s1
  obtain ⟨s3, b3, b3'⟩ := hσ3.after s2
  generalize hF : τ2 ∘ (τ1 ∘ f) = F at r2 a2 a2'
  generalize hG2 : σ2 ∘ (σ1 ∘ g) = G2 at s2 b2 b2' s3 b3 b3'
  generalize hG : σ3 ∘ G2 = G at s3 b3 b3'
  have F0 : ∀ i, i < m.nextVar → F i = f i := fun i hi => by rw [a2 i (by omega), a1 i hi]
  have F1 : ∀ i, m.nextVar ≤ i → i < m.nextVar + ds.length → F i = τ1 i := fun i h1 h2 => by rw [a2 i h2, a1' i h1]
  have G0 : ∀ i, i < m.nextCon → G i = g i := fun i hi => by rw [b3 i (by omega), b2 i (by omega), b1 i hi]
  have G1 : ∀ i, m.nextCon ≤ i → i < m.nextCon + K → G i = σ1 i := fun i h1 h2 => by rw [b3 i (by omega), b2 i h2, b1' i h1]
  have G2' : ∀ i, m.nextCon + K ≤ i → i < m.nextCon + K + K → G i = σ2 i := fun i h1 h2 => by rw [b3 i h2, b2' i h1]
  -- bounds of ids
  have blv : ∀ v ∈ lv, m.nextVar ≤ v.vid ∧ v.vid < m.nextVar + ds.length := fun v hv => (ilv _).1 (List.mem_map.2 ⟨v, hv, rfl⟩)
  have bws : ∀ v ∈ ws, m.nextVar + ds.length ≤ v.vid ∧ v.vid < m.nextVar + ds.length + bs.length :=
    fun v hv => (iws' _).1 (List.mem_map.2 ⟨v, hv, rfl⟩)
  have blm : ∀ v ∈ lm, m.nextVar ≤ v.vid ∧ v.vid < m.nextVar + ds.length := fun v hv => by
    obtain ⟨l, hl, e⟩ := hlmv v hv; exact e ▸ blv l hl
  have bt1 : ∀ t ∈ (weightsSumToOne ws m.nextCon).1, (m.nextVar + ds.length ≤ t.vid ∧ t.vid < m.nextVar + ds.length + bs.length) ∧
      m.nextCon ≤ t.cid ∧ t.cid < m.nextCon + K := fun t ht => by
    obtain ⟨⟨w, hw, e⟩, h2⟩ := weightTerms_ids ht
    exact ⟨e ▸ bws w hw, hK ▸ h2⟩
  have bt2 : ∀ t ∈ (linkLossToWeights ws lv fr (m.nextCon + K)).1,
      (m.nextVar + ds.length ≤ t.vid ∧ t.vid < m.nextVar + ds.length + bs.length) ∧ m.nextCon + K ≤ t.cid ∧ t.cid < m.nextCon + K + K := fun t ht => by
    obtain ⟨⟨w, hw, e⟩, h2⟩ := linkLoss_ids.1 t ht
    rw [hK] at h2
    exact ⟨e ▸ bws w hw, h2⟩
  have bt3 : ∀ t ∈ (linkWeightsToFlow ws (interVariables ds n0) (m.nextCon + K + K)).1,
      (m.nextVar + ds.length ≤ t.vid ∧ t.vid < m.nextVar + ds.length + bs.length) ∧
      m.nextCon + K + K ≤ t.cid ∧ t.cid < m.nextCon + K + K + K := fun t ht => by
    obtain ⟨⟨w, hw, e⟩, h2⟩ := weightTerms_ids ht
    rw [hK] at h2
    exact ⟨e ▸ bws w hw, h2⟩
  have bd2 : ∀ r ∈ (linkLossToWeights ws lv fr (m.nextCon + K)).2,
      (m.nextVar ≤ r.rhsVid ∧ r.rhsVid < m.nextVar + ds.length) ∧ m.nextCon + K ≤ r.cid ∧ r.cid < m.nextCon + K + K := fun t ht => by
    obtain ⟨⟨w, hw, e⟩, h2⟩ := linkLoss_ids.2 t ht
    rw [hK] at h2
    exact ⟨e ▸ blv w hw, h2⟩
  have bd3 : ∀ r ∈ (linkWeightsToFlow ws (interVariables ds n0) (m.nextCon + K + K)).2,
      r.rhsVid < m.nextVar ∧ m.nextCon + K + K ≤ r.cid ∧ r.cid < m.nextCon + K + K + K := fun t ht => by
    obtain ⟨⟨w, hw, e⟩, h2⟩ := linkFlow_ids t ht
    rw [hK] at h2
    exact ⟨e ▸ bv w hw, h2⟩
  have br1 : ∀ r ∈ (weightsSumToOne ws m.nextCon).2, m.nextCon ≤ r.cid ∧ r.cid < m.nextCon + K :=
    fun r hr => (is _).1 (List.mem_map.2 ⟨r, hr, rfl⟩)
  -- the tables
  have qlv : LV.Perm (lv.map (LossVar.ren F)) :=
    plv.trans (.of_eq (List.map_congr_left (fun v hv => by simp only [LossVar.ren, F1 _ (blv v hv).1 (blv v hv).2])))
  have qlm : LM.Perm (lm.map (VarReg.ren F)) :=
    plm.trans (.of_eq (List.map_congr_left (fun v hv => by simp only [VarReg.ren, F1 _ (blm v hv).1 (blm v hv).2])))
  have qws : WS.Perm (ws.map (WeightVar.ren F)) :=
    pws.trans (.of_eq (List.map_congr_left (fun v hv => by simp only [WeightVar.ren, a2' _ (bws v hv).1])))
  have qt1 : (weightsSumToOne WS m.nextCon).1.Perm ((weightsSumToOne ws m.nextCon).1.map (Term.ren F G)) :=
    ps1.trans (.of_eq (List.map_congr_left (fun v hv => by
      obtain ⟨c1, c2, c3⟩ := bt1 v hv
      simp only [Term.ren, a2' _ c1.1, G1 _ c2 c3])))
  have qt2 : (linkLossToWeights WS LV FR (m.nextCon + K)).1.Perm ((linkLossToWeights ws lv fr (m.nextCon + K)).1.map (Term.ren F G)) :=
    pl1.trans (.of_eq (List.map_congr_left (fun v hv => by
      obtain ⟨c1, c2, c3⟩ := bt2 v hv
      simp only [Term.ren, a2' _ c1.1, G2' _ c2 c3])))
  have qt3 : (linkWeightsToFlow WS VS (m.nextCon + K + K)).1.Perm
      ((linkWeightsToFlow ws (interVariables ds n0) (m.nextCon + K + K)).1.map (Term.ren F G)) :=
    pf1.trans (.of_eq (List.map_congr_left (fun v hv => by
      obtain ⟨c1, c2, c3⟩ := bt3 v hv
      simp only [Term.ren, a2' _ c1.1, b3' _ c2])))
  have qd2 : (linkLossToWeights WS LV FR (m.nextCon + K)).2.Perm ((linkLossToWeights ws lv fr (m.nextCon + K)).2.map (DynRow.ren F G)) :=
    pl2.trans (.of_eq (List.map_congr_left (fun v hv => by
      obtain ⟨c1, c2, c3⟩ := bd2 v hv
      simp only [DynRow.ren, F1 _ c1.1 c1.2, G2' _ c2 c3])))
  have qd3 : (linkWeightsToFlow WS VS (m.nextCon + K + K)).2.Perm
      ((linkWeightsToFlow ws (interVariables ds n0) (m.nextCon + K + K)).2.map (DynRow.ren F G)) :=
    pf2.trans (.of_eq (List.map_congr_left (fun v hv => by
      obtain ⟨c1, c2, c3⟩ := bd3 v hv
      simp only [DynRow.ren, F0 _ c1, b3' _ c2])))
  have qr1 : (weightsSumToOne WS m.nextCon).2.Perm ((weightsSumToOne ws m.nextCon).2.map (Row.ren G)) :=
    ps2.trans (.of_eq (List.map_congr_left (fun v hv => by simp only [Row.ren, G1 _ (br1 v hv).1 (br1 v hv).2])))
  have hT := h.tabs.congr (f' := F) (g' := G) h.bnd F0 G0
  have hB := h.bnd.mono (Nat.le_add_right m.nextVar (ds.length + bs.length)) (Nat.le_add_right m.nextCon (K + K + K))
  refine ⟨⟨F, G, { hT with
      lossShares := hsh, losses := qlv, lossReg := qlm, weights := qws, lossLhs := ?_, conRhs := tabP_set hT.conRhs _ qr1, dynRhs := ?_ },
    rfl, rfl, ?_, ?_, { hB with
      losses := ?_, lossReg := ?_, weights := ?_, lossLhs := ?_, conRhs := bnd_set hB.conRhs _ ?_, dynRhs := ?_ }⟩, rfl⟩
  · show List.Perm _ (List.map _ _)
    rw [List.map_append, List.map_append]
    exact (qt1.append qt3).append qt2
  · show List.Perm _ (List.map _ _)
    rw [List.map_append]
    exact qd3.append qd2
  · rw [Nat.add_assoc] at r2; exact r2
  · rw [show m.nextCon + K + K + K = m.nextCon + (K + K + K) by omega] at s3; exact s3
  · intro l e v hv
    injection e with e; subst e
    have := blv v hv
    show v.vid < m.nextVar + (ds.length + bs.length)
    omega
  · intro l e v hv
    injection e with e; subst e
    have := blm v hv
    show v.vid < m.nextVar + (ds.length + bs.length)
    omega
  · intro l e v hv
    injection e with e; subst e
    have := bws v hv
    show v.vid < m.nextVar + (ds.length + bs.length)
    omega
  · intro l e v hv
    injection e with e; subst e
    show v.vid < m.nextVar + (ds.length + bs.length) ∧ v.cid < m.nextCon + (K + K + K)
    rcases List.mem_append.1 hv with hv | hv
    · rcases List.mem_append.1 hv with hv | hv
      · have := bt1 v hv; omega
      · have := bt3 v hv; omega
    · have := bt2 v hv; omega
  · intro c hc
    have := br1 c hc
    show c.cid < m.nextCon + (K + K + K)
    omega
  · intro l e v hv
    injection e with e; subst e
    show v.rhsVid < m.nextVar + (ds.length + bs.length) ∧ v.cid < m.nextCon + (K + K + K)
    rcases List.mem_append.1 hv with hv | hv
    · have := bd3 v hv; omega
    · have := bd2 v hv; omega

end

end Verif
