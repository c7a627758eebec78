import Verif.Proofs.ShuffleLp

/-! Reports and prices of two markets that agree up to the order of rows and renaming of ids. -/

namespace Verif

section
variable {f g : Nat → Nat} {m M : Market}

theorem groupSum_perm {α κ : Type} [DecidableEq κ] {key : α → κ} {val : α → ℚ} {l L : List α} (h : L.Perm l) :
    (groupSum key val L).Perm (groupSum key val l) := by
  unfold groupSum
  refine ((dedup_perm (h.map key)).map _).trans (.of_eq ?_)
  apply List.map_congr_left
  intro k _
  rw [sum_perm (h.filter _)]

theorem groupSum_shuf {α κ : Type} [DecidableEq κ] {key : α → κ} {r : α → α} (hr : ∀ a, key (r a) = key a) {val val' : α → ℚ}
    (hv : ∀ a, val' (r a) = val a) {l L : List α} (h : L.Perm (l.map r)) : (groupSum key val' L).Perm (groupSum key val l) :=
  (groupSum_perm h).trans (.of_eq (groupSum_ren key r hr val val' hv l))

theorem unitDispatch_shuf (h : ShufT f g m M) {x X : Nat → ℚ} (hX : ∀ v, X (f v) = x v) :
    resSame (m.unitDispatch x) (M.unitDispatch X) := by
  unfold Market.unitDispatch
  have h1 := h.bids
  cases e1 : m.bids <;> cases e2 : M.bids <;> rw [e1, e2] at h1 <;> first | exact h1.elim | exact rfl | skip
  exact ((groupSum_shuf (r := BidVar.ren f) (fun _ => rfl) (fun b => hX b.vid) h1).map _).symm

theorem interFlows_shuf (h : ShufT f g m M) {x X : Nat → ℚ} (hX : ∀ v, X (f v) = x v) :
    resSame (m.interFlows x) (M.interFlows X) := by
  unfold Market.interFlows
  have h1 := h.inters
  cases e1 : m.inters <;> cases e2 : M.inters <;> rw [e1, e2] at h1 <;> first | exact h1.elim | exact rfl | skip
  rename_i vs VS
  refine List.Perm.symm ?_
  refine List.Perm.trans (flatMap_perm (G := fun v : InterVar =>
      match ((m.losses.getD []).map (LossVar.ren f)).filter (fun l => decide (l.inter = v.inter ∧ l.link = v.link)) with
      | [] => [({ inter := v.inter, link := v.link, flow := X v.vid, losses := none } : FlowRow)]
      | ls => ls.map (fun l => { inter := v.inter, link := v.link, flow := X v.vid, losses := some (X l.vid) })) h1
    (fun v => by
      have hp := h.losses.getD.filter (fun l => decide (l.inter = v.inter ∧ l.link = v.link))
      revert hp
      generalize (M.losses.getD []).filter (fun l => decide (l.inter = v.inter ∧ l.link = v.link)) = L
      generalize ((m.losses.getD []).map (LossVar.ren f)).filter (fun l => decide (l.inter = v.inter ∧ l.link = v.link)) = l
      intro hp
      cases L <;> cases l
      · exact .refl _
      · exact absurd hp.symm.eq_nil (by simp)
      · exact absurd hp.eq_nil (by simp)
      · exact hp.map _)) (.of_eq ?_)
  rw [List.flatMap_map]
  apply List.flatMap_congr
  intro v _
  have : ((m.losses.getD []).map (LossVar.ren f)).filter (fun l => decide (l.inter = (InterVar.ren f v).inter ∧ l.link = (InterVar.ren f v).link)) =
      ((m.losses.getD []).filter (fun l => decide (l.inter = v.inter ∧ l.link = v.link))).map (LossVar.ren f) := by
    rw [List.filter_map]; rfl
  rw [this]
  cases (m.losses.getD []).filter (fun l => decide (l.inter = v.inter ∧ l.link = v.link)) with
  | nil => simp only [List.map_nil, InterVar.ren, hX]
  | cons a l => simp only [List.map_cons, List.map_map, InterVar.ren, LossVar.ren, hX, Function.comp_def]

theorem netByRegion_shuf (h : ShufT f g m M) {rows ROWS : List DispatchRow} (hr : ROWS.Perm rows) :
    (M.netByRegion ROWS).Perm (m.netByRegion rows) :=
  groupSum_perm (flatMap_perm (hr.filter _) (fun _ => (h.units.filter _).map _))

theorem inflowByRegion_perm {ds DS : List InterDef} (hd : DS.Perm ds) {fl FL : List FlowRow} (hf : FL.Perm fl) :
    (inflowByRegion DS FL).Perm (inflowByRegion ds fl) :=
  groupSum_perm (flatMap_perm ((hd.map _).append (hd.map _)) (fun _ => (hf.filter _).map _))

theorem transmissionByRegion_perm {ds DS : List InterDef} (hd : DS.Perm ds) {fl FL : List FlowRow} (hf : FL.Perm fl) :
    (transmissionByRegion DS FL).Perm (transmissionByRegion ds fl) :=
  groupSum_perm (flatMap_perm hf (fun _ => (hd.filter _).flatMap_right _))

theorem lossesByRegion_perm {sh SH : List (String × String × ℚ)} (hs : SH.Perm sh) {ds DS : List InterDef} (hd : DS.Perm ds)
    {fl FL : List FlowRow} (hf : FL.Perm fl) : (lossesByRegion SH DS FL).Perm (lossesByRegion sh ds fl) := by
  unfold lossesByRegion
  exact groupSum_perm (flatMap_perm hf (fun _ => (List.Perm.filter _ ((flatMap_perm hs (fun _ => (hd.filter _).map _)).append
    (flatMap_perm hs (fun _ => (hd.filter _).map _)))).map _))

theorem joinRegion_perm {rows ROWS : List SummaryRow} (hr : ROWS.Perm rows) {t T : List (String × ℚ)} (ht : T.Perm t)
    (F : SummaryRow → ℚ → SummaryRow) : (joinRegion ROWS T F).Perm (joinRegion rows t F) :=
  flatMap_perm hr (fun _ => (ht.filter _).map _)

theorem regionSummary_shuf (h : ShufT f g m M) {x X : Nat → ℚ} (hX : ∀ v, X (f v) = x v) :
    resSame (m.regionSummary x) (M.regionSummary X) := by
  unfold Market.regionSummary
  have h1 := unitDispatch_shuf h hX
  cases e1 : m.unitDispatch x <;> cases e2 : M.unitDispatch X <;> rw [e1, e2] at h1 <;> first | exact h1.elim | exact h1 | skip
  rename_i rows ROWS
  have hn := netByRegion_shuf h h1.symm
  have h2 := h.dirs
  dsimp only
  cases e3 : m.dirs <;> cases e4 : M.dirs <;> rw [e3, e4] at h2 <;> first | exact h2.elim | exact (hn.map _).symm | skip
  rename_i ds DS
  have hd := map_ren_id h2
  have h3 := interFlows_shuf h hX
  dsimp only
  cases e5 : m.interFlows x <;> cases e6 : M.interFlows X <;> rw [e5, e6] at h3 <;> first | exact h3.elim | exact h3 | skip
  rename_i fl FL
  dsimp only
  rw [isEmpty_perm hd]
  by_cases hE : ds.isEmpty = true
  · rw [if_pos hE, if_pos hE]; exact rfl
  rw [if_neg hE, if_neg hE]
  have hi := inflowByRegion_perm hd h3.symm
  have ht := transmissionByRegion_perm hd h3.symm
  have ho : (((M.netByRegion ROWS).map Prod.fst ++ (inflowByRegion DS FL).map Prod.fst).dedup.map (fun g =>
      ({ region := g, dispatch := (((M.netByRegion ROWS).filter (fun e => decide (e.1 = g))).map Prod.snd).sum,
         inflow := some (((inflowByRegion DS FL).filter (fun e => decide (e.1 = g))).map Prod.snd).sum } : SummaryRow))).Perm
      (((m.netByRegion rows).map Prod.fst ++ (inflowByRegion ds fl).map Prod.fst).dedup.map (fun g =>
      ({ region := g, dispatch := (((m.netByRegion rows).filter (fun e => decide (e.1 = g))).map Prod.snd).sum,
         inflow := some (((inflowByRegion ds fl).filter (fun e => decide (e.1 = g))).map Prod.snd).sum } : SummaryRow))) := by
    refine ((dedup_perm ((hn.map _).append (hi.map _))).map _).trans (.of_eq ?_)
    apply List.map_congr_left
    intro k _
    rw [sum_perm (hn.filter _), sum_perm (hi.filter _)]
  have h4 := h.lossShares
  cases e7 : m.lossShares <;> cases e8 : M.lossShares <;> rw [e7, e8] at h4 <;>
    first | exact h4.elim | exact (joinRegion_perm ho ht _).symm | skip
  dsimp only
  rw [h.losses.isNone]
  by_cases hL : m.losses.isNone = true
  · rw [if_pos hL, if_pos hL]; exact rfl
  rw [if_neg hL, if_neg hL]
  exact (joinRegion_perm (joinRegion_perm ho ht _) (lossesByRegion_perm (map_ren_id h4) hd h3.symm) _).symm

theorem violationDegree_shuf (h : ShufT f g m M) {x X : Nat → ℚ} (hX : ∀ v, X (f v) = x v) (k : CKey) :
    M.violationDegree X k = m.violationDegree x k := by
  unfold Market.violationDegree
  have h1 := h.deficits k
  cases e1 : m.deficits.get? k <;> cases e2 : M.deficits.get? k <;> rw [e1, e2] at h1 <;> first | exact h1.elim | rfl | skip
  dsimp only
  rw [sum_perm h1.1, List.map_map]
  apply sum_map_congr
  intro v _
  exact hX v.vid

theorem report_shuf (h : Alike2 f g m M) {lp LP : Lp} (e : m.assemble = .ok lp) (E : M.assemble = .ok LP) {x X : Nat → ℚ}
    (hX : ∀ v, X (f v) = x v) : (m.report lp x).same (M.report LP X) :=
  ⟨cost_shuf h e E hX, unitDispatch_shuf h.tabs hX, interFlows_shuf h.tabs hX, regionSummary_shuf h.tabs hX, violationDegree_shuf h.tabs hX⟩

theorem resSame.symm {α : Type} {a b : Except Err (List α)} (h : resSame a b) : resSame b a := by
  cases a <;> cases b
  · exact Eq.symm h
  · exact h.elim
  · exact h.elim
  · exact List.Perm.symm h

theorem Report.same.symm {r r' : Report} (h : r.same r') : r'.same r :=
  ⟨h.cost.symm, h.units.symm, h.flows.symm, h.regions.symm, fun k => (h.violation k).symm⟩

/-! ### Prices -/

theorem liveRows_shuf (h : Alike2 f g m M) : M.liveRows.Perm (m.liveRows.map (renRhs f g)) := by
  unfold Market.liveRows
  refine ((allRows_shuf h).filter _).trans ?_
  rw [List.filter_map]
  refine List.Perm.map _ (List.Perm.of_eq (List.filter_congr (fun r _ => ?_)))
  rw [Function.comp, decide_eq_decide]
  simp only [renRhs, (terms_shuf h).mem_iff, List.mem_map]
  constructor
  · rintro ⟨_, ⟨t, ht, rfl⟩, e⟩; exact ⟨t, ht, h.gi e⟩
  · rintro ⟨t, ht, e⟩; exact ⟨_, ⟨t, ht, rfl⟩, congrArg g e⟩

theorem distances_shuf (h : ShufT f g m M) {x X : Nat → ℚ} (hX : ∀ v, X (f v) = x v) (v : InterVar) :
    (M.distances X (v.ren f)).Perm ((m.distances x v).map (Prod.map id f)) := by
  unfold Market.distances
  refine ((h.weights.getD.filter _).map _).trans (.of_eq ?_)
  simp only [List.filter_map, List.map_map]
  have : (fun w : WeightVar => decide (w.inter = (v.ren f).inter ∧ w.link = (v.ren f).link)) ∘ WeightVar.ren f =
      fun w => decide (w.inter = v.inter ∧ w.link = v.link) := rfl
  rw [this]
  apply List.map_congr_left
  intro w _
  simp only [Function.comp, InterVar.ren, WeightVar.ren, hX, Prod.map, id]

theorem weights_unique (w : IdWF m) {a b : WeightVar} (ha : a ∈ m.weights.getD []) (hb : b ∈ m.weights.getD []) (e : a.vid = b.vid) : a = b := by
  have hn : ((m.weights.getD []).map WeightVar.vid).Nodup := by
    rw [List.nodup_iff_count_le_one]
    intro i
    have := (w.var i).1
    unfold Market.vcount at this
    omega
  exact List.inj_on_of_nodup_map hn ha hb e

theorem inters_unique (w : IdWF m) {a b : InterVar} (ha : a ∈ m.inters.getD []) (hb : b ∈ m.inters.getD [])
    (e : a.inter = b.inter ∧ a.link = b.link) : a = b := by
  have hn : ((m.inters.getD []).map (fun v => (v.inter, v.link))).Nodup := by
    rcases w.inter with ⟨_, h2, _⟩ | ⟨ds, n, _, h2, _, h4⟩
    · rw [h2]; exact List.nodup_nil
    · rw [h2]
      show ((interVariables ds n).map (fun v => (v.inter, v.link))).Nodup
      simp only [interVariables, map_saveIndex, saveIndex_vals]
      unfold Market.interDefsOk at h4
      simp only [Bool.and_eq_true, decide_eq_true_eq] at h4
      exact h4.2
  exact List.inj_on_of_nodup_map hn ha hb (by simp [e.1, e.2])

/-- different links have different tables of distances, or there are no break points -/
theorem distances_inj (w : IdWF m) {x : Nat → ℚ} {v v' : InterVar} (hv : v ∈ m.inters.getD []) (hv' : v' ∈ m.inters.getD [])
    (e : m.distances x v = m.distances x v') : v = v' ∨ m.distances x v = [] := by
  by_cases h : m.distances x v = []
  · exact Or.inr h
  obtain ⟨q, hq⟩ := List.exists_mem_of_ne_nil _ h
  have hq' : q ∈ m.distances x v' := e ▸ hq
  obtain ⟨a, ha, rfl⟩ := List.mem_map.1 hq
  obtain ⟨b, hb, eb⟩ := List.mem_map.1 hq'
  injection eb with _ eb
  obtain ⟨ha, ka⟩ := List.mem_filter.1 ha
  obtain ⟨hb, kb⟩ := List.mem_filter.1 hb
  have := weights_unique w hb ha eb
  subst this
  simp only [decide_eq_true_eq] at ka kb
  exact Or.inl (inters_unique w hv hv' ⟨ka.1.symm.trans kb.1, ka.2.symm.trans kb.2⟩)

theorem insertion_sorts (l : List (ℚ × Nat)) : (l.insertionSort (fun a b => a.1 ≤ b.1)).Perm l ∧
    (l.insertionSort (fun a b => a.1 ≤ b.1)).Pairwise (fun a b => a.1 ≤ b.1) := by
  have : Std.Total (fun a b : ℚ × Nat => a.1 ≤ b.1) := ⟨fun a b => le_total a.1 b.1⟩
  have : IsTrans (ℚ × Nat) (fun a b => a.1 ≤ b.1) := ⟨fun a b c h h' => le_trans h h'⟩
  exact ⟨List.perm_insertionSort _ _, List.pairwise_insertionSort _ _⟩

/-- a way to sort that answers like another one on given tables -/
theorem sort_match {I : List InterVar} {a b : InterVar → List (ℚ × Nat)} {φ : Nat → Nat}
    (hp : ∀ v ∈ I, (b v).Perm ((a v).map (Prod.map id φ))) (hu : ∀ v ∈ I, ∀ v' ∈ I, b v = b v' → a v = a v') {S : Solver} (hS : S.sorts) :
    ∃ S' : Solver, S'.sorts ∧ ∀ v ∈ I, S'.sort (b v) = (S.sort (a v)).map (Prod.map id φ) := by
  classical
  refine ⟨{ S with sort := fun l => if h : ∃ v ∈ I, b v = l then (S.sort (a h.choose)).map (Prod.map id φ)
      else l.insertionSort (fun a b => a.1 ≤ b.1) }, fun l => ?_, fun v hv => ?_⟩
  · by_cases h : ∃ v ∈ I, b v = l
    · dsimp only
      rw [dif_pos h]
      obtain ⟨h1, h2⟩ := h.choose_spec
      refine ⟨((hS _).1.map _).trans ?_, ?_⟩
      · have := hp _ h1
        rw [h2] at this
        exact this.symm
      · rw [List.pairwise_map]
        exact (hS _).2
    · dsimp only
      rw [dif_neg h]
      exact insertion_sorts l
  · dsimp only
    have h : ∃ v' ∈ I, b v' = b v := ⟨v, hv, rfl⟩
    rw [dif_pos h, hu _ h.choose_spec.1 _ hv h.choose_spec.2]

/-- the weights and links that are fixed to zero correspond -/
def SortsLike (f : Nat → Nat) (m M : Market) (x X : Nat → ℚ) (S S' : Solver) : Prop :=
  ∀ v ∈ m.inters.getD [], S'.sort (M.distances X (v.ren f)) = (S.sort (m.distances x v)).map (Prod.map id f)

theorem sort_there (h : Alike2 f g m M) {x X : Nat → ℚ} (hX : ∀ v, X (f v) = x v) {S : Solver} (hS : S.sorts) :
    ∃ S' : Solver, S'.sorts ∧ SortsLike f m M x X S S' := by
  refine sort_match (I := m.inters.getD []) (a := m.distances x) (b := fun v => M.distances X (v.ren f)) (φ := f)
    (fun v _ => distances_shuf h.tabs hX v) (fun v hv v' hv' e => ?_) hS
  rcases distances_inj h.wM (inters_shuf h.tabs hv) (inters_shuf h.tabs hv') e with e1 | e1
  · have : v.inter = v'.inter ∧ v.link = v'.link := by
      have a1 : (v.ren f).inter = (v'.ren f).inter := by rw [e1]
      have a2 : (v.ren f).link = (v'.ren f).link := by rw [e1]
      exact ⟨a1, a2⟩
    rw [inters_unique h.wm hv hv' this]
  · have h1 := distances_shuf h.tabs hX v
    have h2 := distances_shuf h.tabs hX v'
    rw [e1] at h1
    rw [← e, e1] at h2
    have a1 := h1.symm.eq_nil
    have a2 := h2.symm.eq_nil
    rw [List.map_eq_nil_iff] at a1 a2
    rw [a1, a2]

theorem sort_here (h : Alike2 f g m M) {x X : Nat → ℚ} (hX : ∀ v, X (f v) = x v) {S' : Solver} (hS : S'.sorts) :
    ∃ S : Solver, S.sorts ∧ SortsLike f m M x X S S' := by
  have back : ∀ l : List (ℚ × Nat), (l.map (Prod.map id f)).map (Prod.map id (Function.invFun f)) = l := by
    intro l
    rw [List.map_map, Prod.map_comp_map, Function.invFun_comp h.fi]
    simp
  obtain ⟨S, h1, h2⟩ := sort_match (I := m.inters.getD []) (a := fun v => M.distances X (v.ren f)) (b := m.distances x) (φ := Function.invFun f)
    (fun v _ => by
      have := ((distances_shuf h.tabs hX v).map (Prod.map id (Function.invFun f))).symm
      rwa [back] at this)
    (fun v hv v' hv' e => by
      rcases distances_inj h.wm hv hv' e with e1 | e1
      · rw [e1]
      · have h1 := distances_shuf h.tabs hX v
        have h2 := distances_shuf h.tabs hX v'
        rw [e1] at h1
        rw [← e, e1] at h2
        rw [h1.eq_nil, h2.eq_nil]) hS
  refine ⟨S, h1, fun v hv => ?_⟩
  rw [h2 v hv, List.map_map]
  conv_lhs => rw [← List.map_id (S'.sort _)]
  apply List.map_congr_left
  intro q hq
  obtain ⟨q', _, rfl⟩ := List.mem_map.1 ((distances_shuf h.tabs hX v).mem_iff.1 ((hS _).1.mem_iff.1 hq))
  simp only [Function.comp, Prod.map, id, Function.leftInverse_invFun h.fi q'.2]

theorem unused_shuf (h : Alike2 f g m M) {x X : Nat → ℚ} (hX : ∀ v, X (f v) = x v) {S S' : Solver} (hS : SortsLike f m M x X S S') (i : Nat) :
    f i ∈ M.unusedWeights S' X ++ M.unusedLinks X ↔ i ∈ m.unusedWeights S x ++ m.unusedLinks x := by
  have hp := h.tabs.inters.getD
  have e1 : (M.unusedWeights S' X ++ M.unusedLinks X).Perm ((m.unusedWeights S x ++ m.unusedLinks x).map f) := by
    unfold Market.unusedWeights Market.unusedLinks
    rw [List.map_append]
    refine List.Perm.append ?_ ?_
    · refine (hp.flatMap_right _).trans (.of_eq ?_)
      rw [List.flatMap_map, List.map_flatMap]
      apply List.flatMap_congr
      intro v hv
      rw [hS v hv, ← List.map_drop, List.map_map, List.map_map]
      rfl
    · refine ((hp.filter _).map _).trans (.of_eq ?_)
      simp only [List.filter_map, List.map_map]
      have : (fun v : InterVar => decide (v.inter ≠ v.link ∧ X v.vid = 0)) ∘ InterVar.ren f =
          fun v => decide (v.inter ≠ v.link ∧ x v.vid = 0) := by
        funext v
        simp only [Function.comp, InterVar.ren, hX]
      rw [this]
      rfl
  rw [e1.mem_iff]
  constructor
  · intro hv
    obtain ⟨a, ha, ea⟩ := List.mem_map.1 hv
    rw [← h.fi ea]
    exact ha
  · exact fun hv => List.mem_map.2 ⟨_, hv, rfl⟩

theorem linear_vars_shuf (h : Alike2 f g m M) {lp LP : Lp} (e : m.assemble = .ok lp)
    (E : M.assemble = .ok LP) {x X y Y : Nat → ℚ} (hX : ∀ v, X (f v) = x v) (hY : ∀ v, Y (f v) = y v) {S S' : Solver}
    (hS : SortsLike f m M x X S S') :
    (∀ v ∈ (M.linear S' X LP).vars, v.holds Y) ↔ ∀ v ∈ (m.linear S x lp).vars, v.holds y := by
  have hl : M.losses.isSome = m.losses.isSome := h.tabs.losses.isSome
  have key : ∀ v : LVar, (v.ren f).holds Y ↔ v.holds y := by
    intro v
    simp only [LVar.holds, LVar.ren, hY]
  unfold Market.linear
  dsimp only
  rw [hl]
  split
  · unfold Lp.disable
    dsimp only
    rw [(assemble_parts e).1, (assemble_parts E).1]
    simp only [List.forall_mem_map, (allVars_shuf h).mem_iff]
    refine forall₂_congr (fun v _ => ?_)
    have := unused_shuf h hX hS v.vid
    by_cases hv : v.vid ∈ m.unusedWeights S x ++ m.unusedLinks x
    · rw [if_pos (show (v.ren f).vid ∈ _ from this.2 hv), if_pos hv]
      exact key { v with lb := 0, ub := some 0 }
    · rw [if_neg (show ¬ (v.ren f).vid ∈ _ from mt this.1 hv), if_neg hv]
      exact key v
  · dsimp only
    rw [(assemble_parts e).1, (assemble_parts E).1]
    simp only [List.forall_mem_map, (allVars_shuf h).mem_iff]
    exact forall₂_congr (fun v _ => key v)

theorem shadow_shuf (h : Alike2 f g m M) {lp LP : Lp} (e : m.assemble = .ok lp)
    (E : M.assemble = .ok LP) {x X z Z p P : Nat → ℚ} (hX : ∀ v, X (f v) = x v) (hZ : ∀ v, Z (f v) = z v)
    (hP : ∀ c, P (g c) = p c) {S S' : Solver} (hS : SortsLike f m M x X S S') :
    ShadowPrices (M.linear S' X LP) Z P ↔ ShadowPrices (m.linear S x lp) z p := by
  rw [shadow_iff h.wM.con E (linear_rows ..) (linear_sos ..).1 (linear_sos ..).2,
    shadow_iff h.wm.con e (linear_rows ..) (linear_sos ..).1 (linear_sos ..).2]
  have hr : ∀ {y Y : Nat → ℚ}, (∀ v, Y (f v) = y v) → ∀ c, rowVal M.terms Y (g c) = rowVal m.terms y c := by
    intro y Y hY c
    rw [rowVal_perm (terms_shuf h), rowVal_ren h.gi hY]
  have hsum : ∀ {y Y : Nat → ℚ}, (∀ v, Y (f v) = y v) →
      (M.liveRows.map (fun r => P r.1 * (rowVal M.terms Y r.1 - r.2.2.eval Y))).sum =
      (m.liveRows.map (fun r => p r.1 * (rowVal m.terms y r.1 - r.2.2.eval y))).sum := by
    intro y Y hY
    rw [sum_perm (liveRows_shuf h), List.map_map]
    apply sum_map_congr
    intro r _
    simp only [Function.comp, renRhs, hP, hr hY, rhs_ren hY]
  have hc : ∀ {y Y : Nat → ℚ}, (∀ v, Y (f v) = y v) → (M.linear S' X LP).cost Y = (m.linear S x lp).cost y := by
    intro y Y hY
    rw [linear_cost, linear_cost, cost_shuf h e E hY]
  refine and_congr (linear_vars_shuf h e E hX hZ hS) (and_congr ?_ (and_congr ?_ (and_congr ?_ ?_)))
  · simp only [(liveRows_shuf h).mem_iff, List.forall_mem_map]
    refine forall₂_congr (fun r _ => ?_)
    simp only [renRhs, hr hZ, rhs_ren hZ]
  · simp only [(liveRows_shuf h).mem_iff, List.forall_mem_map]
    refine forall₂_congr (fun r _ => ?_)
    simp only [renRhs, hP]
  · simp only [(liveRows_shuf h).mem_iff, List.forall_mem_map]
    refine forall₂_congr (fun r _ => ?_)
    simp only [renRhs, hP]
  · rw [hc hZ]
    constructor
    · intro H y hy
      obtain ⟨Y, hY⟩ := points_shuf h y
      have := H Y ((linear_vars_shuf h e E hX hY hS).2 hy)
      rwa [hc hY, hsum hY] at this
    · intro H Y hy
      have hY : ∀ v, Y (f v) = (fun v => Y (f v)) v := fun _ => rfl
      have := H _ ((linear_vars_shuf h e E hX hY hS).1 hy)
      rwa [← hc hY, ← hsum hY] at this

theorem energyPrices_shuf (h : ShufT f g m M) {p P : Nat → ℚ} (hP : ∀ c, P (g c) = p c) :
    resSame (m.energyPrices p) (M.energyPrices P) := by
  unfold Market.energyPrices
  have h1 := h.mktRhs .demand
  cases e1 : m.mktRhs.get? .demand <;> cases e2 : M.mktRhs.get? .demand <;> rw [e1, e2] at h1 <;> first | exact h1.elim | exact rfl | skip
  refine List.Perm.symm ((h1.filterMap _).trans (.of_eq ?_))
  rw [List.filterMap_map]
  apply List.filterMap_congr
  intro r _
  simp only [Function.comp, Row.ren, hP]

theorem fcasPrices_shuf (h : Alike2 f g m M) {p P : Nat → ℚ} (hP : ∀ c, P (g c) = p c) :
    resSame (m.fcasPrices p) (M.fcasPrices P) := by
  unfold Market.fcasPrices
  have h1 := h.tabs.regCon .fcas
  have h2 := h.tabs.mktRhs .fcas
  cases e1 : m.regCon.get? .fcas <;> cases e2 : M.regCon.get? .fcas <;> rw [e1, e2] at h1 <;> first | exact h1.elim | exact rfl | skip
  rename_i cs CS
  cases e3 : m.mktRhs.get? .fcas <;> cases e4 : M.mktRhs.get? .fcas <;> rw [e3, e4] at h2 <;> first | exact h2.elim | exact rfl | skip
  rename_i rows ROWS
  have e : (cs.map (ConReg.ren g)).flatMap (fun c => ((rows.map (Row.ren g)).filter (fun r => decide (r.cid = c.cid))).map
        (fun r => (c, r))) =
      (cs.flatMap (fun c => (rows.filter (fun r => decide (r.cid = c.cid))).map (fun r => (c, r)))).map
        (fun q => (q.1.ren g, q.2.ren g)) := by
    rw [List.flatMap_map, List.map_flatMap]
    apply List.flatMap_congr
    intro c _
    simp only [List.filter_map, List.map_map]
    have : (fun r : Row => decide (r.cid = (c.ren g).cid)) ∘ Row.ren g = fun r => decide (r.cid = c.cid) := by
      funext r
      simp only [Function.comp, Row.ren, ConReg.ren, h.gi.eq_iff]
    rw [this]
    rfl
  refine List.Perm.symm (groupSum_shuf (r := fun q : ConReg × Row => (q.1.ren g, q.2.ren g)) (fun _ => rfl) (fun q => hP _) ?_)
  rw [← e]
  exact flatMap_perm h1 (fun _ => (h2.filter _).map _)

theorem sameDispatch_of (h : Alike2 f g m M) : SameDispatch m M := by
  have hb : (∃ lp, M.assemble = .ok lp) ↔ (∃ lp, m.assemble = .ok lp) := by
    rw [assemble_fine h.wm.con, assemble_fine h.wM.con]; exact fine_shuf h
  refine ⟨⟨hb.2, ?_, ?_, ?_⟩, ⟨hb.1, ?_, ?_, ?_⟩⟩
  · intro lp x e hx
    obtain ⟨LP, E⟩ := hb.2 ⟨lp, e⟩
    obtain ⟨X, hX⟩ := points_shuf h x
    exact ⟨LP, X, E, (feasible_shuf h e E hX).2 hx, report_shuf h e E hX⟩
  · intro lp x e hx
    obtain ⟨LP, E⟩ := hb.2 ⟨lp, e⟩
    obtain ⟨X, hX⟩ := points_shuf h x
    exact ⟨LP, X, E, (optimal_shuf h e E hX).2 hx, report_shuf h e E hX⟩
  · rintro r ep fp ⟨lp, x, S, z, p, e, hx, hS, hp, rfl, rfl, rfl⟩
    obtain ⟨LP, E⟩ := hb.2 ⟨lp, e⟩
    obtain ⟨X, hX⟩ := points_shuf h x
    obtain ⟨Z, hZ⟩ := points_shuf h z
    obtain ⟨P, hP⟩ : ∃ P : Nat → ℚ, ∀ c, P (g c) = p c := ⟨Function.extend g p 0, fun c => h.gi.extend_apply p 0 c⟩
    obtain ⟨S', hS', hl⟩ := sort_there h hX hS
    exact ⟨_, _, _, ⟨LP, X, S', Z, P, E, (optimal_shuf h e E hX).2 hx, hS', (shadow_shuf h e E hX hZ hP hl).2 hp, rfl, rfl, rfl⟩,
      report_shuf h e E hX, energyPrices_shuf h.tabs hP, fcasPrices_shuf h hP⟩
  · intro LP X E hX
    obtain ⟨lp, e⟩ := hb.1 ⟨LP, E⟩
    exact ⟨lp, fun v => X (f v), e, (feasible_shuf h e E (fun _ => rfl)).1 hX, (report_shuf h e E (fun _ => rfl)).symm⟩
  · intro LP X E hX
    obtain ⟨lp, e⟩ := hb.1 ⟨LP, E⟩
    exact ⟨lp, fun v => X (f v), e, (optimal_shuf h e E (fun _ => rfl)).1 hX, (report_shuf h e E (fun _ => rfl)).symm⟩
  · rintro r ep fp ⟨LP, X, S', Z, P, E, hX, hS, hp, rfl, rfl, rfl⟩
    obtain ⟨lp, e⟩ := hb.1 ⟨LP, E⟩
    obtain ⟨S, hS', hl⟩ := sort_here h (x := fun v => X (f v)) (fun _ => rfl) hS
    exact ⟨_, _, _, ⟨lp, fun v => X (f v), S, fun v => Z (f v), fun c => P (g c), e, (optimal_shuf h e E (fun _ => rfl)).1 hX, hS',
      (shadow_shuf h e E (fun _ => rfl) (fun _ => rfl) (fun _ => rfl) hl).1 hp, rfl, rfl, rfl⟩,
      (report_shuf h e E (fun _ => rfl)).symm, (energyPrices_shuf h.tabs (fun _ => rfl)).symm, (fcasPrices_shuf h (fun _ => rfl)).symm⟩

end

end Verif
