import Verif.Proofs.ShuffleRun
import Verif.Proofs.SimPrice

/-! Two markets that agree up to the order of rows and renaming of ids have the same program up to order and renaming. -/

namespace Verif

/-- the concatenation of the tables of a dictionary, up to order -/
theorem dict_flat {α γ : Type} {d E : Dict CKey α} (hd : d.NodupKeys) (hE : E.NodupKeys) {F G : α → List γ}
    (hk : ∀ k, (E.get? k).isNone = (d.get? k).isNone)
    (h : ∀ k, ((E.get? k).elim [] G).Perm ((d.get? k).elim [] F)) : (E.flatMap (fun e => G e.2)).Perm (d.flatMap (fun e => F e.2)) := by
  have key : ∀ {D : Dict CKey α}, D.NodupKeys → ∀ H : α → List γ, D.flatMap (fun e => H e.2) =
      (D.map Prod.fst).flatMap (fun k => (D.get? k).elim [] H) := by
    intro D hD H
    rw [List.flatMap_map]
    apply List.flatMap_congr
    intro e he
    rw [Dict.get?_of_mem hD (show (e.1, e.2) ∈ D from he)]
    rfl
  have hm : ∀ {D : Dict CKey α}, D.NodupKeys → ∀ k, k ∈ D.map Prod.fst ↔ (D.get? k).isNone = false := by
    intro D hD k
    constructor
    · intro h
      obtain ⟨e, he, rfl⟩ := List.mem_map.1 h
      rw [Dict.get?_of_mem hD (show (e.1, e.2) ∈ D from he)]
      rfl
    · intro h
      cases e : D.get? k with
      | none => rw [e] at h; cases h
      | some a => exact List.mem_map.2 ⟨(k, a), Dict.mem_of_get? e, rfl⟩
  have pk : (E.map Prod.fst).Perm (d.map Prod.fst) := by
    rw [List.perm_ext_iff_of_nodup hE hd]
    intro k
    rw [hm hE, hm hd, hk]
  rw [key hE G, key hd F]
  exact flatMap_perm pk h

/-- the parts of well-formedness that the program depends on -/
structure IdWF (m : Market) : Prop where
  con : ConWF m
  var : VarWF m
  inter : InterWF m

theorem WF.ids {m : Market} (h : WF m) : IdWF m := ⟨h.con, h.var, h.inter⟩

/-- two markets that agree up to order and renaming, and are well formed -/
structure Alike2 (f g : Nat → Nat) (m M : Market) : Prop where
  tabs : ShufT f g m M
  fi : Function.Injective f
  gi : Function.Injective g
  wm : IdWF m
  wM : IdWF M

section
variable {f g : Nat → Nat} {m M : Market}

theorem DefP.isNone {d D : Option (List DefVar × List Term)} (h : DefP f g d D) : D.isNone = d.isNone := by
  cases d <;> cases D <;> first | exact h.elim | rfl

theorem deficit_flat (h : Alike2 f g m M) {γ : Type} {F G : List DefVar × List Term → List γ}
    (hF : ∀ d D, DefP f g (some d) (some D) → (G D).Perm (F d)) :
    (M.deficits.flatMap (fun e => G e.2)).Perm (m.deficits.flatMap (fun e => F e.2)) := by
  refine dict_flat h.wm.con.defKeys h.wM.con.defKeys (fun k => (h.tabs.deficits k).isNone) (fun k => ?_)
  have := h.tabs.deficits k
  cases e : m.deficits.get? k <;> cases E : M.deficits.get? k <;> rw [e, E] at this <;> first | exact this.elim | exact .refl _ | exact hF _ _ this

theorem concat_shuf {α : Type} {d E : Dict CKey (List α)} {r : α → α} (hd : d.NodupKeys) (hE : E.NodupKeys)
    (h : ∀ k, TabP r (d.get? k) (E.get? k)) : E.concat.Perm (d.concat.map r) := by
  unfold Dict.concat
  rw [List.map_flatMap]
  refine dict_flat hd hE (F := List.map r) (G := id) (fun k => (h k).isNone) (fun k => ?_)
  have := h k
  cases e : d.get? k <;> cases E' : E.get? k <;> rw [e, E'] at this <;> first | exact this.elim | exact .refl _ | exact this

theorem map_getD {α β : Type} {r : α → α} {a A : Option (List α)} (h : TabP r a A) {F G : α → β} (hF : ∀ x, G (r x) = F x) :
    ((A.getD []).map G).Perm ((a.getD []).map F) := by
  refine (h.getD.map G).trans (.of_eq ?_)
  rw [List.map_map]
  exact List.map_congr_left (fun x _ => hF x)

theorem allVars_shuf (h : Alike2 f g m M) : M.allVars.Perm (m.allVars.map (LVar.ren f)) := by
  unfold Market.allVars
  simp only [List.map_append, List.map_map]
  refine (((List.Perm.append (map_getD h.tabs.bids (fun _ => rfl)) (map_getD h.tabs.inters (fun _ => rfl))).append
    (map_getD h.tabs.losses (fun _ => rfl))).append (map_getD h.tabs.weights (fun _ => rfl))).append ?_
  rw [List.map_flatMap]
  refine deficit_flat h (F := fun d => (d.1.map (fun v => ({ vid := v.vid, lb := 0, ub := none } : LVar))).map (LVar.ren f))
    (G := fun d => d.1.map (fun v => ({ vid := v.vid, lb := 0, ub := none } : LVar))) (fun d D hD => ?_)
  refine (hD.1.map _).trans (.of_eq ?_)
  rw [List.map_map, List.map_map]
  rfl

theorem objective_shuf (h : Alike2 f g m M) : M.objective.Perm (m.objective.map (fun o => (f o.1, o.2))) := by
  unfold Market.objective
  simp only [List.map_append, List.map_map]
  refine (map_getD h.tabs.bidCost (fun _ => rfl)).append ?_
  rw [List.map_flatMap]
  refine deficit_flat h (F := fun d => (d.1.map (fun v => (v.vid, v.cost))).map (fun o => (f o.1, o.2)))
    (G := fun d => d.1.map (fun v => (v.vid, v.cost))) (fun d D hD => ?_)
  refine (hD.1.map _).trans (.of_eq ?_)
  rw [List.map_map, List.map_map]
  rfl

theorem allRows_shuf (h : Alike2 f g m M) : M.allRows.Perm (m.allRows.map (renRhs f g)) := by
  unfold Market.allRows
  simp only [List.map_append, List.map_map]
  refine List.Perm.append (List.Perm.append ?_ ?_) (map_getD h.tabs.dynRhs (fun _ => rfl))
  · refine ((concat_shuf h.wm.con.conKeys h.wM.con.conKeys h.tabs.conRhs).map _).trans ?_
    rw [List.map_map]; rfl
  · refine ((concat_shuf h.wm.con.mktKeys h.wM.con.mktKeys h.tabs.mktRhs).map _).trans ?_
    rw [List.map_map]; rfl

theorem createLhsReg_perm {cs CS : List ConReg} {vs VS : List VarReg} (hc : CS.Perm cs) (hv : VS.Perm vs) :
    (createLhsReg CS VS).Perm (createLhsReg cs vs) :=
  flatMap_perm hc (fun _ => (hv.filter _).map _)

theorem createLhsUnit_perm {cs CS : List ConUnit} {vs VS : List VarUnit} (hc : CS.Perm cs) (hv : VS.Perm vs) :
    (createLhsUnit CS VS).Perm (createLhsUnit cs vs) :=
  flatMap_perm hc (fun _ => (hv.filter _).map _)

theorem setIds_perm {rows ROWS : List Row} (h : ROWS.Perm (rows.map (Row.ren g))) :
    (setIds ROWS).Perm ((setIds rows).map (fun i => (g i.1, i.2))) := by
  rw [← setIds_ren]
  exact h.filterMap _

theorem genericIds_shuf (h : ShufT f g m M) : TabP (fun i : Nat × String => (g i.1, i.2)) m.genericIds M.genericIds := by
  have h1 := h.conRhs .generic
  have h2 := h.mktRhs .fcas
  have key : ∀ {a A b B : Option (List Row)}, TabP (Row.ren g) a A → TabP (Row.ren g) b B →
      (setIds (A.getD []) ++ setIds (B.getD [])).Perm ((setIds (a.getD []) ++ setIds (b.getD [])).map (fun i => (g i.1, i.2))) := by
    intro a A b B h1 h2
    rw [List.map_append]
    exact (setIds_perm h1.getD).append (setIds_perm h2.getD)
  unfold Market.genericIds
  cases e1 : m.conRhs.get? .generic <;> cases e2 : M.conRhs.get? .generic <;> rw [e1, e2] at h1 <;> first | exact h1.elim | skip
  all_goals cases e3 : m.mktRhs.get? .fcas <;> cases e4 : M.mktRhs.get? .fcas <;> rw [e3, e4] at h2 <;> first | exact h2.elim | skip
  · trivial
  · exact key h1 h2
  · exact key h1 h2
  · exact key h1 h2

theorem map_ren_id {α : Type} {l L : List α} (h : L.Perm (l.map id)) : L.Perm l := by rwa [List.map_id] at h

theorem genericUnitLhs_shuf {gs GS : List GUnit} (hg : GS.Perm gs) {ids IDS : List (Nat × String)}
    (hi : IDS.Perm (ids.map (fun i => (g i.1, i.2)))) {vs VS : List VarUnit} (hv : VS.Perm (vs.map (VarUnit.ren f))) :
    (genericUnitLhs GS IDS VS).Perm ((genericUnitLhs gs ids vs).map (Term.ren f g)) := by
  have : (genericUnitLhs GS IDS VS).Perm (genericUnitLhs gs (ids.map (fun i => (g i.1, i.2))) (vs.map (VarUnit.ren f))) :=
    flatMap_perm hg (fun _ => flatMap_perm (hv.filter _) (fun _ => (hi.filter _).map _))
  refine this.trans (.of_eq ?_)
  simp only [genericUnitLhs, List.map_flatMap, List.filter_map, List.flatMap_map, List.map_map]
  rfl

theorem genericRegionLhs_shuf {gs GS : List GRegion} (hg : GS.Perm gs) {ids IDS : List (Nat × String)}
    (hi : IDS.Perm (ids.map (fun i => (g i.1, i.2)))) {vs VS : List VarReg} (hv : VS.Perm (vs.map (VarReg.ren f))) :
    (genericRegionLhs GS IDS VS).Perm ((genericRegionLhs gs ids vs).map (Term.ren f g)) := by
  have : (genericRegionLhs GS IDS VS).Perm (genericRegionLhs gs (ids.map (fun i => (g i.1, i.2))) (vs.map (VarReg.ren f))) :=
    flatMap_perm hg (fun _ => flatMap_perm (hv.filter _) (fun _ => (hi.filter _).map _))
  refine this.trans (.of_eq ?_)
  simp only [genericRegionLhs, List.map_flatMap, List.filter_map, List.flatMap_map, List.map_map]
  rfl

theorem genericInterLhs_shuf {gs GS : List GInter} (hg : GS.Perm gs) {ids IDS : List (Nat × String)}
    (hi : IDS.Perm (ids.map (fun i => (g i.1, i.2)))) {vs VS : List InterVar} (hv : VS.Perm (vs.map (InterVar.ren f))) :
    (genericInterLhs GS IDS VS).Perm ((genericInterLhs gs ids vs).map (Term.ren f g)) := by
  have : (genericInterLhs GS IDS VS).Perm (genericInterLhs gs (ids.map (fun i => (g i.1, i.2))) (vs.map (InterVar.ren f))) :=
    flatMap_perm hg (fun _ => flatMap_perm (hv.filter _) (fun _ => (hi.filter _).map _))
  refine this.trans (.of_eq ?_)
  simp only [genericInterLhs, List.map_flatMap, List.filter_map, List.flatMap_map, List.map_map]
  rfl

theorem genericTermsFor_shuf (h : ShufT f g m M) {ids IDS : List (Nat × String)} (hi : IDS.Perm (ids.map (fun i => (g i.1, i.2)))) :
    (M.genericTermsFor IDS).Perm ((m.genericTermsFor ids).map (Term.ren f g)) := by
  unfold Market.genericTermsFor
  simp only [List.map_append]
  refine List.Perm.append (List.Perm.append ?_ ?_) ?_
  · have h1 := h.gUnit
    have h2 := h.bidUnit
    cases e1 : m.gUnit <;> cases e2 : M.gUnit <;> rw [e1, e2] at h1 <;> first | exact h1.elim | exact .refl _ | skip
    cases e3 : m.bidUnit <;> cases e4 : M.bidUnit <;> rw [e3, e4] at h2 <;> first | exact h2.elim | exact .refl _ | skip
    exact genericUnitLhs_shuf (map_ren_id h1) hi h2
  · have h1 := h.gRegion
    have h2 := h.bidReg
    cases e1 : m.gRegion <;> cases e2 : M.gRegion <;> rw [e1, e2] at h1 <;> first | exact h1.elim | exact .refl _ | skip
    cases e3 : m.bidReg <;> cases e4 : M.bidReg <;> rw [e3, e4] at h2 <;> first | exact h2.elim | exact .refl _ | skip
    exact genericRegionLhs_shuf (map_ren_id h1) hi h2
  · have h1 := h.gInter
    have h2 := h.inters
    cases e1 : m.gInter <;> cases e2 : M.gInter <;> rw [e1, e2] at h1 <;> first | exact h1.elim | exact .refl _ | skip
    cases e3 : m.inters <;> cases e4 : M.inters <;> rw [e3, e4] at h2 <;> first | exact h2.elim | exact .refl _ | skip
    exact genericInterLhs_shuf (map_ren_id h1) hi h2

theorem regVars_shuf (h : ShufT f g m M) : M.regVars.Perm (m.regVars.map (VarReg.ren f)) := by
  unfold Market.regVars
  simp only [List.map_append, List.map_map]
  exact (h.bidReg.getD.append (map_getD h.interReg (fun _ => rfl))).append h.lossReg.getD

theorem terms_shuf (h : Alike2 f g m M) : M.terms.Perm (m.terms.map (Term.ren f g)) := by
  unfold Market.terms
  simp only [List.map_append]
  refine List.Perm.append (List.Perm.append (List.Perm.append ?_ ?_) ?_) ?_
  · unfold Market.fixedTerms
    simp only [List.map_append]
    refine (h.tabs.lossLhs.getD.append h.tabs.tieLhs.getD).append ?_
    rw [List.map_flatMap]
    exact deficit_flat h (F := fun d => d.2.map (Term.ren f g)) (G := fun d => d.2) (fun d D hD => hD.2)
  · unfold Market.genericTerms
    have h1 := genericIds_shuf h.tabs
    cases e1 : m.genericIds <;> cases e2 : M.genericIds <;> rw [e1, e2] at h1 <;> first | exact h1.elim | exact .refl _ | skip
    exact genericTermsFor_shuf h.tabs h1
  · unfold Market.regTerms
    rw [← createLhsReg_ren]
    exact createLhsReg_perm (concat_shuf h.wm.con.regKeys h.wM.con.regKeys h.tabs.regCon) (regVars_shuf h.tabs)
  · unfold Market.unitTerms
    rw [← createLhsUnit_ren]
    exact createLhsUnit_perm (concat_shuf h.wm.con.unitKeys h.wM.con.unitKeys h.tabs.unitCon) h.tabs.bidUnit.getD

/-! ### Special ordered sets -/

theorem groupBy_perm {α κ : Type} [DecidableEq κ] {key : α → κ} {l L : List α} (h : L.Perm l) {s : List α} (hs : s ∈ groupBy key l) :
    ∃ S ∈ groupBy key L, S.Perm s := by
  obtain ⟨k, hk, rfl⟩ := List.mem_map.1 hs
  refine ⟨_, List.mem_map.2 ⟨k, ?_, rfl⟩, h.filter _⟩
  rw [List.mem_dedup] at hk ⊢
  exact (h.map key).mem_iff.2 hk

theorem sos2_congr {s S : List (Nat × Int)} (h : S.Perm s) (x : Nat → ℚ) : Sos2 x S ↔ Sos2 x s := by
  simp only [Sos2, h.mem_iff]

theorem sos1_congr {s S : List Nat} (h : S.Perm s) (x : Nat → ℚ) : Sos1 x S ↔ Sos1 x s := by
  simp only [Sos1, h.mem_iff]

theorem sos2_shuf (h : Alike2 f g m M) {x X : Nat → ℚ} (hX : ∀ v, X (f v) = x v) :
    (∀ s ∈ M.sos2Groups, Sos2 X s) ↔ ∀ s ∈ m.sos2Groups, Sos2 x s := by
  have key : (∀ s ∈ ((m.weights.getD []).map (WeightVar.ren f) |> groupBy (fun w => (w.inter, w.link))).map (·.map (fun w => (w.vid, w.seg))), Sos2 X s) ↔
      ∀ s ∈ m.sos2Groups, Sos2 x s := by
    unfold Market.sos2Groups
    rw [groupBy_ren _ (WeightVar.ren f) (fun _ => rfl)]
    simp only [List.map_map, List.forall_mem_map]
    refine forall₂_congr (fun s _ => ?_)
    simp only [Sos2, List.forall_mem_map, Function.comp, WeightVar.ren, hX]
  rw [← key]
  unfold Market.sos2Groups
  simp only [List.forall_mem_map]
  have hp := h.tabs.weights.getD
  constructor
  · intro H s hs
    obtain ⟨S, hS, p⟩ := groupBy_perm hp hs
    exact (sos2_congr (p.map _) X).1 (H S hS)
  · intro H s hs
    obtain ⟨S, hS, p⟩ := groupBy_perm hp.symm hs
    exact (sos2_congr (p.map _) X).1 (H S hS)

theorem sos1_shuf (h : Alike2 f g m M) {x X : Nat → ℚ} (hX : ∀ v, X (f v) = x v) :
    (∀ s ∈ M.sos1Groups, Sos1 X s) ↔ ∀ s ∈ m.sos1Groups, Sos1 x s := by
  have e : (fun v : InterVar => decide (v.inter ≠ v.link)) ∘ InterVar.ren f = (fun v => decide (v.inter ≠ v.link)) := rfl
  have key : (∀ s ∈ (groupBy (·.inter) (((m.inters.getD []).map (InterVar.ren f)).filter (fun v => decide (v.inter ≠ v.link)))).map
      (·.map (·.vid)), Sos1 X s) ↔ ∀ s ∈ m.sos1Groups, Sos1 x s := by
    unfold Market.sos1Groups
    rw [List.filter_map, e, groupBy_ren _ (InterVar.ren f) (fun _ => rfl)]
    simp only [List.map_map, List.forall_mem_map]
    refine forall₂_congr (fun s _ => ?_)
    simp only [Sos1, List.forall_mem_map, Function.comp, InterVar.ren, hX, h.fi.eq_iff]
  rw [← key]
  unfold Market.sos1Groups
  simp only [List.forall_mem_map]
  have hp := h.tabs.inters.getD.filter (fun v => decide (v.inter ≠ v.link))
  constructor
  · intro H s hs
    obtain ⟨S, hS, p⟩ := groupBy_perm hp hs
    exact (sos1_congr (p.map _) X).1 (H S hS)
  · intro H s hs
    obtain ⟨S, hS, p⟩ := groupBy_perm hp.symm hs
    exact (sos1_congr (p.map _) X).1 (H S hS)

/-! ### When the program can be assembled -/

theorem dict_isEmpty {α : Type} {d E : Dict CKey α} (h : ∀ k, (E.get? k).isNone = (d.get? k).isNone) : E.isEmpty = d.isEmpty := by
  rw [Bool.eq_iff_iff, isEmpty_get?, isEmpty_get?]
  simp only [← Option.isNone_iff_eq_none, h]

theorem vid_shuf (h : Alike2 f g m M) {v : Nat} : f v ∈ M.allVars.map LVar.vid ↔ v ∈ m.allVars.map LVar.vid := by
  have hp := (allVars_shuf h).map LVar.vid
  rw [hp.mem_iff, List.map_map]
  simp only [List.mem_map, Function.comp, LVar.ren]
  constructor
  · rintro ⟨a, ha, e⟩; exact ⟨a, ha, h.fi e⟩
  · rintro ⟨a, ha, rfl⟩; exact ⟨a, ha, rfl⟩

theorem fine_shuf (h : Alike2 f g m M) : M.fine ↔ m.fine := by
  unfold Market.fine
  have t := h.tabs
  have e1 : M.noVars = m.noVars := by
    unfold Market.noVars
    rw [t.bids.isNone, t.inters.isNone, t.losses.isNone, t.weights.isNone, dict_isEmpty (fun k => (t.deficits k).isNone)]
  rw [e1, t.bidReg.isNone, t.interReg.isNone, t.lossReg.isNone, t.bidUnit.isNone, dict_isEmpty (fun k => (t.regCon k).isNone),
    dict_isEmpty (fun k => (t.unitCon k).isNone), dict_isEmpty (fun k => (t.conRhs k).isNone),
    dict_isEmpty (fun k => (t.mktRhs k).isNone), t.dynRhs.isNone]
  refine and_congr Iff.rfl (and_congr Iff.rfl (and_congr Iff.rfl (and_congr ?_ (and_congr ?_ (or_congr Iff.rfl ?_)))))
  · simp only [(objective_shuf h).mem_iff, List.forall_mem_map]
    exact forall₂_congr (fun o _ => vid_shuf h)
  · simp only [t.dynRhs.getD.mem_iff, List.forall_mem_map]
    exact forall₂_congr (fun r _ => vid_shuf h)
  · refine and_congr ?_ (and_congr ?_ ?_)
    · rw [ne_eq, ne_eq, ← List.length_eq_zero_iff, (terms_shuf h).length_eq, List.length_map, List.length_eq_zero_iff]
    · simp only [(terms_shuf h).mem_iff, List.forall_mem_map]
      exact forall₂_congr (fun r _ => vid_shuf h)
    · simp only [(terms_shuf h).mem_iff, List.forall_mem_map]
      refine forall₂_congr (fun t _ => ?_)
      constructor
      · rintro ⟨ty, r, hr, hty⟩
        obtain ⟨a, ha, e⟩ := List.mem_map.1 ((allRows_shuf h).mem_iff.1 hr)
        simp only [renRhs, Prod.mk.injEq] at e
        obtain ⟨e1, e2, _⟩ := e
        refine ⟨ty, a.2.2, ?_, hty⟩
        have := h.gi e1
        rw [← this, ← e2]
        exact ha
      · rintro ⟨ty, r, hr, hty⟩
        exact ⟨ty, r.ren f, (allRows_shuf h).mem_iff.2 (List.mem_map.2 ⟨_, hr, rfl⟩), hty⟩

/-! ### Feasible and optimal points -/

theorem feasible_shuf (h : Alike2 f g m M) {lp LP : Lp} (e : m.assemble = .ok lp)
    (E : M.assemble = .ok LP) {x X : Nat → ℚ} (hX : ∀ v, X (f v) = x v) : Feasible LP X ↔ Feasible lp x := by
  rw [feasible_iff h.wm.con e, feasible_iff h.wM.con E]
  refine and_congr ?_ (and_congr ?_ (and_congr (sos2_shuf h hX) (sos1_shuf h hX)))
  · simp only [(allVars_shuf h).mem_iff, List.forall_mem_map]
    refine forall₂_congr (fun v _ => ?_)
    simp only [LVar.holds, LVar.ren, hX]
  · simp only [(allRows_shuf h).mem_iff, List.forall_mem_map]
    refine forall₂_congr (fun r _ => ?_)
    have e1 : (∃ t ∈ M.terms, t.cid = (renRhs f g r).1) ↔ ∃ t ∈ m.terms, t.cid = r.1 := by
      simp only [(terms_shuf h).mem_iff, List.mem_map, renRhs]
      constructor
      · rintro ⟨_, ⟨t, ht, rfl⟩, e⟩; exact ⟨t, ht, h.gi e⟩
      · rintro ⟨t, ht, e⟩; exact ⟨_, ⟨t, ht, rfl⟩, congrArg g e⟩
    rw [e1, rowVal_perm (terms_shuf h)]
    simp only [renRhs, rowVal_ren h.gi hX, rhs_ren hX]

theorem cost_shuf (h : Alike2 f g m M) {lp LP : Lp} (e : m.assemble = .ok lp)
    (E : M.assemble = .ok LP) {x X : Nat → ℚ} (hX : ∀ v, X (f v) = x v) : LP.cost X = lp.cost x := by
  unfold Lp.cost linVal
  rw [(assemble_parts e).2.1, (assemble_parts E).2.1, sum_perm (objective_shuf h), List.map_map]
  apply sum_map_congr
  intro o _
  simp only [Function.comp, hX]

theorem points_shuf (h : Alike2 f g m M) (x : Nat → ℚ) : ∃ X : Nat → ℚ, ∀ v, X (f v) = x v :=
  ⟨Function.extend f x 0, fun v => h.fi.extend_apply x 0 v⟩

theorem optimal_shuf (h : Alike2 f g m M) {lp LP : Lp} (e : m.assemble = .ok lp)
    (E : M.assemble = .ok LP) {x X : Nat → ℚ} (hX : ∀ v, X (f v) = x v) : Optimal LP X ↔ Optimal lp x := by
  unfold Optimal
  rw [feasible_shuf h e E hX, cost_shuf h e E hX]
  refine and_congr Iff.rfl ⟨fun H y hy => ?_, fun H Y hY => ?_⟩
  · obtain ⟨Y, hY⟩ := points_shuf h y
    have := H Y ((feasible_shuf h e E hY).2 hy)
    rwa [cost_shuf h e E hY] at this
  · have hY' : ∀ v, Y (f v) = (fun v => Y (f v)) v := fun _ => rfl
    have := H _ ((feasible_shuf h e E hY').1 hY)
    rwa [cost_shuf h e E hY']

end

end Verif
