import Verif.Proofs.SimRun
import Verif.Proofs.Outputs
import Verif.Proofs.Elastic

/-! Two markets that agree up to renaming of ids have the same program up to renaming of ids. -/

namespace Verif

/-- the markets agree up to renaming of ids -/
abbrev SameUpTo (f g : Nat → Nat) (m M : Market) : Prop := Sim (fun _ => False) (fun _ => False) f g m M

theorem dict_perm {α : Type} {d E : Dict CKey α} {r : α → α} (hd : d.NodupKeys) (hE : E.NodupKeys)
    (h : ∀ k, ¬ False → E.get? k = (d.get? k).map r) : List.Perm E (d.map (fun e => (e.1, r e.2))) := by
  have h1 : List.Nodup E := List.Nodup.of_map _ hE
  have h2 : List.Nodup (d.map (fun e => (e.1, r e.2))) := by
    apply List.Nodup.of_map Prod.fst
    rw [List.map_map]
    exact hd
  rw [List.perm_ext_iff_of_nodup h1 h2]
  intro e
  constructor
  · intro he
    have h3 := Dict.get?_of_mem hE (show (e.1, e.2) ∈ E from he)
    rw [h _ id] at h3
    obtain ⟨a, ha, hr⟩ := Option.map_eq_some_iff.1 h3
    exact List.mem_map.2 ⟨(e.1, a), Dict.mem_of_get? ha, by rw [hr]⟩
  · intro he
    obtain ⟨a, ha, rfl⟩ := List.mem_map.1 he
    apply Dict.mem_of_get?
    rw [h _ id, Dict.get?_of_mem hd (show (a.1, a.2) ∈ d from ha)]
    rfl

def LVar.ren (f : Nat → Nat) (v : LVar) : LVar := { v with vid := f v.vid }
def Rhs.ren (f : Nat → Nat) : Rhs → Rhs
  | .const q => .const q
  | .var v => .var (f v)

/-- a row of the table of right hand sides with new ids -/
def renRhs (f g : Nat → Nat) (r : Nat × CType × Rhs) : Nat × CType × Rhs := (g r.1, r.2.1, r.2.2.ren f)

section
variable {f g : Nat → Nat} {m M : Market}

theorem getD_ren {α : Type} {o : Option (List α)} {r : α → α} : (o.map (List.map r)).getD [] = (o.getD []).map r := by
  cases o <;> rfl

theorem nofalse : ¬ False := id

theorem flatMap_map_right {α β γ : Type} (l : List α) (F : α → List β) (r : β → γ) :
    l.flatMap (fun a => (F a).map r) = (l.flatMap F).map r := by
  rw [List.map_flatMap]

theorem allVars_ren (h : SameUpTo f g m M) (wm : ConWF m) (wM : ConWF M) : M.allVars.Perm (m.allVars.map (LVar.ren f)) := by
  unfold Market.allVars
  rw [h.bids, h.inters, h.losses nofalse, h.weights nofalse]
  simp only [getD_ren, List.map_append, List.map_map]
  refine List.Perm.append (by rfl) ?_
  refine ((dict_perm wm.defKeys wM.defKeys h.deficits).flatMap_right _).trans ?_
  rw [List.flatMap_map, List.map_flatMap]
  simp only [renDef, List.map_map]
  rfl

theorem objective_ren (h : SameUpTo f g m M) (wm : ConWF m) (wM : ConWF M) :
    M.objective.Perm (m.objective.map (fun o => (f o.1, o.2))) := by
  unfold Market.objective
  rw [h.bidCost]
  simp only [getD_ren, List.map_append, List.map_map]
  refine List.Perm.append (by rfl) ?_
  refine ((dict_perm wm.defKeys wM.defKeys h.deficits).flatMap_right _).trans ?_
  rw [List.flatMap_map, List.map_flatMap]
  simp only [renDef, List.map_map]
  rfl

theorem concat_ren {α : Type} {d E : Dict CKey (List α)} {r : α → α} (hd : d.NodupKeys) (hE : E.NodupKeys)
    (h : ∀ k, ¬ False → E.get? k = (d.get? k).map (List.map r)) : E.concat.Perm (d.concat.map r) := by
  unfold Dict.concat
  refine ((dict_perm hd hE h).flatMap_right _).trans ?_
  rw [List.flatMap_map, List.map_flatMap]

theorem allRows_ren (h : SameUpTo f g m M) (wm : ConWF m) (wM : ConWF M) : M.allRows.Perm (m.allRows.map (renRhs f g)) := by
  unfold Market.allRows
  rw [h.dynRhs nofalse]
  simp only [getD_ren, List.map_append, List.map_map]
  refine List.Perm.append (List.Perm.append ?_ ?_) ?_
  · refine ((concat_ren wm.conKeys wM.conKeys h.conRhs).map _).trans ?_
    rw [List.map_map]; rfl
  · refine ((concat_ren wm.mktKeys wM.mktKeys h.mktRhs).map _).trans ?_
    rw [List.map_map]; rfl
  · rfl

theorem createLhsReg_ren (cs : List ConReg) (vs : List VarReg) :
    createLhsReg (cs.map (ConReg.ren g)) (vs.map (VarReg.ren f)) = (createLhsReg cs vs).map (Term.ren f g) := by
  unfold createLhsReg
  rw [List.flatMap_map, List.map_flatMap]
  apply List.flatMap_congr
  intro c _
  simp only [List.filter_map, List.map_map]
  rfl

theorem createLhsUnit_ren (cs : List ConUnit) (vs : List VarUnit) :
    createLhsUnit (cs.map (ConUnit.ren g)) (vs.map (VarUnit.ren f)) = (createLhsUnit cs vs).map (Term.ren f g) := by
  unfold createLhsUnit
  rw [List.flatMap_map, List.map_flatMap]
  apply List.flatMap_congr
  intro c _
  simp only [List.filter_map, List.map_map]
  rfl

theorem setIds_ren (rows : List Row) : setIds (rows.map (Row.ren g)) = (setIds rows).map (fun i => (g i.1, i.2)) := by
  unfold setIds
  induction rows with
  | nil => rfl
  | cons r rows ih =>
    simp only [List.map_cons, List.filterMap_cons, Row.ren]
    cases r.set <;> simp [ih]

theorem genericIds_ren (h : SameUpTo f g m M) : M.genericIds = m.genericIds.map (List.map (fun i => (g i.1, i.2))) := by
  unfold Market.genericIds
  rw [h.conRhs .generic nofalse, h.mktRhs .fcas nofalse]
  cases m.conRhs.get? .generic <;> cases m.mktRhs.get? .fcas <;>
    simp only [Option.map_none, Option.map_some, Option.getD_none, Option.getD_some, setIds_ren, List.map_append] <;> rfl

theorem genericTermsFor_ren (h : SameUpTo f g m M) (ids : List (Nat × String)) :
    M.genericTermsFor (ids.map (fun i => (g i.1, i.2))) = (m.genericTermsFor ids).map (Term.ren f g) := by
  unfold Market.genericTermsFor
  rw [h.gUnit, h.gRegion, h.gInter, h.bidUnit, h.bidReg, h.inters]
  simp only [List.map_append]
  congr 1
  · congr 1
    · cases m.gUnit <;> cases m.bidUnit <;> simp only [Option.map_none, Option.map_some, List.map_nil]
      simp only [genericUnitLhs, List.map_flatMap, List.filter_map, List.flatMap_map, List.map_map]
      rfl
    · cases m.gRegion <;> cases m.bidReg <;> simp only [Option.map_none, Option.map_some, List.map_nil]
      simp only [genericRegionLhs, List.map_flatMap, List.filter_map, List.flatMap_map, List.map_map]
      rfl
  · cases m.gInter <;> cases m.inters <;> simp only [Option.map_none, Option.map_some, List.map_nil]
    simp only [genericInterLhs, List.map_flatMap, List.filter_map, List.flatMap_map, List.map_map]
    rfl

theorem regVars_ren (h : SameUpTo f g m M) : M.regVars = m.regVars.map (VarReg.ren f) := by
  unfold Market.regVars
  rw [h.bidReg, h.interReg, h.lossReg nofalse]
  simp only [getD_ren, List.map_append, List.map_map]
  rfl

theorem terms_ren (h : SameUpTo f g m M) (wm : ConWF m) (wM : ConWF M) : M.terms.Perm (m.terms.map (Term.ren f g)) := by
  unfold Market.terms
  simp only [List.map_append]
  refine List.Perm.append (List.Perm.append (List.Perm.append ?_ ?_) ?_) ?_
  · unfold Market.fixedTerms
    rw [h.lossLhs nofalse, h.tieLhs nofalse]
    simp only [getD_ren, List.map_append]
    refine List.Perm.append (by rfl) ?_
    refine ((dict_perm wm.defKeys wM.defKeys h.deficits).flatMap_right _).trans ?_
    rw [List.flatMap_map, List.map_flatMap]
    rfl
  · unfold Market.genericTerms
    rw [genericIds_ren h]
    cases m.genericIds with
    | none => rfl
    | some ids => exact List.Perm.of_eq (genericTermsFor_ren h ids)
  · unfold Market.regTerms
    rw [regVars_ren h, ← createLhsReg_ren]
    exact (concat_ren wm.regKeys wM.regKeys h.regCon).flatMap_right _
  · unfold Market.unitTerms
    rw [h.bidUnit, getD_ren, ← createLhsUnit_ren]
    exact (concat_ren wm.unitKeys wM.unitKeys h.unitCon).flatMap_right _

theorem groupBy_ren {α κ : Type} [DecidableEq κ] (key : α → κ) (r : α → α) (hr : ∀ a, key (r a) = key a) (l : List α) :
    groupBy key (l.map r) = (groupBy key l).map (List.map r) := by
  unfold groupBy
  have : (l.map r).map key = l.map key := by rw [List.map_map]; exact List.map_congr_left (fun a _ => hr a)
  rw [this, List.map_map]
  apply List.map_congr_left
  intro k _
  simp only [List.filter_map, Function.comp_def, hr]

theorem sos2_ren (h : SameUpTo f g m M) : M.sos2Groups = m.sos2Groups.map (List.map (fun w => (f w.1, w.2))) := by
  unfold Market.sos2Groups
  rw [h.weights nofalse, getD_ren, groupBy_ren _ (WeightVar.ren f) (fun _ => rfl)]
  simp only [List.map_map, Function.comp_def]
  rfl

theorem sos1_ren (h : SameUpTo f g m M) : M.sos1Groups = m.sos1Groups.map (List.map f) := by
  unfold Market.sos1Groups
  rw [h.inters, getD_ren, List.filter_map]
  have : (fun v : InterVar => decide (v.inter ≠ v.link)) ∘ InterVar.ren f = (fun v => decide (v.inter ≠ v.link)) := rfl
  rw [this, groupBy_ren _ (InterVar.ren f) (fun _ => rfl)]
  simp only [List.map_map, Function.comp_def]
  rfl

/-! ### When the program can be assembled -/

/-- the conditions under which `assemble` does not raise -/
def Market.fine (m : Market) : Prop :=
  ¬ (!m.regCon.isEmpty && m.bidReg.isNone && m.interReg.isNone && m.lossReg.isNone) = true ∧
  ¬ (!m.unitCon.isEmpty && m.bidUnit.isNone) = true ∧ ¬ m.noVars = true ∧
  (∀ o ∈ m.objective, o.1 ∈ m.allVars.map LVar.vid) ∧ (∀ r ∈ m.dynRhs.getD [], r.rhsVid ∈ m.allVars.map LVar.vid) ∧
  ((m.conRhs.isEmpty && m.mktRhs.isEmpty && m.dynRhs.isNone) = true ∨
    (m.terms ≠ [] ∧ (∀ t ∈ m.terms, t.vid ∈ m.allVars.map LVar.vid) ∧
      ∀ t ∈ m.terms, ∃ ty r, (t.cid, ty, r) ∈ m.allRows ∧ ty ≠ .other))

theorem solverRows_ok {ts : List Term} {rows : List (Nat × CType × Rhs)} {cs : List Nat}
    (h : ∀ c ∈ cs, ∃ ty r, lookupLast rows c = some (ty, r) ∧ ty ≠ .other) : ∃ out, solverRows ts rows cs = .ok out := by
  induction cs with
  | nil => exact ⟨[], rfl⟩
  | cons c cs ih =>
    obtain ⟨out, ho⟩ := ih (fun d hd => h d (by simp [hd]))
    obtain ⟨ty, r, h1, h2⟩ := h c (by simp)
    simp only [solverRows, h1, h2, if_false, ho]
    exact ⟨_, rfl⟩

theorem assemble_fine (w : ConWF m) : (∃ lp, m.assemble = .ok lp) ↔ m.fine := by
  have hn := allRows_nodup w
  constructor
  · rintro ⟨lp, h⟩
    unfold Market.assemble at h
    split at h
    · cases h
    rename_i h1
    split at h
    · cases h
    rename_i h2
    split at h
    · cases h
    rename_i h3
    split at h
    · cases h
    rename_i h4
    split at h
    · cases h
    rename_i h5
    simp only [Bool.not_eq_true', Bool.not_eq_false, List.all_eq_true, decide_eq_true_eq] at h4 h5
    refine ⟨h1, h2, h3, h4, h5, ?_⟩
    split at h
    · cases h
    rename_i rows hr
    unfold Market.lpRows at hr
    split at hr
    · rename_i h6; exact Or.inl h6
    split at hr
    · cases hr
    rename_i h7
    split at hr
    · cases hr
    rename_i h8
    simp only [Bool.not_eq_true', Bool.not_eq_false, List.all_eq_true, decide_eq_true_eq] at h8
    refine Or.inr ⟨by simpa [List.isEmpty_iff] using h7, h8, ?_⟩
    intro t ht
    obtain ⟨ty, r, a, b, _⟩ := (solverRows_mem hr).1 t.cid (List.mem_dedup.2 (List.mem_map.2 ⟨t, ht, rfl⟩))
    exact ⟨ty, r, lookupLast_mem a, b⟩
  · rintro ⟨h1, h2, h3, h4, h5, h6⟩
    unfold Market.assemble
    rw [if_neg h1, if_neg h2, if_neg h3, if_neg, if_neg]
    · have : ∃ rows, m.lpRows = .ok rows := by
        unfold Market.lpRows
        split
        · exact ⟨_, rfl⟩
        rename_i hc
        rcases h6 with h6 | ⟨h6, h7, h8⟩
        · exact absurd h6 hc
        rw [if_neg (by simpa [List.isEmpty_iff] using h6), if_neg]
        · apply solverRows_ok
          intro c hc
          obtain ⟨t, ht, rfl⟩ := List.mem_map.1 (List.mem_dedup.1 hc)
          obtain ⟨ty, r, a, b⟩ := h8 t ht
          exact ⟨ty, r, lookupLast_of_unique hn a, b⟩
        · simpa using h7
      obtain ⟨rows, hr⟩ := this
      rw [hr]
      exact ⟨_, rfl⟩
    · simpa using h5
    · simpa using h4

theorem isEmpty_get? {α : Type} {d : Dict CKey α} : d.isEmpty = true ↔ ∀ k, d.get? k = none := by
  constructor
  · intro h k; rw [List.isEmpty_iff] at h; subst h; rfl
  · intro h
    cases d with
    | nil => rfl
    | cons e d =>
      have := h e.1
      simp [Dict.get?] at this

theorem isEmpty_ren {α : Type} {d E : Dict CKey α} {r : α → α} (h : ∀ k, ¬ False → E.get? k = (d.get? k).map r) :
    E.isEmpty = d.isEmpty := by
  rw [Bool.eq_iff_iff, isEmpty_get?, isEmpty_get?]
  constructor
  · intro hE k; have := hE k; rw [h k id] at this; simpa using this
  · intro hd k; rw [h k id, hd k]; rfl

theorem isNone_ren {α : Type} {o : Option (List α)} {r : α → α} : (o.map (List.map r)).isNone = o.isNone := by
  cases o <;> rfl

theorem vid_ren (h : SameUpTo f g m M) (wm : ConWF m) (wM : ConWF M) {v : Nat} :
    f v ∈ M.allVars.map LVar.vid ↔ v ∈ m.allVars.map LVar.vid := by
  have hp := (allVars_ren h wm wM).map LVar.vid
  rw [hp.mem_iff, List.map_map]
  simp only [List.mem_map, Function.comp, LVar.ren]
  constructor
  · rintro ⟨a, ha, e⟩; exact ⟨a, ha, h.vars.inj e⟩
  · rintro ⟨a, ha, rfl⟩; exact ⟨a, ha, rfl⟩

theorem fine_ren (h : SameUpTo f g m M) (wm : ConWF m) (wM : ConWF M) : M.fine ↔ m.fine := by
  unfold Market.fine
  have e1 : M.noVars = m.noVars := by
    unfold Market.noVars
    rw [h.bids, h.inters, h.losses nofalse, h.weights nofalse, isEmpty_ren h.deficits]
    simp only [isNone_ren]
  rw [e1, h.bidReg, h.interReg, h.lossReg nofalse, h.bidUnit, isEmpty_ren h.regCon, isEmpty_ren h.unitCon,
    isEmpty_ren h.conRhs, isEmpty_ren h.mktRhs, h.dynRhs nofalse]
  simp only [isNone_ren]
  refine and_congr Iff.rfl (and_congr Iff.rfl (and_congr Iff.rfl (and_congr ?_ (and_congr ?_ (or_congr Iff.rfl ?_)))))
  · constructor
    · intro H o ho
      exact (vid_ren h wm wM).1 (H (f o.1, o.2) ((objective_ren h wm wM).mem_iff.2 (List.mem_map.2 ⟨o, ho, rfl⟩)))
    · intro H o ho
      obtain ⟨a, ha, rfl⟩ := List.mem_map.1 ((objective_ren h wm wM).mem_iff.1 ho)
      exact (vid_ren h wm wM).2 (H a ha)
  · rw [getD_ren]
    simp only [List.forall_mem_map]
    exact forall₂_congr (fun r _ => vid_ren h wm wM)
  · refine and_congr ?_ (and_congr ?_ ?_)
    · rw [ne_eq, ne_eq, ← List.length_eq_zero_iff, (terms_ren h wm wM).length_eq, List.length_map, List.length_eq_zero_iff]
    · simp only [(terms_ren h wm wM).mem_iff, List.forall_mem_map]
      exact forall₂_congr (fun r _ => vid_ren h wm wM)
    · simp only [(terms_ren h wm wM).mem_iff, List.forall_mem_map]
      refine forall₂_congr (fun t _ => ?_)
      constructor
      · rintro ⟨ty, r, hr, hty⟩
        obtain ⟨a, ha, e⟩ := List.mem_map.1 ((allRows_ren h wm wM).mem_iff.1 hr)
        simp only [renRhs, Prod.mk.injEq] at e
        obtain ⟨e1, e2, _⟩ := e
        refine ⟨ty, a.2.2, ?_, hty⟩
        have := h.cons.inj e1
        rw [← this, ← e2]
        exact ha
      · rintro ⟨ty, r, hr, hty⟩
        exact ⟨ty, r.ren f, (allRows_ren h wm wM).mem_iff.2 (List.mem_map.2 ⟨_, hr, rfl⟩), hty⟩

/-! ### Feasible points -/

theorem feasible_iff (w : ConWF m) {lp : Lp} (h : m.assemble = .ok lp) (x : Nat → ℚ) :
    Feasible lp x ↔ (∀ v ∈ m.allVars, v.holds x) ∧
      (∀ r ∈ m.allRows, (∃ t ∈ m.terms, t.cid = r.1) → r.2.1.holds (rowVal m.terms x r.1) (r.2.2.eval x)) ∧
      (∀ s ∈ m.sos2Groups, Sos2 x s) ∧ (∀ s ∈ m.sos1Groups, Sos1 x s) := by
  obtain ⟨h1, h2, h3, h4, h5, h6⟩ := assemble_parts h
  constructor
  · intro hx
    refine ⟨h1 ▸ hx.vars, ?_, h3 ▸ hx.sos2, h4 ▸ hx.sos1⟩
    intro r hr ht
    exact feasible_row w h hx hr ht
  · rintro ⟨a, b, c, d⟩
    refine ⟨h1 ▸ a, ?_, h3 ▸ c, h4 ▸ d⟩
    intro r hr
    rcases h6 with ⟨h7, _⟩ | ⟨_, h7⟩
    · rw [h7] at hr; cases hr
    · obtain ⟨c1, c2, c3⟩ := (solverRows_mem h7).2 r hr
      have := b (r.cid, r.ctype, r.rhs) (lookupLast_mem c3)
        (by obtain ⟨t, ht, e⟩ := List.mem_map.1 (List.mem_dedup.1 c1); exact ⟨t, ht, e⟩)
      unfold LRow.holds
      rw [c2, linVal_groupCoefs]
      exact this

theorem rowVal_ren {f g : Nat → Nat} (hg : Function.Injective g) {x X : Nat → ℚ} (hX : ∀ v, X (f v) = x v) (ts : List Term) (c : Nat) :
    rowVal (ts.map (Term.ren f g)) X (g c) = rowVal ts x c := by
  unfold rowVal
  rw [List.filter_map, List.map_map]
  have e : (fun t : Term => decide (t.cid = g c)) ∘ Term.ren f g = fun t => decide (t.cid = c) := by
    funext t
    simp only [Function.comp, Term.ren, hg.eq_iff]
  rw [e]
  apply sum_map_congr
  intro t _
  simp only [Function.comp, Term.ren, hX]

theorem rhs_ren {x X : Nat → ℚ} (hX : ∀ v, X (f v) = x v) (r : Rhs) : (r.ren f).eval X = r.eval x := by
  cases r with
  | const q => rfl
  | var v => exact hX v

theorem feasible_ren (h : SameUpTo f g m M) (wm : ConWF m) (wM : ConWF M) {lp LP : Lp} (e : m.assemble = .ok lp)
    (E : M.assemble = .ok LP) {x X : Nat → ℚ} (hX : ∀ v, X (f v) = x v) : Feasible LP X ↔ Feasible lp x := by
  rw [feasible_iff wm e, feasible_iff wM E]
  refine and_congr ?_ (and_congr ?_ (and_congr ?_ ?_))
  · simp only [(allVars_ren h wm wM).mem_iff, List.forall_mem_map]
    refine forall₂_congr (fun v _ => ?_)
    simp only [LVar.holds, LVar.ren, hX]
  · simp only [(allRows_ren h wm wM).mem_iff, List.forall_mem_map]
    refine forall₂_congr (fun r _ => ?_)
    have e1 : (∃ t ∈ M.terms, t.cid = (renRhs f g r).1) ↔ ∃ t ∈ m.terms, t.cid = r.1 := by
      simp only [(terms_ren h wm wM).mem_iff, List.mem_map, renRhs]
      constructor
      · rintro ⟨_, ⟨t, ht, rfl⟩, e⟩; exact ⟨t, ht, h.cons.inj e⟩
      · rintro ⟨t, ht, e⟩; exact ⟨_, ⟨t, ht, rfl⟩, congrArg g e⟩
    rw [e1, rowVal_perm (terms_ren h wm wM)]
    simp only [renRhs, rowVal_ren h.cons.inj hX, rhs_ren hX]
  · rw [sos2_ren h]
    simp only [List.forall_mem_map]
    refine forall₂_congr (fun s _ => ?_)
    simp only [Sos2, List.forall_mem_map, hX]
  · rw [sos1_ren h]
    simp only [List.forall_mem_map]
    refine forall₂_congr (fun s _ => ?_)
    simp only [Sos1, List.forall_mem_map, hX, h.vars.inj.eq_iff]

theorem cost_ren (h : SameUpTo f g m M) (wm : ConWF m) (wM : ConWF M) {lp LP : Lp} (e : m.assemble = .ok lp)
    (E : M.assemble = .ok LP) {x X : Nat → ℚ} (hX : ∀ v, X (f v) = x v) : LP.cost X = lp.cost x := by
  unfold Lp.cost linVal
  rw [(assemble_parts e).2.1, (assemble_parts E).2.1, sum_perm (objective_ren h wm wM), List.map_map]
  apply sum_map_congr
  intro o _
  simp only [Function.comp, hX]

/-- every point of the renamed program comes from one of the original program and back -/
theorem points_ren (h : SameUpTo f g m M) (x : Nat → ℚ) : ∃ X : Nat → ℚ, ∀ v, X (f v) = x v :=
  ⟨Function.extend f x 0, fun v => h.vars.inj.extend_apply x 0 v⟩

theorem optimal_ren (h : SameUpTo f g m M) (wm : ConWF m) (wM : ConWF M) {lp LP : Lp} (e : m.assemble = .ok lp)
    (E : M.assemble = .ok LP) {x X : Nat → ℚ} (hX : ∀ v, X (f v) = x v) : Optimal LP X ↔ Optimal lp x := by
  unfold Optimal
  rw [feasible_ren h wm wM e E hX, cost_ren h wm wM e E hX]
  refine and_congr Iff.rfl ⟨fun H y hy => ?_, fun H Y hY => ?_⟩
  · obtain ⟨Y, hY⟩ := points_ren h y
    have := H Y ((feasible_ren h wm wM e E hY).2 hy)
    rwa [cost_ren h wm wM e E hY] at this
  · have hY' : ∀ v, Y (f v) = (fun v => Y (f v)) v := fun _ => rfl
    have := H _ ((feasible_ren h wm wM e E hY').1 hY)
    rwa [cost_ren h wm wM e E hY']

/-! ### What is reported -/

theorem groupSum_ren {α κ : Type} [DecidableEq κ] (key : α → κ) (r : α → α) (hr : ∀ a, key (r a) = key a) (val val' : α → ℚ)
    (hv : ∀ a, val' (r a) = val a) (l : List α) : groupSum key val' (l.map r) = groupSum key val l := by
  unfold groupSum
  have : (l.map r).map key = l.map key := by rw [List.map_map]; exact List.map_congr_left (fun a _ => hr a)
  simp only [List.filter_map, List.map_map, Function.comp_def, hr, hv]

theorem unitDispatch_ren (h : SameUpTo f g m M) {x X : Nat → ℚ} (hX : ∀ v, X (f v) = x v) : M.unitDispatch X = m.unitDispatch x := by
  unfold Market.unitDispatch
  rw [h.bids]
  cases m.bids with
  | none => rfl
  | some bs =>
    simp only [Option.map_some]
    rw [groupSum_ren _ (BidVar.ren f) (fun _ => rfl) (fun b => x b.vid) _ (fun b => hX b.vid)]

theorem interFlows_ren (h : SameUpTo f g m M) {x X : Nat → ℚ} (hX : ∀ v, X (f v) = x v) : M.interFlows X = m.interFlows x := by
  unfold Market.interFlows
  rw [h.inters, h.losses nofalse]
  cases m.inters with
  | none => rfl
  | some vs =>
    simp only [Option.map_some, getD_ren]
    rw [List.flatMap_map]
    congr 1
    apply List.flatMap_congr
    intro v _
    have : ((m.losses.getD []).map (LossVar.ren f)).filter (fun l => decide (l.inter = (InterVar.ren f v).inter ∧ l.link = (InterVar.ren f v).link)) =
        ((m.losses.getD []).filter (fun l => decide (l.inter = v.inter ∧ l.link = v.link))).map (LossVar.ren f) := by
      rw [List.filter_map]; rfl
    rw [this]
    cases (m.losses.getD []).filter (fun l => decide (l.inter = v.inter ∧ l.link = v.link)) with
    | nil => simp only [List.map_nil, InterVar.ren, hX]
    | cons a l => simp only [List.map_cons, List.map_map, InterVar.ren, LossVar.ren, hX, Function.comp_def]

theorem regionSummary_ren (h : SameUpTo f g m M) {x X : Nat → ℚ} (hX : ∀ v, X (f v) = x v) : M.regionSummary X = m.regionSummary x := by
  unfold Market.regionSummary Market.netByRegion
  rw [unitDispatch_ren h hX, interFlows_ren h hX, h.dirs, h.lossShares nofalse, h.units, h.losses nofalse, isNone_ren]

theorem violationDegree_ren (h : SameUpTo f g m M) {x X : Nat → ℚ} (hX : ∀ v, X (f v) = x v) (k : CKey) :
    M.violationDegree X k = m.violationDegree x k := by
  unfold Market.violationDegree
  rw [h.deficits k nofalse]
  cases m.deficits.get? k with
  | none => rfl
  | some d =>
    simp only [Option.map_some, renDef, List.map_map]
    apply sum_map_congr
    intro v _
    exact hX v.vid

end

end Verif
