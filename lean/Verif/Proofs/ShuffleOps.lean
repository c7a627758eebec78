import Verif.Proofs.Shuffle

/-! Every setter, given the same tables with the rows in another order, leads to markets that agree up to the order of rows and ids. -/

namespace Verif

section
variable {f g : Nat → Nat} {m M : Market}

/-! ### Elastic constraints -/

theorem rowsOf_shuf (h : ShufT f g m M) (k : CKey) : TabP (Row.ren g) (m.rowsOf k) (M.rowsOf k) := by
  unfold Market.rowsOf
  have h1 := h.mktRhs k
  have h2 := h.conRhs k
  revert h1
  cases m.mktRhs.get? k <;> cases M.mktRhs.get? k <;> intro h1 <;> first | exact h1.elim | exact h2 | exact h1

/-- costs attached to permuted rows -/
theorem costRows_shuf (k : CKey) {rows R : List Row} (h : R.Perm (rows.map (Row.ren g))) {c C : VCost} (hc : c.sameRows C) :
    (∃ e, costRows k rows c = .error e ∧ costRows k R C = .error e) ∨
    ∃ rs RS, costRows k rows c = .ok rs ∧ costRows k R C = .ok RS ∧ RS.Perm (rs.map (fun r => (r.1.ren g, r.2))) := by
  cases c with
  | num c =>
    cases C with
    | table t => exact hc.elim
    | num C =>
      cases (hc : c = C)
      refine Or.inr ⟨_, _, rfl, rfl, ?_⟩
      refine (h.map _).trans ?_
      rw [List.map_map, List.map_map]
      exact .refl _
  | table t =>
    cases C with
    | num c => exact hc.elim
    | table T =>
      have hp : t.Perm T := hc
      simp only [costRows, hp.nodup_iff]
      split
      · exact Or.inl ⟨_, rfl, rfl⟩
      split
      · exact Or.inl ⟨_, rfl, rfl⟩
      refine Or.inr ⟨_, _, rfl, rfl, ?_⟩
      refine (flatMap_perm h (fun r => ((hp.symm.filter _).map _))).trans ?_
      rw [List.flatMap_map, List.map_flatMap]
      simp only [List.map_map]
      exact .refl _

/-- kinds of violation variables: of an inequality, up and down of an equality -/
inductive DefKind | ineq | up | down

def defRows (rows : List (Row × ℚ)) : List (DefKind × Row × ℚ) :=
  (rows.filter isIneq).map (fun r => (.ineq, r)) ++ (rows.filter isEqual).map (fun r => (.up, r)) ++
    (rows.filter isEqual).map (fun r => (.down, r))

def defCoef : DefKind → CType → ℚ
  | .ineq, t => if t = .ge then 1 else -1
  | .up, _ => -1
  | .down, _ => 1

theorem deficit_index (rows : List (Row × ℚ)) (n : Nat) :
    (deficitVariables rows n).1 = saveIndex (defRows rows) n (fun i r => { vid := i, cost := r.2.2 }) ∧
    (deficitVariables rows n).2 = saveIndex (defRows rows) n (fun i r =>
      { cid := r.2.1.cid, vid := i, coef := defCoef r.1 r.2.1.ctype }) := by
  constructor
  · simp only [deficitVariables, defRows, saveIndex_append, saveIndex_of_map, List.length_append, List.length_map]
    rw [show n + ((rows.filter isIneq).length + (rows.filter isEqual).length) =
      n + (rows.filter isIneq).length + (rows.filter isEqual).length by omega]
  · simp only [deficitVariables, defRows, saveIndex_append, saveIndex_of_map, List.length_append, List.length_map, defCoef]
    rw [show n + ((rows.filter isIneq).length + (rows.filter isEqual).length) =
      n + (rows.filter isIneq).length + (rows.filter isEqual).length by omega]

theorem defRows_perm {rows R : List (Row × ℚ)} (h : R.Perm (rows.map (fun r => (r.1.ren g, r.2)))) :
    (defRows R).Perm ((defRows rows).map (fun r => (r.1, r.2.1.ren g, r.2.2))) := by
  have e1 : (rows.map (fun r => (r.1.ren g, r.2))).filter isIneq = (rows.filter isIneq).map (fun r => (r.1.ren g, r.2)) := by
    rw [List.filter_map]; rfl
  have e2 : (rows.map (fun r => (r.1.ren g, r.2))).filter isEqual = (rows.filter isEqual).map (fun r => (r.1.ren g, r.2)) := by
    rw [List.filter_map]; rfl
  have h1 := h.filter isIneq
  have h2 := h.filter isEqual
  rw [e1] at h1
  rw [e2] at h2
  unfold defRows
  simp only [List.map_append, List.map_map]
  refine List.Perm.append (List.Perm.append ?_ ?_) ?_
  · refine (h1.map _).trans ?_
    rw [List.map_map]; exact .refl _
  · refine (h2.map _).trans ?_
    rw [List.map_map]; exact .refl _
  · refine (h2.map _).trans ?_
    rw [List.map_map]; exact .refl _

theorem defP_set {d D : Dict CKey (List DefVar × List Term)} (h : ∀ k, DefP f g (d.get? k) (D.get? k)) (k0 : CKey)
    {v V : List DefVar × List Term} (hv : DefP f g (some v) (some V)) : ∀ k, DefP f g ((d.set k0 v).get? k) ((D.set k0 V).get? k) := by
  intro k
  by_cases hk : k0 = k
  · subst hk; rw [Dict.get?_set_self, Dict.get?_set_self]; exact hv
  · rw [Dict.get?_set_ne _ _ hk, Dict.get?_set_ne _ _ hk]; exact h k

theorem elastic_shuf (h : Shuf f g m M) (k : CKey) {c C : VCost} (hc : c.sameRows C) : ShufR (m.makeElastic k c) (M.makeElastic k C) := by
  unfold Market.makeElastic
  have hro := rowsOf_shuf h.tabs k
  cases hm : m.rowsOf k with
  | none =>
    rw [hm] at hro
    rw [hro.none_iff.2 rfl]
    exact h.same _
  | some rows =>
    obtain ⟨R, hR, hp⟩ := hro.some_of hm
    have hrow : ∀ r ∈ rows, r.cid < m.nextCon := by
      intro r hr
      unfold Market.rowsOf at hm
      cases hq : m.mktRhs.get? k with
      | some q => rw [hq] at hm; injection hm with hm; subst hm; exact h.bnd.mktRhs k _ hq r hr
      | none => rw [hq] at hm; exact h.bnd.conRhs k _ hm r hr
    rw [hR]
    dsimp only
    rcases costRows_shuf k hp hc with ⟨e, h1, h2⟩ | ⟨rs, RS, h1, h2, h3⟩
    · rw [h1, h2]; exact h.same _
    · rw [h1, h2]
      dsimp only
      have he : RS.isEmpty = rs.isEmpty := by rw [isEmpty_perm h3, List.isEmpty_map]
      rw [he]
      split
      · exact h.same _
      have hrs : ∀ r ∈ rs, r.1.cid < m.nextCon := by
        intro r hr
        cases c with
        | num q =>
          simp only [costRows, Except.ok.injEq] at h1
          subst h1
          obtain ⟨r', hr', rfl⟩ := List.mem_map.1 hr
          exact hrow _ hr'
        | table t =>
          simp only [costRows] at h1
          split at h1
          · cases h1
          split at h1
          · cases h1
          simp only [Except.ok.injEq] at h1
          subst h1
          obtain ⟨r', hr', hr2⟩ := List.mem_flatMap.1 hr
          obtain ⟨_, _, rfl⟩ := List.mem_map.1 hr2
          exact hrow _ hr'
      obtain ⟨e1, e2⟩ := deficit_index rs m.nextVar
      obtain ⟨E1, E2⟩ := deficit_index RS m.nextVar
      obtain ⟨σ, hσ, hF⟩ := saveIndex_perm (defRows_perm h3) m.nextVar
      rw [List.length_map] at hσ
      obtain ⟨a1, a2, a3⟩ := hσ.after h.vars
      have p1 : (deficitVariables RS M.nextVar).1.Perm ((deficitVariables rs m.nextVar).1.map (DefVar.ren (σ ∘ f))) := by
        rw [h.nextV, E1, e1, map_saveIndex]
        refine (hF _).trans ?_
        rw [saveIndex_of_map]
        refine .of_eq (saveIndex_ext (fun i r hi _ _ => ?_))
        simp only [DefVar.ren, a3 i hi]
      have p2 : (deficitVariables RS M.nextVar).2.Perm ((deficitVariables rs m.nextVar).2.map (Term.ren (σ ∘ f) g)) := by
        rw [h.nextV, E2, e2, map_saveIndex]
        refine (hF _).trans ?_
        rw [saveIndex_of_map]
        refine .of_eq (saveIndex_ext (fun i r hi _ _ => ?_))
        simp only [Term.ren, a3 i hi, Row.ren]
      have hv : (deficitVariables rs m.nextVar).1.map DefVar.vid = List.range' m.nextVar (defRows rs).length := by
        rw [e1, map_saveIndex, saveIndex_ids]
      have hv1 : ∀ v ∈ (deficitVariables rs m.nextVar).1, v.vid < m.nextVar + (defRows rs).length := by
        intro v hv'
        have : v.vid ∈ (deficitVariables rs m.nextVar).1.map DefVar.vid := List.mem_map.2 ⟨v, hv', rfl⟩
        rw [hv] at this
        exact (List.mem_range'_1.1 this).2
      have hv2 : ∀ t ∈ (deficitVariables rs m.nextVar).2, t.vid < m.nextVar + (defRows rs).length ∧ t.cid < m.nextCon := by
        intro t ht
        rw [e2] at ht
        obtain ⟨i, r, hr, _, hi, rfl⟩ := mem_saveIndex_lt ht
        refine ⟨hi, ?_⟩
        have hr' : r.2 ∈ rs := by
          unfold defRows at hr
          simp only [List.mem_append, List.mem_map, List.mem_filter] at hr
          rcases hr with (⟨q, hq, rfl⟩ | ⟨q, hq, rfl⟩) | ⟨q, hq, rfl⟩ <;> exact hq.1
        exact hrs _ hr'
      have hT := h.tabs.congr (f' := σ ∘ f) (g' := g) h.bnd a2 (fun _ _ => rfl)
      have hb := h.bnd.mono (Nat.le_add_right m.nextVar (defRows rs).length) (le_refl m.nextCon)
      have hT' : ShufT (σ ∘ f) g { m with deficits := m.deficits.set k (deficitVariables rs m.nextVar) }
          { M with deficits := M.deficits.set k (deficitVariables RS M.nextVar) } :=
        { hT with deficits := defP_set hT.deficits k ⟨p1, p2⟩ }
      have hb' : Bnd (m.nextVar + (defRows rs).length) m.nextCon { m with deficits := m.deficits.set k (deficitVariables rs m.nextVar) } :=
        { hb with
          deficits := by
            intro k' e he'
            by_cases hk : k = k'
            · subst hk; rw [Dict.get?_set_self] at he'; injection he' with he'; subst he'; exact ⟨hv1, hv2⟩
            · rw [Dict.get?_set_ne _ _ hk] at he'; exact hb.deficits k' e he' }
      have hemp : (deficitVariables RS M.nextVar).1.isEmpty = (deficitVariables rs m.nextVar).1.isEmpty := by
        rw [isEmpty_perm p1, List.isEmpty_map]
      rw [hemp]
      have hlen : (deficitVariables rs m.nextVar).1.length = (defRows rs).length := by rw [e1, length_saveIndex]
      split
      · rename_i hz
        rw [List.isEmpty_iff_length_eq_zero, hlen] at hz
        rw [hz] at a1 hb'
        exact ⟨⟨σ ∘ f, g, hT', h.nextV, h.nextC, a1, h.cons, hb'⟩, rfl⟩
      · rename_i hz
        rw [List.isEmpty_iff_length_eq_zero, hlen] at hz
        have q1 : ((deficitVariables RS M.nextVar).1.map DefVar.vid).Perm (((deficitVariables rs m.nextVar).1.map DefVar.vid).map (σ ∘ f)) := by
          refine (p1.map _).trans ?_
          rw [List.map_map, List.map_map]; exact .refl _
        have q2 : ((deficitVariables rs m.nextVar).1.map DefVar.vid).map (σ ∘ f) = ((deficitVariables rs m.nextVar).1.map DefVar.vid).map σ := by
          apply List.map_congr_left
          intro i hi
          rw [hv] at hi
          exact a3 i (List.mem_range'_1.1 hi).1
        rw [q2] at q1
        obtain ⟨n1, n2⟩ := nextAfter_moved hσ q1 (.of_eq hv) (Nat.pos_of_ne_zero hz)
        rw [n1, n2]
        exact ⟨⟨σ ∘ f, g, { hT' with }, rfl, h.nextC, a1, h.cons, { hb' with }⟩, rfl⟩

theorem elasticOpt_shuf (h : Shuf f g m M) (k : CKey) {c C : Option VCost} (hc : optSame VCost.sameRows c C) :
    ShufR (m.elasticOpt k c) (M.elasticOpt k C) := by
  cases c <;> cases C <;> first | exact hc.elim | exact h.same _ | exact elastic_shuf h k hc

theorem has_shuf {α : Type} {r : α → α} {d D : Dict CKey (List α)} (h : ∀ k, TabP r (d.get? k) (D.get? k)) (k : CKey) : D.has k = d.has k :=
  (h k).isSome

theorem elasticIfPresent_shuf (h : Shuf f g m M) (k : CKey) {c C : VCost} (hc : c.sameRows C) :
    ShufR (m.elasticIfPresent k c) (M.elasticIfPresent k C) := by
  unfold Market.elasticIfPresent
  rw [has_shuf h.tabs.unitCon k]
  split
  · exact elastic_shuf h k hc
  · exact h.same _

/-! ### Checks -/

theorem knows_shuf (h : ShufT f g m M) (u : String) : M.knows u = m.knows u := by
  unfold Market.knows
  rw [decide_eq_decide]
  exact (h.units.map _).mem_iff

theorem bidi_shuf (h : ShufT f g m M) : M.bidi.Perm m.bidi := by
  unfold Market.bidi bidiOf
  have hp := h.units.map (fun u : UnitInfo => u.unit)
  refine (hp.filter _).trans (.of_eq (List.filter_congr (fun u _ => ?_)))
  rw [hp.count_eq]

theorem mem_bidi (h : ShufT f g m M) (u : String) : u ∈ M.bidi ↔ u ∈ m.bidi := (bidi_shuf h).mem_iff

theorem biInputsOk_perm {b B us US : List String} (hb : ∀ u, u ∈ B ↔ u ∈ b) (hu : US.Perm us) : biInputsOk B US = biInputsOk b us := by
  unfold biInputsOk
  have e : US.filter (fun u => decide (u ∈ B)) = US.filter (fun u => decide (u ∈ b)) := by simp only [hb]
  have hp := hu.filter (fun u => decide (u ∈ b))
  dsimp only
  rw [e, hp.length_eq, (dedup_perm hp).length_eq]

theorem checks_perm {α κ : Type} [DecidableEq κ] {l L : List α} (h : L.Perm l) {p P : α → Bool} (hp : ∀ a, P a = p a) (key : α → κ) :
    (L.all P && decide ((L.map key).Nodup)) = (l.all p && decide ((l.map key).Nodup)) := by
  rw [all_perm h, nodup_perm (h.map key)]
  congr 2
  funext a
  exact hp a

/-! ### Builders -/

section builders
variable {n : Nat}

/-- a table of constraints numbered along a list of rows -/
theorem UnitP.of_index {α : Type} {L L' : List α} (hL : L'.Perm L) (F : α → Row) (G : α → List ConUnit) {t T : List Row × List ConUnit}
    (h1 : t.1.Perm (saveIndex L n (fun i a => { F a with cid := i })))
    (h2 : t.2.Perm (saveIndex L n (fun i a => (G a).map (fun c => { c with cid := i }))).flatten)
    (H1 : T.1.Perm (saveIndex L' n (fun i a => { F a with cid := i })))
    (H2 : T.2.Perm (saveIndex L' n (fun i a => (G a).map (fun c => { c with cid := i }))).flatten) : UnitP n t T where
  ex := by
    obtain ⟨σ, hσ, hF⟩ := saveIndex_perm hL n
    refine ⟨σ, L.length, hσ, ?_, ?_, ?_⟩
    · refine H1.trans ((hF _).trans (List.Perm.trans ?_ (h1.map _).symm))
      rw [map_saveIndex]
      exact .refl _
    · refine H2.trans ((hF _).flatten.trans (List.Perm.trans ?_ (h2.map _).symm))
      rw [List.map_flatten, map_saveIndex]
      refine .of_eq (congrArg _ (saveIndex_ext (fun i a _ _ _ => ?_)))
      rw [List.map_map]
      rfl
    · refine (h1.map _).trans ?_
      rw [map_saveIndex, saveIndex_ids]
  sub := by
    intro c hc
    obtain ⟨l, hl, hc'⟩ := List.mem_flatten.1 (h2.mem_iff.1 hc)
    obtain ⟨i, a, ha, rfl⟩ := mem_saveIndex.1 hl
    obtain ⟨c', _, rfl⟩ := List.mem_map.1 hc'
    exact ⟨_, h1.mem_iff.2 (mem_saveIndex.2 ⟨i, a, ha, rfl⟩), rfl⟩

theorem flatten_single {α β : Type} (l : List α) (n : Nat) (F : Nat → α → β) : (saveIndex l n (fun i a => [F i a])).flatten = saveIndex l n F := by
  induction l generalizing n with
  | nil => rfl
  | cons a l ih => simp only [saveIndex, List.flatten_cons, ih]; rfl

theorem createConstraints_shuf {l L : List Lim} (h : L.Perm l) (n : Nat) (d : CType) :
    UnitP n (createConstraints l n d) (createConstraints L n d) := by
  refine UnitP.of_index h (fun l => { cid := 0, ctype := d, rhs := l.val })
    (fun l => [{ cid := 0, unit := l.unit, service := l.service, dtype := l.dtype, coef := 1 }]) (.refl _) ?_ (.refl _) ?_
  · simp only [List.map_cons, List.map_nil, flatten_single]; exact .refl _
  · simp only [List.map_cons, List.map_nil, flatten_single]; exact .refl _

theorem capacity_shuf {l L : List Lim} (h : L.Perm l) (n : Nat) {b B : List String} (hb : ∀ u, u ∈ B ↔ u ∈ b) :
    UnitP n (capacityConstraints l n b) (capacityConstraints L n B) := by
  refine UnitP.of_index h (fun l => { cid := 0, ctype := .le, rhs := l.val })
    (fun l => [{ cid := 0, unit := l.unit, service := l.service, dtype := l.dtype, coef := if l.dtype = .load ∧ l.unit ∈ b then -1 else 1 }])
    (.refl _) ?_ (.refl _) ?_
  · simp only [List.map_cons, List.map_nil, flatten_single, capacityConstraints, createConstraints, map_saveIndex]; exact .refl _
  · simp only [List.map_cons, List.map_nil, flatten_single, capacityConstraints, createConstraints, map_saveIndex, hb]; exact .refl _

/-- rows of the fast start constraints with their groups -/
def fsTagged (ps : List FsProfile) : List (CType × Lim) :=
  (fsModeOne ps).map (fun l => (.le, l)) ++ (fsModeTwo ps).map (fun l => (.ge, l)) ++ (fsModeTwo ps).map (fun l => (.le, l)) ++
    (fsModeThree ps).map (fun l => (.ge, l)) ++ (fsModeFour ps).map (fun l => (.ge, l))

theorem fsTagged_perm {ps PS : List FsProfile} (h : PS.Perm ps) : (fsTagged PS).Perm (fsTagged ps) := by
  unfold fsTagged fsModeOne fsModeTwo fsModeThree fsModeFour
  exact ((((((h.filter _).map _).map _).append (((h.filter _).map _).map _)).append (((h.filter _).map _).map _)).append
    (((h.filter _).map _).map _)).append (((h.filter _).map _).map _)

theorem fastStart_index (ps : List FsProfile) (n : Nat) :
    (fastStartConstraints ps n).1 = saveIndex (fsTagged ps) n (fun i a => { cid := i, ctype := a.1, rhs := a.2.val }) ∧
    (fastStartConstraints ps n).2.Perm (saveIndex (fsTagged ps) n (fun i a =>
      { cid := i, unit := a.2.unit, service := a.2.service, dtype := a.2.dtype, coef := 1 })) := by
  constructor
  · simp only [fastStartConstraints, createConstraints, fsTagged, saveIndex_append, saveIndex_of_map, List.length_append, List.length_map,
      Nat.add_assoc]
  · simp only [fastStartConstraints, createConstraints, fsTagged, saveIndex_append, saveIndex_of_map, List.length_append, List.length_map,
      Nat.add_assoc]
    refine List.Perm.append_right _ (List.Perm.append_right _ ?_)
    rw [List.append_assoc, List.append_assoc]
    exact List.Perm.append_left _ List.perm_append_comm

theorem fastStart_shuf {ps PS : List FsProfile} (h : PS.Perm ps) (n : Nat) : UnitP n (fastStartConstraints ps n) (fastStartConstraints PS n) := by
  refine UnitP.of_index (fsTagged_perm h) (fun l => { cid := 0, ctype := l.1, rhs := l.2.val })
    (fun l => [{ cid := 0, unit := l.2.unit, service := l.2.service, dtype := l.2.dtype, coef := 1 }]) (.of_eq (fastStart_index ps n).1) ?_
    (.of_eq (fastStart_index PS n).1) ?_
  · simp only [List.map_cons, List.map_nil, flatten_single]; exact (fastStart_index ps n).2
  · simp only [List.map_cons, List.map_nil, flatten_single]; exact (fastStart_index PS n).2

theorem slopes_shuf {ts TS : List Trap} (h : TS.Perm ts) (n : Nat) {t T : List Row × List ConUnit} {G G' : Trap → List ConUnit}
    (ht1 : t.1 = saveIndex ts n (fun i t => { cid := i, ctype := .le, rhs := t.emax }) ++
      saveIndex ts (n + ts.length) (fun i t => { cid := i, ctype := .ge, rhs := t.emin }))
    (ht2 : t.2 = (saveIndex ts n (fun i t => (G t).map (fun c => { c with cid := i }))).flatten ++
      (saveIndex ts (n + ts.length) (fun i t => (G' t).map (fun c => { c with cid := i }))).flatten)
    (hT1 : T.1 = saveIndex TS n (fun i t => { cid := i, ctype := .le, rhs := t.emax }) ++
      saveIndex TS (n + TS.length) (fun i t => { cid := i, ctype := .ge, rhs := t.emin }))
    (hT2 : T.2 = (saveIndex TS n (fun i t => (G t).map (fun c => { c with cid := i }))).flatten ++
      (saveIndex TS (n + TS.length) (fun i t => (G' t).map (fun c => { c with cid := i }))).flatten) : UnitP n t T := by
  have hp : (TS.map (fun t => (true, t)) ++ TS.map (fun t => (false, t))).Perm (ts.map (fun t => (true, t)) ++ ts.map (fun t => (false, t))) :=
    (h.map _).append (h.map _)
  refine UnitP.of_index hp (fun a => if a.1 then { cid := 0, ctype := .le, rhs := a.2.emax } else { cid := 0, ctype := .ge, rhs := a.2.emin })
    (fun a => if a.1 then G a.2 else G' a.2) ?_ ?_ ?_ ?_
  · rw [ht1, saveIndex_append, saveIndex_of_map, saveIndex_of_map, List.length_map]; exact .refl _
  · rw [ht2, saveIndex_append, saveIndex_of_map, saveIndex_of_map, List.length_map, List.flatten_append]; exact .refl _
  · rw [hT1, saveIndex_append, saveIndex_of_map, saveIndex_of_map, List.length_map]; exact .refl _
  · rw [hT2, saveIndex_append, saveIndex_of_map, saveIndex_of_map, List.length_map, List.flatten_append]; exact .refl _

theorem jcUpper_cid (b : List String) (i : Nat) (t : Trap) : jcUpperMap b i t = (jcUpperMap b 0 t).map (fun c => { c with cid := i }) := by
  unfold jcUpperMap
  split_ifs <;> rfl

theorem jcLower_cid (b : List String) (i : Nat) (t : Trap) : jcLowerMap b i t = (jcLowerMap b 0 t).map (fun c => { c with cid := i }) := by
  unfold jcLowerMap
  split_ifs <;> rfl

theorem jointCapacity_shuf {ts TS : List Trap} (h : TS.Perm ts) {b B : List String} (hb : ∀ u, u ∈ B ↔ u ∈ b) (n : Nat) :
    UnitP n (jointCapacityConstraints ts b n) (jointCapacityConstraints TS B n) := by
  have e1 : jcUpperMap B = jcUpperMap b := by funext i t; simp only [jcUpperMap, hb]
  have e2 : jcLowerMap B = jcLowerMap b := by funext i t; simp only [jcLowerMap, hb]
  refine slopes_shuf (G := jcUpperMap b 0) (G' := jcLowerMap b 0) h n rfl ?_ rfl ?_
  · show (saveIndex ts n (jcUpperMap b)).flatten ++ (saveIndex ts _ (jcLowerMap b)).flatten = _
    simp only [← jcUpper_cid, ← jcLower_cid]
  · show (saveIndex TS n (jcUpperMap B)).flatten ++ (saveIndex TS _ (jcLowerMap B)).flatten = _
    simp only [← jcUpper_cid, ← jcLower_cid, e1, e2]

theorem energyReg_shuf {ts TS : List Trap} (h : TS.Perm ts) (n : Nat) : UnitP n (energyRegConstraints ts n) (energyRegConstraints TS n) :=
  slopes_shuf (G := fun t => [⟨0, t.unit, .energy, t.dtype, 1⟩, ⟨0, t.unit, t.service, t.dtype, t.upperCoef⟩])
    (G' := fun t => [⟨0, t.unit, .energy, t.dtype, 1⟩, ⟨0, t.unit, t.service, t.dtype, -1 * t.lowerCoef⟩]) h n rfl rfl rfl rfl

/-- splitting a list in two and joining the parts again -/
theorem map_split {α β : Type} (l : List α) (p q : α → Bool) (hpq : ∀ a, q a = !p a) (F G : α → β) :
    ((l.filter p).map F ++ (l.filter q).map G).Perm (l.map (fun a => if p a then F a else G a)) := by
  induction l with
  | nil => exact .refl _
  | cons a l ih =>
    simp only [List.filter_cons, hpq a, List.map_cons]
    cases hp : p a
    · simp only [Bool.false_eq_true, if_false, Bool.not_false, if_true, List.map_cons]
      exact List.perm_middle.trans (ih.cons _)
    · simp only [if_true, Bool.not_true, Bool.false_eq_true, if_false, List.map_cons, List.cons_append]
      exact ih.cons _

theorem flatMap_split {α β : Type} (l : List α) (p q : α → Bool) (hpq : ∀ a, q a = !p a) (F G : α → List β) :
    ((l.filter p).flatMap F ++ (l.filter q).flatMap G).Perm (l.flatMap (fun a => if p a then F a else G a)) := by
  have := (map_split l p q hpq F G).flatten
  simpa only [List.flatten_append, List.flatMap_def] using this

theorem flatMap_pair {α β : Type} (l : List α) (F G : α → β) : (l.map F ++ l.map G).Perm (l.flatMap (fun a => [F a, G a])) := by
  induction l with
  | nil => exact .refl _
  | cons a l ih =>
    simp only [List.map_cons, List.cons_append, List.flatMap_cons, List.nil_append]
    exact (List.perm_middle.trans (ih.cons _)).cons _

/-- the map rows of a joint ramping constraint -/
def jrMap (s : JrSettings) (r : RegRate) : List ConUnit :=
  [{ cid := 0, unit := r.unit, service := s.service, dtype := r.dtype, coef := s.regCoef },
   { cid := 0, unit := r.unit, service := .energy, dtype := r.dtype, coef := 1 }]

theorem jr_index (rs : List RegRate) (di : ℚ) (n : Nat) (s s' : JrSettings) :
    (jrConstructor rs di n s s').1.Perm (saveIndex rs n (fun i r =>
      { (if r.dtype = .generator then ({ cid := 0, ctype := s.ctype, rhs := r.init + s.dir * (r.rate * di / 60) } : Row)
         else { cid := 0, ctype := s'.ctype, rhs := r.init + s'.dir * (r.rate * di / 60) }) with cid := i })) ∧
    (jrConstructor rs di n s s').2.Perm (saveIndex rs n (fun i r =>
      (if r.dtype = .generator then jrMap s r else jrMap s' r).map (fun c => { c with cid := i }))).flatten := by
  have hpq : ∀ c : Nat × RegRate, decide (c.2.dtype = .load) = !decide (c.2.dtype = .generator) := by
    intro c; cases c.2.dtype <;> rfl
  constructor
  · unfold jrConstructor jrGeneric
    dsimp only
    refine (map_split _ _ _ hpq _ _).trans (.of_eq ?_)
    rw [map_saveIndex]
    refine saveIndex_ext (fun i r _ _ _ => ?_)
    dsimp only
    by_cases hd : r.dtype = .generator <;> simp [hd]
  · unfold jrConstructor jrGeneric
    dsimp only
    refine ((flatMap_pair _ _ _).append (flatMap_pair _ _ _)).trans ((flatMap_split _ _ _ hpq _ _).trans (.of_eq ?_))
    rw [List.flatMap_def, map_saveIndex]
    congr 1
    refine saveIndex_ext (fun i r _ _ _ => ?_)
    dsimp only
    by_cases hd : r.dtype = .generator <;> simp [hd, jrMap]

theorem jr_shuf {rs RS : List RegRate} (h : RS.Perm rs) (di : ℚ) (n : Nat) (s s' : JrSettings) :
    UnitP n (jrConstructor rs di n s s') (jrConstructor RS di n s s') :=
  UnitP.of_index h _ _ (jr_index rs di n s s').1 (jr_index rs di n s s').2 (jr_index RS di n s s').1 (jr_index RS di n s s').2

end builders

end

end Verif
