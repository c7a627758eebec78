import Verif.Spec.Elastic
import Verif.Proofs.Refs
import Verif.Proofs.Exact
import Verif.Proofs.Setters

/-! # Elastic constraints -/

namespace Verif

/-- A violation variable together with the row it relaxes, its cost and its sign in the row. -/
structure Slot where
  vid : Nat
  row : Row
  cost : ℚ
  sg : ℚ
  deriving DecidableEq, Repr

def slots (rs : List (Row × ℚ)) (n : Nat) : List Slot :=
  saveIndex (rs.filter isIneq) n (fun i r => ⟨i, r.1, r.2, if r.1.ctype = .ge then 1 else -1⟩) ++
  saveIndex (rs.filter isEqual) (n + (rs.filter isIneq).length) (fun i r => ⟨i, r.1, r.2, -1⟩) ++
  saveIndex (rs.filter isEqual) (n + (rs.filter isIneq).length + (rs.filter isEqual).length)
    (fun i r => ⟨i, r.1, r.2, 1⟩)

theorem slots_vars (rs : List (Row × ℚ)) (n : Nat) :
    (deficitVariables rs n).1 = (slots rs n).map (fun s => ⟨s.vid, s.cost⟩) := by
  simp [deficitVariables, slots, map_saveIndex]

theorem slots_terms (rs : List (Row × ℚ)) (n : Nat) :
    (deficitVariables rs n).2 = (slots rs n).map (fun s => ⟨s.row.cid, s.vid, s.sg⟩) := by
  simp [deficitVariables, slots, map_saveIndex]

theorem slots_nodup (rs : List (Row × ℚ)) (n : Nat) : ((slots rs n).map Slot.vid).Nodup := by
  have h := deficit_vids rs n
  rw [slots_vars, List.map_map] at h
  have : (DefVar.vid ∘ fun s : Slot => (⟨s.vid, s.cost⟩ : DefVar)) = Slot.vid := rfl
  rw [this] at h
  rw [h]
  exact List.nodup_range'

theorem filter_nil_of {α : Type} {l : List α} {p : α → Bool} (h : ∀ a ∈ l, p a = false) : l.filter p = [] := by
  rw [List.filter_eq_nil_iff]
  intro a ha
  simp [h a ha]

/-- slots of one row -/
theorem slots_row {rs : List (Row × ℚ)} (hn : (rs.map (fun r => r.1.cid)).Nodup) (n : Nat) {r : Row × ℚ} (hr : r ∈ rs) :
    (∃ i, (r.1.ctype = .ge ∧ (slots rs n).filter (fun s => decide (s.row.cid = r.1.cid)) = [⟨i, r.1, r.2, 1⟩]) ∨
      (r.1.ctype = .le ∧ (slots rs n).filter (fun s => decide (s.row.cid = r.1.cid)) = [⟨i, r.1, r.2, -1⟩])) ∨
    (∃ i j, r.1.ctype = .eq ∧
      (slots rs n).filter (fun s => decide (s.row.cid = r.1.cid)) = [⟨i, r.1, r.2, -1⟩, ⟨j, r.1, r.2, 1⟩]) ∨
    (r.1.ctype = .other ∧ (slots rs n).filter (fun s => decide (s.row.cid = r.1.cid)) = []) := by
  have key : ∀ (p : Row × ℚ → Bool) (k : Nat) (sg : Row × ℚ → ℚ),
      (p r = true → ∃ i, (saveIndex (rs.filter p) k (fun i r => (⟨i, r.1, r.2, sg r⟩ : Slot))).filter
        (fun s => decide (s.row.cid = r.1.cid)) = [⟨i, r.1, r.2, sg r⟩]) ∧
      (p r = false → (saveIndex (rs.filter p) k (fun i r => (⟨i, r.1, r.2, sg r⟩ : Slot))).filter
        (fun s => decide (s.row.cid = r.1.cid)) = []) := by
    intro p k sg
    have inj : ∀ a ∈ rs, a.1.cid = r.1.cid → a = r := fun a ha e => List.inj_on_of_nodup_map hn ha hr e
    constructor
    · intro hp
      have hm : r ∈ rs.filter p := List.mem_filter.2 ⟨hr, hp⟩
      obtain ⟨i, hi⟩ := List.getElem?_of_mem hm
      refine ⟨k + i, ?_⟩
      have hmem : (⟨k + i, r.1, r.2, sg r⟩ : Slot) ∈ saveIndex (rs.filter p) k (fun i r => (⟨i, r.1, r.2, sg r⟩ : Slot)) :=
        mem_saveIndex.2 ⟨i, r, hi, rfl⟩
      have hnd : ((saveIndex (rs.filter p) k (fun i r => (⟨i, r.1, r.2, sg r⟩ : Slot))).map (fun s => s.row.cid)).Nodup := by
        rw [map_saveIndex]
        rw [saveIndex_vals (rs.filter p) k (fun r => r.1.cid)]
        exact hn.sublist (List.filter_sublist.map _)
      exact filter_key_unique hnd hmem
    · intro hp
      apply filter_nil_of
      intro s hs
      obtain ⟨i, a, ha, rfl⟩ := mem_saveIndex.1 hs
      have ha' := List.mem_filter.1 (List.mem_of_getElem? ha)
      rw [decide_eq_false_iff_not]
      intro e
      rw [inj a ha'.1 e] at ha'
      rw [hp] at ha'
      exact absurd ha'.2 (by simp)
  have k1 := key isIneq n (fun r => if r.1.ctype = .ge then 1 else -1)
  have k2 := key isEqual (n + (rs.filter isIneq).length) (fun _ => -1)
  have k3 := key isEqual (n + (rs.filter isIneq).length + (rs.filter isEqual).length) (fun _ => 1)
  simp only [slots, List.filter_append]
  cases hc : r.1.ctype with
  | le =>
    obtain ⟨i, hi⟩ := k1.1 (by simp [isIneq, hc])
    rw [hi, k2.2 (by simp [isEqual, hc]), k3.2 (by simp [isEqual, hc])]
    exact Or.inl ⟨i, Or.inr ⟨rfl, by simp [hc]⟩⟩
  | ge =>
    obtain ⟨i, hi⟩ := k1.1 (by simp [isIneq, hc])
    rw [hi, k2.2 (by simp [isEqual, hc]), k3.2 (by simp [isEqual, hc])]
    exact Or.inl ⟨i, Or.inl ⟨rfl, by simp [hc]⟩⟩
  | eq =>
    obtain ⟨i, hi⟩ := k2.1 (by simp [isEqual, hc])
    obtain ⟨j, hj⟩ := k3.1 (by simp [isEqual, hc])
    rw [k1.2 (by simp [isIneq, hc]), hi, hj]
    exact Or.inr (Or.inl ⟨i, j, rfl, by simp⟩)
  | other =>
    rw [k1.2 (by simp [isIneq, hc]), k2.2 (by simp [isEqual, hc]), k3.2 (by simp [isEqual, hc])]
    exact Or.inr (Or.inr ⟨rfl, rfl⟩)

theorem slots_mem {rs : List (Row × ℚ)} {n : Nat} {s : Slot} (h : s ∈ slots rs n) : (s.row, s.cost) ∈ rs ∧ n ≤ s.vid := by
  unfold slots at h
  simp only [List.mem_append] at h
  rcases h with (h | h) | h <;>
  · obtain ⟨i, a, ha, rfl⟩ := mem_saveIndex.1 h
    exact ⟨List.mem_of_mem_filter (List.mem_of_getElem? ha), by simp only []; omega⟩

/-- sums over slots, arranged by row -/
theorem sum_slots {rs : List (Row × ℚ)} (hn : (rs.map (fun r => r.1.cid)).Nodup) (n : Nat) (g : Slot → ℚ) :
    ((slots rs n).map g).sum =
      (rs.map (fun r => (((slots rs n).filter (fun s => decide (s.row.cid = r.1.cid))).map g).sum)).sum := by
  have h1 : (rs.map (fun r => (((slots rs n).filter (fun s => decide (s.row.cid = r.1.cid))).map g).sum)).sum =
      (rs.map (fun r => ((slots rs n).map (fun s => if s.row.cid = r.1.cid then g s else 0)).sum)).sum := by
    apply sum_map_congr
    intro r _
    rw [sum_filter_eq_ite]
    simp
  rw [h1, sum_comm]
  apply sum_map_congr
  intro s hs
  have hm := (slots_mem hs).1
  have hu : rs.filter (fun r => decide (r.1.cid = s.row.cid)) = [(s.row, s.cost)] := filter_key_unique hn hm
  have : (rs.map (fun r => if s.row.cid = r.1.cid then g s else 0)).sum =
      ((rs.filter (fun r => decide (r.1.cid = s.row.cid))).map (fun _ => g s)).sum := by
    rw [sum_filter_eq_ite]
    apply sum_map_congr
    intro r _
    simp [eq_comm]
  rw [this, hu]
  simp

/-! ## The original left hand side does not involve the violation variables -/

theorem deficitVids_sub {m : Market} {k : CKey} {v : Nat} (h : v ∈ m.deficitVids k) : v ∈ m.defVids := by
  unfold Market.deficitVids at h
  unfold Market.defVids
  cases hd : m.deficits.get? k with
  | none => simp [hd] at h
  | some d =>
    rw [hd] at h
    exact List.mem_flatMap.2 ⟨_, Dict.mem_of_get? hd, h⟩

theorem Dict.erase_none {κ α : Type} [DecidableEq κ] {d : Dict κ α} {k : κ} (h : d.get? k = none) : d.erase k = d := by
  induction d with
  | nil => rfl
  | cons e d ih =>
    obtain ⟨k', v'⟩ := e
    rw [Dict.get?] at h
    rw [Dict.erase]
    split at h
    · exact absurd h (by simp)
    · rename_i hne
      rw [if_neg hne, ih h]

theorem Dict.none_of_not_mem {κ α : Type} [DecidableEq κ] {d : Dict κ α} {k : κ} (h : k ∉ d.map Prod.fst) : d.get? k = none := by
  induction d with
  | nil => rfl
  | cons e d ih =>
    obtain ⟨k', v'⟩ := e
    simp only [List.map_cons, List.mem_cons, not_or] at h
    rw [Dict.get?, if_neg (fun hc => h.1 hc.symm)]
    exact ih h.2

theorem Dict.perm_erase {κ α : Type} [DecidableEq κ] {d : Dict κ α} (hd : d.NodupKeys) {k : κ} {v : α}
    (h : d.get? k = some v) : List.Perm d ((k, v) :: d.erase k) := by
  induction d with
  | nil => exact absurd h (by simp [Dict.get?])
  | cons e d ih =>
    obtain ⟨k', v'⟩ := e
    have hn : k' ∉ d.map Prod.fst ∧ (d.map Prod.fst).Nodup := List.nodup_cons.1 hd
    rw [Dict.get?] at h
    rw [Dict.erase]
    split at h
    · rename_i hk
      subst hk
      cases h
      rw [if_pos rfl, Dict.erase_none (Dict.none_of_not_mem hn.1)]
    · rename_i hne
      rw [if_neg hne]
      exact ((ih hn.2 h).cons _).trans (List.Perm.swap _ _ _)

theorem mem_erase_ne {κ α : Type} [DecidableEq κ] {d : Dict κ α} {k : κ} {e : κ × α} (h : e ∈ d.erase k) : e.1 ≠ k := by
  induction d with
  | nil => exact absurd h (by simp [Dict.erase])
  | cons e' d ih =>
    obtain ⟨k', v'⟩ := e'
    rw [Dict.erase] at h
    split at h
    · exact ih h
    · rename_i hne
      rcases List.mem_cons.1 h with rfl | h
      · exact hne
      · exact ih h

theorem bidUnit_refs {m : Market} (hw : WF m) {v : VarUnit} (h : v ∈ m.bidUnit.getD []) : v.vid ∈ m.refs := by
  rcases hw.bid with ⟨_, b, _⟩ | ⟨b, n, _, _, e1, e2, _⟩
  · rw [b] at h; simp at h
  · rw [e2] at h
    have hv : v ∈ bidUnitMap (bidVariables b n) m.units m.bidi := h
    have : ∃ b' ∈ bidVariables b n, b'.vid = v.vid := by
      simp only [bidUnitMap, List.mem_flatMap, List.mem_map] at hv
      obtain ⟨b', hb, u, hu, rfl⟩ := hv
      exact ⟨b', hb, rfl⟩
    obtain ⟨b', hb, e⟩ := this
    unfold Market.refs
    rw [e1]
    simp only [Option.getD_some, List.mem_append]
    rw [← e]
    exact Or.inl (Or.inl (Or.inl (Or.inl (Or.inl (Or.inl (Or.inl (Or.inl (List.mem_map_of_mem hb))))))))

theorem bidReg_refs {m : Market} (hw : WF m) {v : VarReg} (h : v ∈ m.bidReg.getD []) : v.vid ∈ m.refs := by
  rcases hw.bid with ⟨_, _, b⟩ | ⟨b, n, _, _, e1, _, e2⟩
  · rw [b] at h; simp at h
  · rw [e2] at h
    have hv : v ∈ bidRegMap (bidVariables b n) m.units := h
    have : ∃ b' ∈ bidVariables b n, b'.vid = v.vid := by
      simp only [bidRegMap, List.mem_flatMap, List.mem_map] at hv
      obtain ⟨b', hb, u, hu, rfl⟩ := hv
      exact ⟨b', hb, rfl⟩
    obtain ⟨b', hb, e⟩ := this
    unfold Market.refs
    rw [e1]
    simp only [Option.getD_some, List.mem_append]
    rw [← e]
    exact Or.inl (Or.inl (Or.inl (Or.inl (Or.inl (Or.inl (Or.inl (Or.inl (List.mem_map_of_mem hb))))))))

theorem interReg_refs {m : Market} (hw : WF m) {v : InterMap} (h : v ∈ m.interReg.getD []) : v.vid ∈ m.refs := by
  rcases hw.inter with ⟨_, _, b⟩ | ⟨ds, n, _, e1, e2, _⟩
  · rw [b] at h; simp at h
  · rw [e2] at h
    have hv : v ∈ interMap ds n := h
    have : ∃ b' ∈ interVariables ds n, b'.vid = v.vid := by
      simp only [interMap, interVariables, List.mem_append] at hv ⊢
      rcases hv with hv | hv <;>
      · obtain ⟨i, a, ha, rfl⟩ := mem_saveIndex.1 hv
        exact ⟨_, mem_saveIndex.2 ⟨i, a, ha, rfl⟩, rfl⟩
    obtain ⟨b', hb, e⟩ := this
    unfold Market.refs
    rw [e1]
    simp only [Option.getD_some, List.mem_append]
    rw [← e]
    exact Or.inl (Or.inl (Or.inl (Or.inl (Or.inl (Or.inl (Or.inr (List.mem_map_of_mem hb)))))))

theorem vid_disjoint {m : Market} (hw : WF m) {e e' : CKey × (List DefVar × List Term)} (he : e ∈ m.deficits)
    (he' : e' ∈ m.deficits) (hne : e.1 ≠ e'.1) {v : Nat} (h : v ∈ e.2.1.map DefVar.vid) : v ∉ e'.2.1.map DefVar.vid := by
  intro h'
  have h1 := (hw.var v).1
  have h2 : 2 ≤ (m.deficits.flatMap (fun d => d.2.1.map DefVar.vid)).count v := by
    have g := Dict.get?_of_mem hw.con.defKeys (k := e.1) (v := e.2) he
    have p := Dict.perm_erase hw.con.defKeys g
    have g' := Dict.get?_of_mem hw.con.defKeys (k := e'.1) (v := e'.2) he'
    rw [← Dict.get?_erase_ne m.deficits hne] at g'
    have p' := Dict.perm_erase (hw.con.defKeys.erase e.1) g'
    have p'' := (p.trans (p'.cons _)).flatMap_right (fun d => d.2.1.map DefVar.vid)
    rw [p''.count_eq]
    simp only [List.flatMap_cons, List.count_append]
    have c1 := List.count_pos_iff.2 h
    have c2 := List.count_pos_iff.2 h'
    omega
  unfold Market.vcount at h1
  omega

theorem inelastic_local {m : Market} (hw : WF m) (hr : RefWF m) (k : CKey) {t : Term}
    (ht : t ∈ (m.inelastic k).terms) : t.vid ∉ m.deficitVids k := by
  have key : ∀ v ∈ m.refs, v ∉ m.deficitVids k := fun v hv hc => (hr.refs v hv).2 (deficitVids_sub hc)
  have hl : ∀ v ∈ (m.lossReg.getD []).map VarReg.vid, v ∈ m.refs := fun v hv => by
    unfold Market.refs; simp only [List.mem_append]; tauto
  have hi : ∀ v ∈ (m.inters.getD []).map InterVar.vid, v ∈ m.refs := fun v hv => by
    unfold Market.refs; simp only [List.mem_append]; tauto
  unfold Market.terms at ht
  simp only [List.mem_append] at ht
  rcases ht with ((ht | ht) | ht) | ht
  · unfold Market.fixedTerms at ht
    simp only [List.mem_append] at ht
    rcases ht with (ht | ht) | ht
    · exact key _ (by unfold Market.refs; simp only [List.mem_append]; have := List.mem_map_of_mem (f := Term.vid) ht; tauto)
    · exact key _ (by unfold Market.refs; simp only [List.mem_append]; have := List.mem_map_of_mem (f := Term.vid) ht; tauto)
    · obtain ⟨e, he, ht⟩ := List.mem_flatMap.1 ht
      have he' : e ∈ m.deficits.erase k := he
      have hne := mem_erase_ne he'
      have hem := Dict.mem_erase he'
      have hv := hr.own e hem t ht
      intro hc
      unfold Market.deficitVids at hc
      cases hd : m.deficits.get? k with
      | none => simp [hd] at hc
      | some d =>
        rw [hd] at hc
        exact vid_disjoint hw hem (Dict.mem_of_get? hd) hne hv hc
  · have : ∃ v ∈ m.refs, t.vid = v := by
      rw [genericTerms_eq] at ht
      unfold Market.genericTermsFor at ht
      simp only [List.mem_append] at ht
      rcases ht with (ht | ht) | ht
      · split at ht
        · rename_i g v hg hv
          simp only [genericUnitLhs, List.mem_flatMap, List.mem_map] at ht
          obtain ⟨g, _, v', hv', i, _, rfl⟩ := ht
          exact ⟨_, bidUnit_refs hw (by rw [show m.bidUnit = some v from hv]; exact List.mem_of_mem_filter hv'), rfl⟩
        · simp at ht
      · split at ht
        · rename_i g v hg hv
          simp only [genericRegionLhs, List.mem_flatMap, List.mem_map] at ht
          obtain ⟨g, _, v', hv', i, _, rfl⟩ := ht
          exact ⟨_, bidReg_refs hw (by rw [show m.bidReg = some v from hv]; exact List.mem_of_mem_filter hv'), rfl⟩
        · simp at ht
      · split at ht
        · rename_i g v hg hv
          simp only [genericInterLhs, List.mem_flatMap, List.mem_map] at ht
          obtain ⟨g, _, v', hv', i, _, rfl⟩ := ht
          exact ⟨_, hi _ (List.mem_map_of_mem (by rw [show m.inters = some v from hv]; exact List.mem_of_mem_filter hv')), rfl⟩
        · simp at ht
    obtain ⟨v, hv, e⟩ := this
    rw [e]
    exact key v hv
  · simp only [Market.regTerms, createLhsReg, List.mem_flatMap, List.mem_map] at ht
    obtain ⟨c, _, v, hv, rfl⟩ := ht
    have hv' := List.mem_of_mem_filter hv
    apply key
    unfold Market.regVars at hv'
    simp only [List.mem_append] at hv'
    rcases hv' with (h | h) | h
    · exact bidReg_refs hw h
    · obtain ⟨i, hi, rfl⟩ := List.mem_map.1 h
      exact interReg_refs hw hi
    · exact hl _ (List.mem_map_of_mem h)
  · simp only [Market.unitTerms, createLhsUnit, List.mem_flatMap, List.mem_map] at ht
    obtain ⟨c, _, v, hv, rfl⟩ := ht
    exact key _ (bidUnit_refs hw (List.mem_of_mem_filter hv))

theorem rowVal_agree {ts : List Term} {x y : Nat → ℚ} (h : ∀ t ∈ ts, x t.vid = y t.vid) (c : Nat) :
    rowVal ts x c = rowVal ts y c := by
  unfold rowVal
  apply sum_map_congr
  intro t ht
  rw [h t (List.mem_of_mem_filter ht)]

theorem rowVal_perm {a b : List Term} (h : a.Perm b) (x : Nat → ℚ) (c : Nat) : rowVal a x c = rowVal b x c := by
  unfold rowVal
  exact sum_perm (h.filter _) _

theorem rowVal_split {m : Market} (hw : WF m) {k : CKey} {d : List DefVar × List Term} (hd : m.deficits.get? k = some d)
    (x : Nat → ℚ) (c : Nat) : rowVal m.terms x c = rowVal (m.inelastic k).terms x c + rowVal d.2 x c := by
  have p := (Dict.perm_erase hw.con.defKeys hd).flatMap_right (fun e => e.2.2)
  have e1 : m.terms = m.fixedTerms ++ m.genericTerms ++ m.regTerms ++ m.unitTerms := rfl
  have e2 : (m.inelastic k).terms = (m.inelastic k).fixedTerms ++ m.genericTerms ++ m.regTerms ++ m.unitTerms := rfl
  have e3 : m.fixedTerms = m.lossLhs.getD [] ++ m.tieLhs.getD [] ++ m.deficits.flatMap (fun e => e.2.2) := rfl
  have e4 : (m.inelastic k).fixedTerms =
    m.lossLhs.getD [] ++ m.tieLhs.getD [] ++ (m.deficits.erase k).flatMap (fun e => e.2.2) := rfl
  rw [e1, e2]
  simp only [rowVal_append]
  rw [e3, e4]
  simp only [rowVal_append]
  rw [rowVal_perm p]
  simp only [List.flatMap_cons, rowVal_append]
  ring

theorem originalLhs_eq (m : Market) (k : CKey) (x : Nat → ℚ) (c : Nat) :
    m.originalLhs k x c = rowVal (m.inelastic k).terms x c := linVal_groupCoefs _ _ _

theorem originalLhs_agree {m : Market} (hw : WF m) (hr : RefWF m) {k : CKey} {x y : Nat → ℚ}
    (h : ∀ v, v ∉ m.deficitVids k → x v = y v) (c : Nat) : m.originalLhs k x c = m.originalLhs k y c := by
  rw [originalLhs_eq, originalLhs_eq]
  exact rowVal_agree (fun t ht => h _ (inelastic_local hw hr k ht)) c

theorem rowViolation_agree {m : Market} (hw : WF m) (hr : RefWF m) {k : CKey} {x y : Nat → ℚ}
    (h : ∀ v, v ∉ m.deficitVids k → x v = y v) (r : Row) : m.rowViolation k x r = m.rowViolation k y r := by
  unfold Market.rowViolation
  rw [originalLhs_agree hw hr h]

/-! ## The state after a successful `make_constraints_elastic` -/

/-- constraint set `k` is elastic with the rows `es` and violation variables from `n` -/
structure ElasticSet (m : Market) (k : CKey) (vc : VCost) (n : Nat) : Prop where
  wf : WF m
  refs : RefWF m
  rows : ∃ rows, m.rowsOf k = some rows
  deficits : m.deficits.get? k =
    some (deficitVariables ((m.elasticRows k vc).map (fun r => (r, (vc.of r).getD 0))) n)

/-- rows with cost -/
def Market.costed (m : Market) (k : CKey) (vc : VCost) : List (Row × ℚ) :=
  (m.elasticRows k vc).map (fun r => (r, (vc.of r).getD 0))

theorem find_filter_proper {t : List (String × ℚ)} (hp : (t.map Prod.fst).Nodup) (r : Row) :
    (t.filter (fun c => decide (r.set = some c.1))).map (fun c => (r, c.2)) =
      (((t.find? (fun c => decide (r.set = some c.1))).map (·.2)).elim [] (fun c => [(r, c)])) := by
  cases hs : r.set with
  | none =>
    have : t.find? (fun _ => false) = none := by rw [List.find?_eq_none]; simp
    simp [this]
  | some s =>
    have h1 : t.filter (fun c => decide (some s = some c.1)) = t.filter (fun c => decide (c.1 = s)) := by
      apply List.filter_congr
      intro c _
      simp [eq_comm]
    have h2 : t.find? (fun c => decide (some s = some c.1)) = (t.filter (fun c => decide (c.1 = s))).head? := by
      rw [← h1, List.head?_filter]
    rw [h1, h2]
    rcases filter_key_le_one hp s with h | ⟨a, _, _, h⟩ <;> rw [h] <;> simp

theorem costRows_proper {k : CKey} {rows : List Row} {vc : VCost} {rs : List (Row × ℚ)} (hp : vc.proper)
    (h : costRows k rows vc = .ok rs) :
    rs = (rows.filter (fun r => (vc.of r).isSome)).map (fun r => (r, (vc.of r).getD 0)) := by
  cases vc with
  | num c =>
    simp only [costRows, Except.ok.injEq] at h
    rw [← h]
    have : rows.filter (fun r => ((VCost.num c).of r).isSome) = rows := by
      rw [List.filter_eq_self]
      intro a _
      rfl
    rw [this]
    rfl
  | table t =>
    simp only [costRows] at h
    split at h
    · cases h
    split at h
    · cases h
    simp only [Except.ok.injEq] at h
    rw [← h]
    clear h
    induction rows with
    | nil => rfl
    | cons r rows ih =>
      rw [List.flatMap_cons, find_filter_proper hp, List.filter_cons]
      have := ih
      cases ho : (VCost.table t).of r with
      | none =>
        have ho' : (t.find? (fun c => decide (r.set = some c.1))).map (·.2) = none := ho
        rw [ho']
        simpa using this
      | some c =>
        have ho' : (t.find? (fun c => decide (r.set = some c.1))).map (·.2) = some c := ho
        rw [ho']
        simp only [Option.isSome_some, if_true, List.map_cons, Option.elim_some, List.cons_append, List.nil_append]
        rw [ho]
        simpa using this

theorem elasticSet_of {k : CKey} {vc : VCost} {m : Market} (h : InForce (.elastic k vc) m) (hp : vc.proper)
    (hne : m.elasticRows k vc ≠ []) : ∃ n, ElasticSet m k vc n := by
  have hR := h.reached.refs
  obtain ⟨a, ha, hm, hok, _, hs⟩ := h.unpack
  have hset : SameSet k (a.step (.elastic k vc)).1 m := hs (.set k) (by simp [Op.parts])
  have hnan := step_ok hok
  have he : a.step (.elastic k vc) = a.makeElastic k vc := by
    simp [Market.step, hnan]
  rw [he] at hok hset
  unfold Market.makeElastic at hok hset
  cases hrows : a.rowsOf k with
  | none => simp [hrows] at hok
  | some rows =>
    cases hcr : costRows k rows vc with
    | error e => simp [hrows, hcr] at hok
    | ok rs =>
      simp only [hrows, hcr] at hok hset
      have hrs := costRows_proper hp hcr
      have hrm : ∀ b : Market, SameSet k b m → b.conRhs = a.conRhs → b.mktRhs = a.mktRhs → m.rowsOf k = some rows := by
        intro b hb h1 h2
        rw [← hrows]
        unfold Market.rowsOf
        rw [hb.mktRhs, hb.conRhs, h1, h2]
      split at hset
      · rename_i hemp
        exfalso
        apply hne
        unfold Market.elasticRows
        rw [hrm _ hset rfl rfl]
        rw [List.isEmpty_iff] at hemp
        rw [hemp] at hrs
        simpa using hrs.symm
      · split at hset
        · rename_i h1 h2
          simp [h1, h2] at hok
        · refine ⟨a.nextVar, hm, hR, ⟨rows, hrm _ hset rfl rfl⟩, ?_⟩
          rw [hset.deficits]
          show (a.deficits.set k _).get? k = _
          rw [Dict.get?_set_self]
          unfold Market.elasticRows
          rw [hrm _ hset rfl rfl, hrs]
          rfl

theorem elasticRows_mem {m : Market} {k : CKey} {vc : VCost} {e : Row} (h : e ∈ m.elasticRows k vc) :
    (e.cid, e.ctype, Rhs.const e.rhs) ∈ m.allRows ∧ InTab m k e.cid := by
  unfold Market.elasticRows at h
  have h' := List.mem_of_mem_filter h
  cases hr : m.rowsOf k with
  | none => simp [hr] at h'
  | some rows =>
    rw [hr] at h'
    have h'' : e ∈ rows := h'
    have hk : m.rowOf k e.cid := by
      unfold Market.rowsOf at hr
      split at hr
      · rename_i hm
        cases hr
        exact Or.inr (Or.inl ⟨_, hm, e, h'', rfl⟩)
      · exact Or.inl ⟨_, hr, e, h'', rfl⟩
    refine ⟨?_, inTab_of_rowOf hk⟩
    unfold Market.allRows Dict.concat
    simp only [List.mem_append, List.mem_map, List.mem_flatMap]
    rcases rowsOf_mem hr with h | h
    · exact Or.inl (Or.inr ⟨e, ⟨_, h, h''⟩, rfl⟩)
    · exact Or.inl (Or.inl ⟨e, ⟨_, h, h''⟩, rfl⟩)

theorem rows_nodup {m : Market} (hw : ConWF m) {k : CKey} {rows : List Row} (hr : m.rowsOf k = some rows) :
    (rows.map Row.cid).Nodup := by
  have h := allRows_nodup hw
  unfold Market.allRows Dict.concat at h
  simp only [List.map_append, List.map_map] at h
  rcases rowsOf_mem hr with hm | hm
  · have h2 := (List.nodup_append.1 (List.nodup_append.1 h).1).2.1
    have : (rows.map Row.cid).Sublist ((m.mktRhs.flatMap (fun e => e.2)).map Row.cid) :=
      (List.sublist_flatten_of_mem (List.mem_map_of_mem (f := fun e : CKey × List Row => e.2) hm)).map _
    exact List.Nodup.sublist this h2
  · have h2 := (List.nodup_append.1 (List.nodup_append.1 h).1).1
    have : (rows.map Row.cid).Sublist ((m.conRhs.flatMap (fun e => e.2)).map Row.cid) :=
      (List.sublist_flatten_of_mem (List.mem_map_of_mem (f := fun e : CKey × List Row => e.2) hm)).map _
    exact List.Nodup.sublist this h2

namespace ElasticSet
variable {m : Market} {k : CKey} {vc : VCost} {n : Nat} (S : ElasticSet m k vc n)
include S

theorem nodup : ((m.costed k vc).map (fun r => r.1.cid)).Nodup := by
  obtain ⟨rows, hr⟩ := S.rows
  unfold Market.costed Market.elasticRows
  rw [List.map_map, hr]
  exact (rows_nodup S.wf.con hr).sublist (List.filter_sublist.map _)

theorem vids : m.deficitVids k = (slots (m.costed k vc) n).map Slot.vid := by
  unfold Market.deficitVids
  rw [S.deficits]
  show (deficitVariables (m.costed k vc) n).1.map DefVar.vid = _
  rw [slots_vars, List.map_map]
  rfl

theorem degree (x : Nat → ℚ) : m.violationDegree x k = ((slots (m.costed k vc) n).map (fun s => x s.vid)).sum := by
  unfold Market.violationDegree
  rw [S.deficits]
  show ((deficitVariables (m.costed k vc) n).1.map (fun v => x v.vid)).sum = _
  rw [slots_vars, List.map_map]
  rfl

theorem slot_val (x : Nat → ℚ) (c : Nat) :
    rowVal m.terms x c = m.originalLhs k x c +
      (((slots (m.costed k vc) n).filter (fun s => decide (s.row.cid = c))).map (fun s => s.sg * x s.vid)).sum := by
  rw [rowVal_split S.wf S.deficits, originalLhs_eq]
  congr 1
  show rowVal (deficitVariables (m.costed k vc) n).2 x c = _
  rw [slots_terms]
  unfold rowVal
  rw [List.filter_map, List.map_map]
  rfl

/-- value of the violation variables of one row -/
def own (_ : ElasticSet m k vc n) (x : Nat → ℚ) (r : Row) : ℚ :=
  (((slots (m.costed k vc) n).filter (fun s => decide (s.row.cid = r.cid))).map (fun s => x s.vid)).sum

theorem degree_own (x : Nat → ℚ) : m.violationDegree x k = ((m.elasticRows k vc).map (S.own x)).sum := by
  rw [S.degree, sum_slots S.nodup]
  unfold Market.costed
  rw [List.map_map]
  rfl

omit S in
theorem costed_mem {e : Row} (he : e ∈ m.elasticRows k vc) : (e, (vc.of e).getD 0) ∈ m.costed k vc :=
  List.mem_map_of_mem (f := fun r => (r, (vc.of r).getD 0)) he

/-- the solver row of an elastic row -/
theorem row_iff {lp : Lp} (hl : m.assemble = .ok lp) {r : LRow} (hr : r ∈ lp.rows) {e : Row}
    (he : e ∈ m.elasticRows k vc) (hc : e.cid = r.cid) (x : Nat → ℚ) :
    r.holds x ↔ e.ctype.holds (m.originalLhs k x e.cid +
      (((slots (m.costed k vc) n).filter (fun s => decide (s.row.cid = e.cid))).map (fun s => s.sg * x s.vid)).sum) e.rhs := by
  obtain ⟨_, hmem, hh⟩ := lpRow hl hr
  have hu := unique_row S.wf.con (elasticRows_mem he).1 (by rw [hc]; exact hmem)
  rw [hh x, S.slot_val, ← hu.1, ← hu.2, hc]
  rfl

/-- a row with violation variables reaches the solver -/
theorem reaches {lp : Lp} (hl : m.assemble = .ok lp) {e : Row} (he : e ∈ m.elasticRows k vc) {s : Slot}
    (hs : s ∈ slots (m.costed k vc) n) (hc : s.row.cid = e.cid) : ∃ r ∈ lp.rows, e.cid = r.cid := by
  have ht : (⟨s.row.cid, s.vid, s.sg⟩ : Term) ∈ (deficitVariables (m.costed k vc) n).2 := by
    rw [slots_terms]
    exact List.mem_map_of_mem (f := fun s : Slot => (⟨s.row.cid, s.vid, s.sg⟩ : Term)) hs
  have hm : (⟨s.row.cid, s.vid, s.sg⟩ : Term) ∈ m.terms := by
    unfold Market.terms Market.fixedTerms
    simp only [List.mem_append, List.mem_flatMap]
    exact Or.inl (Or.inl (Or.inl (Or.inr ⟨_, Dict.mem_of_get? S.deficits, ht⟩)))
  exact ⟨_, lpRow_of S.wf.con hl (elasticRows_mem he).1 ⟨_, hm, hc⟩, rfl⟩

/-- the violation variables of a row cover its violation -/
theorem own_ge {lp : Lp} (hl : m.assemble = .ok lp) {x : Nat → ℚ} (h0 : ∀ v ∈ m.deficitVids k, 0 ≤ x v)
    {e : Row} (he : e ∈ m.elasticRows k vc) (hx : ∀ r ∈ lp.rows, e.cid = r.cid → r.holds x) :
    m.rowViolation k x e ≤ S.own x e := by
  have hvid : ∀ s, s ∈ (slots (m.costed k vc) n).filter (fun s => decide (s.row.cid = e.cid)) →
      0 ≤ x s.vid ∧ s ∈ slots (m.costed k vc) n ∧ s.row.cid = e.cid := by
    intro s hs
    have hm := List.mem_filter.1 hs
    refine ⟨h0 _ ?_, hm.1, of_decide_eq_true hm.2⟩
    rw [S.vids]
    exact List.mem_map_of_mem hm.1
  have hold : ∀ s, s ∈ (slots (m.costed k vc) n).filter (fun s => decide (s.row.cid = e.cid)) →
      e.ctype.holds (m.originalLhs k x e.cid +
        (((slots (m.costed k vc) n).filter (fun s => decide (s.row.cid = e.cid))).map (fun s => s.sg * x s.vid)).sum) e.rhs := by
    intro s hs
    obtain ⟨_, h1, h2⟩ := hvid s hs
    obtain ⟨r, hr, hc⟩ := S.reaches hl he h1 h2
    exact (S.row_iff hl hr he hc x).1 (hx r hr hc)
  unfold Market.rowViolation own
  rcases slots_row S.nodup n (costed_mem he) with ⟨i, h⟩ | ⟨i, j, hc, h⟩ | ⟨hc, h⟩
  · rcases h with ⟨hc, h⟩ | ⟨hc, h⟩ <;> simp only [] at hc h <;>
    · rw [h] at hold hvid ⊢
      have a := hold _ (List.mem_singleton.2 rfl)
      have b := (hvid _ (List.mem_singleton.2 rfl)).1
      simp only [hc, CType.holds, CType.violation, List.map_cons, List.map_nil, List.sum_cons, List.sum_nil] at a b ⊢
      rw [max_le_iff]
      constructor <;> linarith
  · simp only [] at hc h
    rw [h] at hold hvid ⊢
    have a := hold _ (List.mem_cons_self ..)
    have b := (hvid _ (List.mem_cons_self ..)).1
    have b' := (hvid _ (List.mem_cons_of_mem _ (List.mem_singleton.2 rfl))).1
    simp only [hc, CType.holds, CType.violation, List.map_cons, List.map_nil, List.sum_cons, List.sum_nil] at a b b' ⊢
    rw [abs_le]
    constructor <;> linarith
  · simp only [] at hc h
    rw [h]
    simp [hc, CType.violation]

/-- set the violation variables to what is needed -/
def fill (_ : ElasticSet m k vc n) (x : Nat → ℚ) (v : Nat) : ℚ :=
  match (slots (m.costed k vc) n).find? (fun s => decide (s.vid = v)) with
  | some s => max 0 (s.sg * (s.row.rhs - m.originalLhs k x s.row.cid))
  | none => x v

theorem fill_slot (x : Nat → ℚ) {s : Slot} (hs : s ∈ slots (m.costed k vc) n) :
    S.fill x s.vid = max 0 (s.sg * (s.row.rhs - m.originalLhs k x s.row.cid)) := by
  have hu := filter_key_unique (slots_nodup (m.costed k vc) n) hs
  have : (slots (m.costed k vc) n).find? (fun s' => decide (s'.vid = s.vid)) = some s := by
    rw [← List.head?_filter, hu]
    rfl
  unfold fill
  rw [this]

theorem fill_off (x : Nat → ℚ) {v : Nat} (hv : v ∉ m.deficitVids k) : S.fill x v = x v := by
  rw [S.vids] at hv
  have : (slots (m.costed k vc) n).find? (fun s => decide (s.vid = v)) = none := by
    rw [List.find?_eq_none]
    intro s hs hc
    exact hv (List.mem_map.2 ⟨s, hs, of_decide_eq_true hc⟩)
  unfold fill
  rw [this]

theorem fill_nonneg (x : Nat → ℚ) {v : Nat} (hv : v ∈ m.deficitVids k) : 0 ≤ S.fill x v := by
  rw [S.vids] at hv
  obtain ⟨s, hs, rfl⟩ := List.mem_map.1 hv
  rw [S.fill_slot x hs]
  exact le_max_left _ _

theorem fill_lhs (x : Nat → ℚ) (c : Nat) : m.originalLhs k (S.fill x) c = m.originalLhs k x c :=
  originalLhs_agree S.wf S.refs (fun _ hv => S.fill_off x hv) c

theorem fill_own (x : Nat → ℚ) {e : Row} (he : e ∈ m.elasticRows k vc) : S.own (S.fill x) e = m.rowViolation k x e := by
  have hs : ∀ s, s ∈ (slots (m.costed k vc) n).filter (fun s => decide (s.row.cid = e.cid)) →
      S.fill x s.vid = max 0 (s.sg * (s.row.rhs - m.originalLhs k x s.row.cid)) :=
    fun s hs => S.fill_slot x (List.mem_of_mem_filter hs)
  unfold own Market.rowViolation
  rcases slots_row S.nodup n (costed_mem he) with ⟨i, h⟩ | ⟨i, j, hc, h⟩ | ⟨hc, h⟩
  · rcases h with ⟨hc, h⟩ | ⟨hc, h⟩ <;> simp only [] at hc h <;>
    · rw [h] at hs ⊢
      have a := hs _ (List.mem_singleton.2 rfl)
      simp only [hc, CType.violation, List.map_cons, List.map_nil, List.sum_cons, List.sum_nil] at a ⊢
      rw [a, add_zero]
      congr 1
      ring
  · simp only [] at hc h
    rw [h] at hs ⊢
    have a := hs _ (List.mem_cons_self ..)
    have b := hs _ (List.mem_cons_of_mem _ (List.mem_singleton.2 rfl))
    simp only [hc, CType.violation, List.map_cons, List.map_nil, List.sum_cons, List.sum_nil] at a b ⊢
    rw [a, b, add_zero]
    rcases le_total (m.originalLhs k x e.cid) e.rhs with hle | hle
    · rw [abs_of_nonpos (by linarith), max_eq_left (by linarith), max_eq_right (by linarith)]
      ring
    · rw [abs_of_nonneg (by linarith), max_eq_right (by linarith), max_eq_left (by linarith)]
      ring
  · simp only [] at hc h
    rw [h]
    simp [hc, CType.violation]

theorem fill_row {lp : Lp} (hl : m.assemble = .ok lp) (x : Nat → ℚ) {r : LRow} (hr : r ∈ lp.rows) {e : Row}
    (he : e ∈ m.elasticRows k vc) (hc : e.cid = r.cid) : r.holds (S.fill x) := by
  rw [S.row_iff hl hr he hc, S.fill_lhs]
  have hs : ∀ s, s ∈ (slots (m.costed k vc) n).filter (fun s => decide (s.row.cid = e.cid)) →
      S.fill x s.vid = max 0 (s.sg * (s.row.rhs - m.originalLhs k x s.row.cid)) :=
    fun s hs => S.fill_slot x (List.mem_of_mem_filter hs)
  rcases slots_row S.nodup n (costed_mem he) with ⟨i, h⟩ | ⟨i, j, ht, h⟩ | ⟨ht, h⟩
  · rcases h with ⟨ht, h⟩ | ⟨ht, h⟩ <;> simp only [] at ht h
    · rw [h] at hs ⊢
      have a := hs _ (List.mem_singleton.2 rfl)
      simp only [ht, CType.holds, List.map_cons, List.map_nil, List.sum_cons, List.sum_nil] at a ⊢
      rw [a]
      have := le_max_right 0 (1 * (e.rhs - m.originalLhs k x e.cid))
      linarith
    · rw [h] at hs ⊢
      have a := hs _ (List.mem_singleton.2 rfl)
      simp only [ht, CType.holds, List.map_cons, List.map_nil, List.sum_cons, List.sum_nil] at a ⊢
      rw [a]
      have := le_max_right 0 (-1 * (e.rhs - m.originalLhs k x e.cid))
      linarith
  · simp only [] at ht h
    rw [h] at hs ⊢
    have a := hs _ (List.mem_cons_self ..)
    have b := hs _ (List.mem_cons_of_mem _ (List.mem_singleton.2 rfl))
    simp only [ht, CType.holds, List.map_cons, List.map_nil, List.sum_cons, List.sum_nil] at a b ⊢
    rw [a, b]
    rcases le_total (m.originalLhs k x e.cid) e.rhs with hle | hle
    · rw [max_eq_left (by linarith), max_eq_right (by linarith)]
      ring
    · rw [max_eq_right (by linarith), max_eq_left (by linarith)]
      ring
  · exfalso
    obtain ⟨_, hmem, _⟩ := lpRow hl hr
    have hu := unique_row S.wf.con (elasticRows_mem he).1 (by rw [hc]; exact hmem)
    simp only [] at ht
    obtain ⟨_, _, _, _, _, hrows⟩ := assemble_parts hl
    rcases hrows with ⟨h0, _⟩ | ⟨_, hsr⟩
    · rw [h0] at hr; simp at hr
    · obtain ⟨h1, h2⟩ := solverRows_mem hsr
      obtain ⟨hcs, _, hlk⟩ := h2 r hr
      obtain ⟨ty, rr, hl2, hne, _⟩ := h1 _ hcs
      rw [hlk] at hl2
      cases hl2
      exact hne (hu.1.symm.trans ht)

/-- bounds of variables after filling in the violation variables of `k` -/
theorem fill_var {lp : Lp} (hl : m.assemble = .ok lp) {x : Nat → ℚ} {v : LVar} (hv : v ∈ lp.vars)
    (h : v.vid ∉ m.deficitVids k → v.holds x) : v.holds (S.fill x) := by
  by_cases hd : v.vid ∈ m.deficitVids k
  · have hp := (assemble_parts hl).1
    rw [hp] at hv
    have hnd : (m.allVars.map LVar.vid).Nodup := by
      rw [List.nodup_iff_count_le_one]
      intro i
      rw [vcount_eq]
      exact (S.wf.var i).1
    have hmem : (⟨v.vid, 0, none⟩ : LVar) ∈ m.allVars := by
      unfold Market.deficitVids at hd
      rw [S.deficits] at hd
      obtain ⟨w, hw, hwe⟩ := List.mem_map.1 hd
      unfold Market.allVars
      simp only [List.mem_append, List.mem_flatMap, List.mem_map]
      exact Or.inr ⟨_, Dict.mem_of_get? S.deficits, w, hw, by rw [hwe]⟩
    have e : v = ⟨v.vid, 0, none⟩ := List.inj_on_of_nodup_map hnd hv hmem rfl
    rw [e]
    exact ⟨S.fill_nonneg x hd, by simp⟩
  · have := h hd
    unfold LVar.holds at this ⊢
    rw [S.fill_off x hd]
    exact this

/-- other constraints keep holding -/
theorem fill_keeps {lp : Lp} (hl : m.assemble = .ok lp) {x : Nat → ℚ} {r : LRow} (hr : r ∈ lp.rows)
    (hne : ∀ e ∈ m.elasticRows k vc, e.cid ≠ r.cid) (hh : r.holds x) : r.holds (S.fill x) := by
  obtain ⟨_, hmem, hi⟩ := lpRow hl hr
  rw [hi] at hh ⊢
  rw [S.slot_val] at hh ⊢
  have hnil : (slots (m.costed k vc) n).filter (fun s => decide (s.row.cid = r.cid)) = [] := by
    apply filter_nil_of
    intro s hs
    have := (slots_mem hs).1
    obtain ⟨e, he, hee⟩ := List.mem_map.1 this
    have h1 : e = s.row := by simpa using congrArg Prod.fst hee
    rw [decide_eq_false_iff_not, ← h1]
    exact hne e he
  rw [hnil] at hh ⊢
  rw [S.fill_lhs]
  have hre : r.rhs.eval (S.fill x) = r.rhs.eval x := by
    cases hrr : r.rhs with
    | const q => rfl
    | var v =>
      show S.fill x v = x v
      apply S.fill_off
      intro hc
      rw [hrr] at hmem
      unfold Market.allRows at hmem
      simp only [List.mem_append, List.mem_map] at hmem
      rcases hmem with (⟨_, _, h⟩ | ⟨_, _, h⟩) | ⟨d, hd, h⟩
      · simp at h
      · simp at h
      · have : d.rhsVid = v := by simpa using congrArg (fun p => p.2.2) h
        rw [← this] at hc
        refine (S.refs.refs d.rhsVid ?_).2 (deficitVids_sub hc)
        unfold Market.refs
        simp only [List.mem_append]
        exact Or.inr (List.mem_map_of_mem hd)
  rw [hre]
  exact hh

theorem fill_sos2 {lp : Lp} (hl : m.assemble = .ok lp) {x : Nat → ℚ} (h0 : ∀ g ∈ lp.sos2, Sos2 x g) :
    ∀ g ∈ lp.sos2, Sos2 (S.fill x) g := by
  rw [(assemble_parts hl).2.2.1]
  intro g hg
  rw [(assemble_parts hl).2.2.1] at h0
  have hag : ∀ a ∈ g, S.fill x a.1 = x a.1 := by
    intro a ha
    apply S.fill_off
    intro hc
    refine (S.refs.refs a.1 ?_).2 (deficitVids_sub hc)
    simp only [Market.sos2Groups, groupBy, List.mem_map] at hg
    obtain ⟨_, ⟨_, _, rfl⟩, rfl⟩ := hg
    obtain ⟨w, hw, rfl⟩ := List.mem_map.1 ha
    unfold Market.refs
    simp only [List.mem_append]
    have := List.mem_map_of_mem (f := WeightVar.vid) (List.mem_of_mem_filter hw)
    tauto
  intro a ha b hb h1 h2
  rw [hag a ha] at h1
  rw [hag b hb] at h2
  exact h0 g hg a ha b hb h1 h2

theorem fill_sos1 {lp : Lp} (hl : m.assemble = .ok lp) {x : Nat → ℚ} (h0 : ∀ g ∈ lp.sos1, Sos1 x g) :
    ∀ g ∈ lp.sos1, Sos1 (S.fill x) g := by
  rw [(assemble_parts hl).2.2.2.1]
  intro g hg
  rw [(assemble_parts hl).2.2.2.1] at h0
  have hag : ∀ a ∈ g, S.fill x a = x a := by
    intro a ha
    apply S.fill_off
    intro hc
    refine (S.refs.refs a ?_).2 (deficitVids_sub hc)
    simp only [Market.sos1Groups, groupBy, List.mem_map] at hg
    obtain ⟨_, ⟨_, _, rfl⟩, rfl⟩ := hg
    obtain ⟨w, hw, rfl⟩ := List.mem_map.1 ha
    unfold Market.refs
    simp only [List.mem_append]
    have := List.mem_map_of_mem (f := InterVar.vid) (List.mem_of_mem_filter (List.mem_of_mem_filter hw))
    tauto
  intro a ha b hb h1 h2
  rw [hag a ha] at h1
  rw [hag b hb] at h2
  exact h0 g hg a ha b hb h1 h2


/-- variables of the program that are not violation variables of `k` -/
theorem fill_feasible {lp : Lp} (hl : m.assemble = .ok lp) {x : Nat → ℚ} (hx : FeasibleBut m k vc lp x) :
    Feasible lp (S.fill x) where
  vars := fun v hv => S.fill_var hl hv (hx.vars v hv)
  rows := by
    intro r hr
    by_cases he : ∃ e ∈ m.elasticRows k vc, e.cid = r.cid
    · obtain ⟨e, he, hc⟩ := he
      exact S.fill_row hl x hr he hc
    · have hne : ∀ e ∈ m.elasticRows k vc, e.cid ≠ r.cid := fun e h hc => he ⟨e, h, hc⟩
      exact S.fill_keeps hl hr hne (hx.rows r hr hne)
  sos2 := S.fill_sos2 hl hx.sos2
  sos1 := S.fill_sos1 hl hx.sos1

omit S in
theorem feasibleBut {lp : Lp} {x : Nat → ℚ} (hx : Feasible lp x) : FeasibleBut m k vc lp x where
  vars := fun v hv _ => hx.vars v hv
  rows := fun r hr _ => hx.rows r hr
  sos2 := hx.sos2
  sos1 := hx.sos1

theorem nonneg {lp : Lp} (hl : m.assemble = .ok lp) {x : Nat → ℚ} (hx : ∀ v ∈ lp.vars, v.holds x) :
    ∀ v ∈ m.deficitVids k, 0 ≤ x v := by
  intro v hd
  unfold Market.deficitVids at hd
  rw [S.deficits] at hd
  obtain ⟨w, hw, hwe⟩ := List.mem_map.1 hd
  have hmem : (⟨v, 0, none⟩ : LVar) ∈ m.allVars := by
    unfold Market.allVars
    simp only [List.mem_append, List.mem_flatMap, List.mem_map]
    exact Or.inr ⟨_, Dict.mem_of_get? S.deficits, w, hw, by rw [hwe]⟩
  rw [← (assemble_parts hl).1] at hmem
  exact (hx _ hmem).1

/-- the part of the objective that is not the violation cost of `k` -/
theorem cost_split {lp : Lp} (hl : m.assemble = .ok lp) : ∃ rest : List (Nat × ℚ),
    (∀ p ∈ rest, p.1 ∉ m.deficitVids k) ∧
    ∀ x, lp.cost x = linVal x rest + ((m.elasticRows k vc).map (fun r => (vc.of r).getD 0 * S.own x r)).sum := by
  refine ⟨(m.bidCost.getD []).map (fun c => (c.vid, c.cost)) ++
    (m.deficits.erase k).flatMap (fun d => d.2.1.map (fun v => (v.vid, v.cost))), ?_, ?_⟩
  · intro p hp hc
    rcases List.mem_append.1 hp with h | h
    · obtain ⟨c, hcm, rfl⟩ := List.mem_map.1 h
      refine (S.refs.refs c.vid ?_).2 (deficitVids_sub hc)
      unfold Market.refs
      simp only [List.mem_append]
      have := List.mem_map_of_mem (f := BidCost.vid) hcm
      tauto
    · obtain ⟨e, he, h⟩ := List.mem_flatMap.1 h
      obtain ⟨v, hv, rfl⟩ := List.mem_map.1 h
      have hne := mem_erase_ne he
      unfold Market.deficitVids at hc
      rw [S.deficits] at hc
      exact vid_disjoint S.wf (Dict.mem_erase he) (Dict.mem_of_get? S.deficits) hne (List.mem_map_of_mem hv) hc
  · intro x
    unfold Lp.cost
    rw [(assemble_parts hl).2.1]
    unfold Market.objective linVal
    have p := (Dict.perm_erase S.wf.con.defKeys S.deficits).flatMap_right
      (fun d : CKey × (List DefVar × List Term) => d.2.1.map (fun v => (v.vid, v.cost)))
    rw [List.map_append, List.sum_append, sum_perm p, List.flatMap_cons, List.map_append, List.sum_append,
      List.map_append, List.sum_append]
    have : ((List.map (fun v => (v.vid, v.cost)) (deficitVariables (m.costed k vc) n).1).map
        (fun c : Nat × ℚ => c.2 * x c.1)).sum =
        ((m.elasticRows k vc).map (fun r => (vc.of r).getD 0 * S.own x r)).sum := by
      rw [slots_vars, List.map_map, List.map_map]
      rw [sum_slots S.nodup]
      unfold Market.costed
      rw [List.map_map]
      apply sum_map_congr
      intro e he
      unfold own
      rw [← sum_map_mul_left]
      apply sum_map_congr
      intro s hs
      have hm := List.mem_filter.1 hs
      obtain ⟨e', he', hee⟩ := List.mem_map.1 (slots_mem hm.1).1
      have h1 : e' = s.row := by simpa using congrArg Prod.fst hee
      have h2 : (vc.of e').getD 0 = s.cost := by simpa using congrArg Prod.snd hee
      have h3 : s.row.cid = e.cid := of_decide_eq_true hm.2
      have h4 : e' = e := by
        have hnd := S.nodup
        unfold Market.costed at hnd
        rw [List.map_map] at hnd
        exact List.inj_on_of_nodup_map hnd he' he (by simpa [h1] using h3)
      show s.cost * x s.vid = _
      rw [← h2, h4]
    have e : (deficitVariables (List.map (fun r => (r, (vc.of r).getD 0)) (m.elasticRows k vc)) n).1 =
      (deficitVariables (m.costed k vc) n).1 := rfl
    rw [e, this]
    ring

end ElasticSet

end Verif
