import Verif.Proofs.WholeLoss
import Verif.Proofs.ElasticOps

/-! Several elastic constraint sets at once. -/

namespace Verif

/-- an elastic constraint set: its key, violation cost and first violation variable -/
structure Piece where
  key : CKey
  vc : VCost
  start : Nat

/-- the set is elastic as a whole, at prices that are not negative, and its violation is a matter of the schedule -/
structure SoftPiece (m : Market) (p : Piece) : Prop where
  set : ElasticSet m p.key p.vc p.start
  whole : ∀ r ∈ (m.rowsOf p.key).getD [], (p.vc.of r).isSome = true
  nonneg : ∀ r ∈ m.elasticRows p.key p.vc, 0 ≤ (p.vc.of r).getD 0
  sched : ∀ x y, SameSchedule m x y → ∀ e ∈ m.elasticRows p.key p.vc, m.rowViolation p.key y e = m.rowViolation p.key x e

/-- everything but the rows and violation variables of the pieces -/
structure HardBut (m : Market) (L : List Piece) (lp : Lp) (x : Nat → ℚ) : Prop where
  vars : ∀ v ∈ lp.vars, (∀ p ∈ L, v.vid ∉ m.deficitVids p.key) → v.holds x
  rows : ∀ r ∈ lp.rows, (∀ p ∈ L, ∀ e ∈ m.elasticRows p.key p.vc, e.cid ≠ r.cid) → r.holds x
  sos2 : ∀ g ∈ lp.sos2, Sos2 x g
  sos1 : ∀ g ∈ lp.sos1, Sos1 x g

/-- variables of the schedule are not violation variables -/
theorem sameSchedule_off {m : Market} (hr : RefWF m) {x y : Nat → ℚ} (h : ∀ v, v ∉ m.defVids → y v = x v) : SameSchedule m x y := by
  refine ⟨fun b hb => h _ (hr.refs _ ?_).2, fun b hb => h _ (hr.refs _ ?_).2, fun b hb => h _ (hr.refs _ ?_).2⟩
  · have := List.mem_map_of_mem (f := BidVar.vid) hb
    unfold Market.refs; simp only [List.mem_append]; tauto
  · have := List.mem_map_of_mem (f := InterVar.vid) hb
    unfold Market.refs; simp only [List.mem_append]; tauto
  · have := List.mem_map_of_mem (f := LossVar.vid) hb
    unfold Market.refs; simp only [List.mem_append]; tauto

/-- the violation variables of one row -/
def Market.ownOf (m : Market) (p : Piece) (x : Nat → ℚ) (r : Row) : ℚ :=
  (((slots (m.costed p.key p.vc) p.start).filter (fun s => decide (s.row.cid = r.cid))).map (fun s => x s.vid)).sum

theorem fill_all {m : Market} {lp : Lp} (hl : m.assemble = .ok lp) (L : List Piece) (hL : ∀ p ∈ L, SoftPiece m p)
    (hk : (L.map Piece.key).Nodup) {z : Nat → ℚ} (hz : HardBut m L lp z) :
    ∃ y, Feasible lp y ∧ (∀ v, (∀ p ∈ L, v ∉ m.deficitVids p.key) → y v = z v) ∧
      ∀ p ∈ L, ∀ e ∈ m.elasticRows p.key p.vc, m.ownOf p y e = m.rowViolation p.key y e := by
  induction L generalizing z with
  | nil => exact ⟨z, ⟨fun v hv => hz.vars v hv (by simp), fun r hr => hz.rows r hr (by simp), hz.sos2, hz.sos1⟩, fun _ _ => rfl, by simp⟩
  | cons p L ih =>
    have hp := hL p (by simp)
    have S := hp.set
    have hk' := List.nodup_cons.1 (show (p.key :: L.map Piece.key).Nodup from hk)
    have hz1 : HardBut m L lp (S.fill z) := by
      refine ⟨fun v hv hn => S.fill_var hl hv (fun hd => hz.vars v hv ?_), fun r hr hn => ?_, S.fill_sos2 hl hz.sos2, S.fill_sos1 hl hz.sos1⟩
      · intro q hq
        rcases List.mem_cons.1 hq with rfl | hq
        · exact hd
        · exact hn q hq
      · by_cases he : ∃ e ∈ m.elasticRows p.key p.vc, e.cid = r.cid
        · obtain ⟨e, he, hc⟩ := he
          exact S.fill_row hl z hr he hc
        · have hne : ∀ e ∈ m.elasticRows p.key p.vc, e.cid ≠ r.cid := fun e h hc => he ⟨e, h, hc⟩
          refine S.fill_keeps hl hr hne (hz.rows r hr ?_)
          intro q hq
          rcases List.mem_cons.1 hq with rfl | hq
          · exact hne
          · exact hn q hq
    obtain ⟨y, hy, hoff, hown⟩ := ih (fun q hq => hL q (by simp [hq])) hk'.2 hz1
    have hoff' : ∀ v, (∀ q ∈ p :: L, v ∉ m.deficitVids q.key) → y v = z v := by
      intro v hv
      rw [hoff v (fun q hq => hv q (by simp [hq])), S.fill_off z (hv p (by simp))]
    refine ⟨y, hy, hoff', ?_⟩
    intro q hq e he
    rcases List.mem_cons.1 hq with rfl | hq
    · have hsame : SameSchedule m z y := by
        refine sameSchedule_off S.refs (fun v hv => hoff' v (fun q hq hc => hv (deficitVids_sub hc)))
      rw [hp.sched z y hsame e he, ← S.fill_own z he]
      unfold Market.ownOf ElasticSet.own
      apply sum_map_congr
      intro s hs
      apply hoff
      intro q' hq' hc
      have hs' : s.vid ∈ m.deficitVids q.key := by
        rw [S.vids]; exact List.mem_map_of_mem (List.mem_of_mem_filter hs)
      have S' := (hL q' (by simp [hq'])).set
      unfold Market.deficitVids at hs' hc
      rw [S.deficits] at hs'
      rw [S'.deficits] at hc
      refine vid_disjoint S.wf (Dict.mem_of_get? S.deficits) (Dict.mem_of_get? S'.deficits) ?_ hs' hc
      intro e
      exact hk'.1 (List.mem_map.2 ⟨q', hq', e.symm⟩)
    · exact hown q hq e he

theorem defs_perm {α : Type} {d : Dict CKey α} (hd : d.NodupKeys) (L : List (CKey × α)) (hn : (L.map Prod.fst).Nodup)
    (h1 : ∀ e ∈ L, d.get? e.1 = some e.2) (h2 : ∀ k, k ∉ L.map Prod.fst → d.get? k = none) : d.Perm L := by
  induction L generalizing d with
  | nil =>
    cases d with
    | nil => exact List.Perm.refl _
    | cons e d =>
      have := h2 e.1 (by simp)
      simp [Dict.get?] at this
  | cons e L ih =>
    have hn' := List.nodup_cons.1 (show (e.1 :: L.map Prod.fst).Nodup from hn)
    refine (Dict.perm_erase hd (h1 e (by simp))).trans (List.Perm.cons _ (ih (hd.erase e.1) hn'.2 ?_ ?_))
    · intro f hf
      rw [Dict.get?_erase_ne d (fun hc => hn'.1 (List.mem_map.2 ⟨f, hf, hc.symm⟩))]
      exact h1 f (by simp [hf])
    · intro k hk
      by_cases hc : e.1 = k
      · rw [← hc]
        exact get?_none_of_keys (fun f hf => mem_erase_ne hf)
      · rw [Dict.get?_erase_ne d hc]
        refine h2 k ?_
        simp only [List.map_cons, List.mem_cons, not_or]
        exact ⟨fun h => hc h.symm, hk⟩

/-- the cost of the violation variables of an elastic set, by row -/
theorem ElasticSet.cost_own {m : Market} {k : CKey} {vc : VCost} {n : Nat} (S : ElasticSet m k vc n) (x : Nat → ℚ) :
    ((deficitVariables (m.costed k vc) n).1.map (fun v => v.cost * x v.vid)).sum =
      ((m.elasticRows k vc).map (fun r => (vc.of r).getD 0 * m.ownOf ⟨k, vc, n⟩ x r)).sum := by
  rw [slots_vars, List.map_map]
  rw [sum_slots S.nodup]
  have e0 : m.costed k vc = (m.elasticRows k vc).map (fun r => (r, (vc.of r).getD 0)) := rfl
  conv_lhs => rw [e0, List.map_map]
  apply sum_map_congr
  intro e he
  unfold Market.ownOf
  rw [← sum_map_mul_left]
  apply sum_map_congr
  intro s hs
  have hm := List.mem_filter.1 hs
  obtain ⟨e', he', hee⟩ := List.mem_map.1 (slots_mem hm.1).1
  have h1 : e' = s.row := by simpa using congrArg Prod.fst hee
  have h2 : (vc.of e').getD 0 = s.cost := by simpa using congrArg Prod.snd hee
  have h3 : s.row.cid = e.cid := of_decide_eq_true hm.2
  have h4 : e' = e := by
    have hnd := S.nodup
    unfold Market.costed at hnd
    rw [List.map_map] at hnd
    exact List.inj_on_of_nodup_map hnd he' he (by simpa [h1] using h3)
  show s.cost * x s.vid = _
  rw [← h2, h4]

/-- the cost of all violation variables -/
theorem deficit_cost {m : Market} (hw : WF m) (L : List Piece) (hL : ∀ p ∈ L, SoftPiece m p) (hk : (L.map Piece.key).Nodup)
    (hno : ∀ k, k ∉ L.map Piece.key → m.deficits.get? k = none) (x : Nat → ℚ) :
    ((m.deficits.flatMap (fun d => d.2.1)).map (fun v => v.cost * x v.vid)).sum =
      (L.map (fun p => ((m.elasticRows p.key p.vc).map (fun r => (p.vc.of r).getD 0 * m.ownOf p x r)).sum)).sum := by
  have hp := defs_perm hw.con.defKeys (L.map (fun p => (p.key, deficitVariables (m.costed p.key p.vc) p.start)))
    (by rw [List.map_map]; exact hk)
    (by
      intro e he
      obtain ⟨p, hp, rfl⟩ := List.mem_map.1 he
      exact (hL p hp).set.deficits)
    (by
      intro k hk
      rw [List.map_map] at hk
      exact hno k hk)
  rw [sum_perm (hp.flatMap_right (fun d => d.2.1)), sum_map_flatMap, List.map_map]
  apply sum_map_congr
  intro p hp
  exact (hL p hp).set.cost_own x

end Verif
