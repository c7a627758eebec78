import Verif.Proofs.WholeLoss

/-! What the calls without a violation cost ask, and the feasible solutions of the program. -/

namespace Verif

theorem MadeBy.meets_of_feasible {ops : List Op} {m : Market} (h : MadeBy ops m) {lp : Lp} (hl : m.assemble = .ok lp) {z : Nat → ℚ}
    (hz : Feasible lp z) {op : Op} (ho : op ∈ ops) (hfirm : op.firm) : op.meets m (lossesOf ops) z := by
  obtain ⟨hv, _, h2, h1, _⟩ := assemble_parts hl
  by_cases hset : op.isSet = true
  · exact (h.sets_iff hl).1 (fun k _ _ => hz.obeys m k) op ho hfirm hset
  cases op with
  | volumeBids bs =>
    intro b hb
    have := hz.vars ⟨b.vid, 0, some b.ub⟩ (by
      rw [hv]; unfold Market.allVars
      exact List.mem_append_left _ (List.mem_append_left _ (List.mem_append_left _ (List.mem_append_left _ (List.mem_map.2 ⟨b, hb, rfl⟩)))))
    exact ⟨this.1, this.2 _ rfl⟩
  | interconnectors ds =>
    have hf := h.inForce ho
    exact ⟨fun d hd => C19_flow_limits hf hl hz hd, fun d hd d' hd' e a b c f => C42_one_link hf hl hz hd hd' e a b c f⟩
  | losses fs bs =>
    have hf := h.lossesKeeping ho
    obtain ⟨ds, n, nv, nc, n1, n2, nw, ht⟩ := losses_set (by simp) hf
    have hp := hfirm
    simp only [Op.firm] at hp
    intro d hd f hfm e1 e2
    rw [ht.dirs, Option.getD_some] at hd
    refine ⟨?_, fun hne => ?_⟩
    · obtain ⟨i, _, hv1⟩ := mem_saveIndex' hd n (fun i d =>
        ({ inter := d.inter, link := d.link, vid := i, lb := d.min, ub := d.max, gcf := d.gcf } : InterVar))
      obtain ⟨j, hj, hv2⟩ := mem_saveIndex' (rows := interVariables ds n) hv1 nv (fun i v =>
        ({ inter := v.inter, link := v.link, vid := i, lb := -1 * Max.max |v.lb| |v.ub|, ub := Max.max |v.lb| |v.ub| } : LossVar))
      have hlv : (⟨d.inter, d.link, nv + j, -1 * Max.max |d.min| |d.max|, Max.max |d.min| |d.max|⟩ : LossVar) ∈
          lossVariables (interVariables ds n) (mergeFromRegion fs ds) nv := by
        unfold lossVariables lossVariablesAux mergeFromRegion
        simp only [List.mem_map, List.mem_flatMap, List.mem_filter, decide_eq_true_eq]
        exact ⟨_, ⟨_, hv2, _, ⟨⟨f, hfm, d, ⟨hd, e1.symm, e2.symm⟩, rfl⟩, e1, e2⟩, rfl⟩, rfl⟩
      have e := ht.loss_val hlv z
      dsimp only at e
      rw [e]
      have := hz.vars ⟨nv + j, -1 * Max.max |d.min| |d.max|, some (Max.max |d.min| |d.max|)⟩ (by
        rw [hv]; unfold Market.allVars
        refine List.mem_append_left _ (List.mem_append_left _ (List.mem_append_right _ (List.mem_map.2 ⟨
          (⟨d.inter, d.link, nv + j, -1 * Max.max |d.min| |d.max|, Max.max |d.min| |d.max|⟩ : LossVar), ?_, rfl⟩)))
        · rw [ht.losses, Option.getD_some]; exact hlv)
      rw [abs_le]
      have h3 := this.1
      have h4 := this.2 _ rfl
      dsimp only at h3 h4
      exact ⟨by linarith, h4⟩
    · rw [← e1, ← e2] at hne ⊢
      exact C20_losses_interpolate hf hl hz hfm hne (hp.1 f hfm)
  | _ => exact absurd rfl hset

/-- A schedule that does what the calls without a violation cost ask can be completed so that everything holds but the elastic sets. -/
theorem MadeBy.complete {ops : List Op} {m : Market} (h : MadeBy ops m) {lp : Lp} (hl : m.assemble = .ok lp) {x : Nat → ℚ}
    (hm : Permitted m ops x) :
    ∃ z, SameSchedule m x z ∧ (∀ v ∈ lp.vars, v.vid ∉ m.defVids → v.holds z) ∧ (∀ g ∈ lp.sos2, Sos2 z g) ∧ (∀ g ∈ lp.sos1, Sos1 z g) ∧
      ∀ k, ¬ LaxSet ops k → m.obeys lp z k := by
  obtain ⟨hv, _, h2, h1, _⟩ := assemble_parts hl
  obtain ⟨z, hs, hzl, hzw, hz2, hzo⟩ : ∃ z, SameSchedule m x z ∧ (∀ v ∈ m.losses.getD [], v.lb ≤ z v.vid ∧ z v.vid ≤ v.ub) ∧
      (∀ w ∈ m.weights.getD [], 0 ≤ z w.vid ∧ z w.vid ≤ 1) ∧ (∀ g ∈ m.sos2Groups, Sos2 z g) ∧ m.obeys lp z .interpWeights := by
    rcases h.losses_op with ⟨e1, e2, e3⟩ | ⟨fs, bs, ho⟩
    · refine ⟨x, ⟨fun _ _ => rfl, fun _ _ => rfl, fun _ _ => rfl⟩, by simp [e1], by simp [e2], ?_, e3 lp x⟩
      simp [Market.sos2Groups, e2, groupBy]
    · have hfirm : (Op.losses fs bs).firm := by
        rcases h.kinds _ ho with hk | hk
        · exact hk
        · exact hk.elim
      exact losses_meets (h.lossesKeeping ho) hfirm hl (hm _ ho hfirm)
  have hmz : Permitted m ops z := fun op ho hf => hs.meets (hm op ho hf)
  have hb : ∀ b ∈ m.bids.getD [], 0 ≤ z b.vid ∧ z b.vid ≤ b.ub := by
    rcases h.bids_op with e | ⟨bs, ho⟩
    · simp [e]
    · exact hmz _ ho trivial
  have hi : (∀ v ∈ m.inters.getD [], v.lb ≤ z v.vid ∧ z v.vid ≤ v.ub) ∧ ∀ g ∈ m.sos1Groups, Sos1 z g := by
    rcases h.inters_op with ⟨e, _⟩ | ⟨ds, ho⟩
    · simp [e, Market.sos1Groups, groupBy]
    · exact inters_meets (h.inForce ho) (hmz _ ho trivial)
  refine ⟨z, hs, ?_, by rw [h2]; exact hz2, by rw [h1]; exact hi.2, fun k hlax => ?_⟩
  · rw [hv]
    unfold Market.allVars
    intro v hv hnd
    simp only [List.mem_append, List.mem_map] at hv
    rcases hv with (((⟨b, hb', rfl⟩ | ⟨b, hb', rfl⟩) | ⟨b, hb', rfl⟩) | ⟨b, hb', rfl⟩) | hb'
    · exact ⟨(hb b hb').1, fun u hu => by injection hu with hu; rw [← hu]; exact (hb b hb').2⟩
    · exact ⟨(hi.1 b hb').1, fun u hu => by injection hu with hu; rw [← hu]; exact (hi.1 b hb').2⟩
    · exact ⟨(hzl b hb').1, fun u hu => by injection hu with hu; rw [← hu]; exact (hzl b hb').2⟩
    · exact ⟨(hzw b hb').1, fun u hu => by injection hu with hu; rw [← hu]; exact (hzw b hb').2⟩
    · refine absurd ?_ hnd
      obtain ⟨d, hd, hb'⟩ := List.mem_flatMap.1 hb'
      obtain ⟨b, hb', e⟩ := List.mem_map.1 hb'
      rw [← e]
      exact List.mem_flatMap.2 ⟨d, hd, List.mem_map_of_mem hb'⟩
  · by_cases hk : k = .interpWeights
    · rw [hk]; exact hzo
    · exact (h.sets_iff hl).2 (fun op ho hf _ => hmz op ho hf) k hk hlax

end Verif
