import Verif.Proofs.Whole
import Mathlib.Algebra.Order.Ring.Abs
import Mathlib.Tactic.Linarith
import Mathlib.Tactic.Ring

/-! Helper lemmas: schedules of a defined market and the weights of break points. -/

namespace Verif

theorem sum_ite_mem {L : List ℚ} (hn : L.Nodup) {a : ℚ} (ha : a ∈ L) (g : ℚ → ℚ) (c : ℚ) :
    (L.map (fun q => g q * (if q = a then c else 0))).sum = g a * c := by
  induction L with
  | nil => simp at ha
  | cons q L ih =>
    rw [List.map_cons, List.sum_cons]
    rw [List.nodup_cons] at hn
    by_cases e : q = a
    · subst e
      have : (L.map (fun q' => g q' * (if q' = q then c else 0))).sum = 0 := by
        apply sum_map_zero
        intro q' hq'
        rw [if_neg (by rintro rfl; exact hn.1 hq'), mul_zero]
      rw [this, if_pos rfl, add_zero]
    · rw [if_neg e, mul_zero, zero_add]
      rcases List.mem_cons.1 ha with h | h
      · exact absurd h.symm e
      · exact ih hn.2 h

/-- neighbouring break points and a value on the line between them have weights -/
theorem weights_exist {pts : List BreakPt} (hn : (pts.map BreakPt.seg).Nodup) (hinc : Increasing pts) {fn : ℚ → ℚ} {t v : ℚ}
    (h : Interpolates fn (pts.map BreakPt.bp) t v) :
    ∃ W : ℚ → ℚ, (∀ q, 0 ≤ W q ∧ W q ≤ 1) ∧ (pts.map (fun p => W p.bp)).sum = 1 ∧ (pts.map (fun p => p.bp * W p.bp)).sum = t ∧
      (pts.map (fun p => fn p.bp * W p.bp)).sum = v ∧
      ∀ p ∈ pts, ∀ q ∈ pts, W p.bp ≠ 0 → W q.bp ≠ 0 → ∀ c ∈ pts, ¬ (p.seg < c.seg ∧ c.seg < q.seg) := by
  obtain ⟨a, ha, b, hb, hat, htb, hadj, hv⟩ := h
  have hnb : (pts.map BreakPt.bp).Nodup := by
    refine List.Nodup.map_on ?_ (List.Nodup.of_map _ hn)
    intro p hp q hq e
    by_contra hne
    rcases lt_trichotomy p.seg q.seg with hlt | heq | hlt
    · have := hinc p hp q hq hlt; rw [e] at this; exact absurd this (lt_irrefl _)
    · exact hne (List.inj_on_of_nodup_map hn hp hq heq)
    · have := hinc q hq p hp hlt; rw [e] at this; exact absurd this (lt_irrefl _)
  have hab : a ≤ b := le_trans hat htb
  obtain ⟨wa, wb, w1, w2, w3, w4, w5, w6⟩ : ∃ wa wb : ℚ, 0 ≤ wa ∧ 0 ≤ wb ∧ wa + wb = 1 ∧ a * wa + b * wb = t ∧ fn a * wa + fn b * wb = v ∧
      (a = b → wb = 0) := by
    by_cases e : a = b
    · refine ⟨1, 0, by norm_num, by norm_num, by norm_num, ?_, ?_, fun _ => rfl⟩
      · have : t = a := le_antisymm (by rw [e]; exact htb) hat
        rw [this]; ring
      · rw [hv, lineAt, if_pos e]; ring
    · have hlt : a < b := lt_of_le_of_ne hab e
      have hpos : 0 < b - a := by linarith
      refine ⟨(b - t) / (b - a), (t - a) / (b - a), div_nonneg (by linarith) hpos.le, div_nonneg (by linarith) hpos.le, ?_, ?_, ?_,
        fun h => absurd h e⟩
      · rw [← add_div]
        have : b - t + (t - a) = b - a := by ring
        rw [this, div_self hpos.ne']
      · have h1 : a * ((b - t) / (b - a)) + b * ((t - a) / (b - a)) = t * ((b - a) / (b - a)) := by
          rw [mul_div_assoc', mul_div_assoc', mul_div_assoc', ← add_div]
          congr 1; ring
        rw [h1, div_self hpos.ne', mul_one]
      · rw [hv, lineAt, if_neg e]
        have h1 : fn a = fn a * ((b - a) / (b - a)) := by rw [div_self hpos.ne', mul_one]
        have h2 : fn a + (fn b - fn a) / (b - a) * (t - a) = fn a * ((b - a) / (b - a)) + (fn b - fn a) / (b - a) * (t - a) := by
          rw [← h1]
        rw [h2]
        simp only [div_eq_mul_inv]
        ring
  refine ⟨fun q => (if q = a then wa else 0) + (if q = b then wb else 0), ?_, ?_, ?_, ?_, ?_⟩
  · intro q
    by_cases e1 : q = a <;> by_cases e2 : q = b
    · simp only [if_pos e1, if_pos e2]; constructor <;> linarith
    · simp only [if_pos e1, if_neg e2]; constructor <;> linarith
    · simp only [if_neg e1, if_pos e2]; constructor <;> linarith
    · simp only [if_neg e1, if_neg e2]; constructor <;> norm_num
  · have key := fun g : ℚ → ℚ => sum_ite_mem hnb ha g wa
    have key2 := fun g : ℚ → ℚ => sum_ite_mem hnb hb g wb
    have : pts.map (fun p => (if p.bp = a then wa else 0) + (if p.bp = b then wb else 0)) =
        pts.map (fun p => (1 * (if p.bp = a then wa else 0)) + (1 * (if p.bp = b then wb else 0))) := by simp
    rw [this, sum_map_add]
    have k1 := key (fun _ => 1)
    have k2 := key2 (fun _ => 1)
    rw [List.map_map] at k1 k2
    simp only [Function.comp_def] at k1 k2
    rw [k1, k2]; linarith
  · have k1 := sum_ite_mem hnb ha (fun q => q) wa
    have k2 := sum_ite_mem hnb hb (fun q => q) wb
    rw [List.map_map] at k1 k2
    simp only [Function.comp_def] at k1 k2
    simp only [mul_add]
    rw [sum_map_add, k1, k2, w4]
  · have k1 := sum_ite_mem hnb ha fn wa
    have k2 := sum_ite_mem hnb hb fn wb
    rw [List.map_map] at k1 k2
    simp only [Function.comp_def] at k1 k2
    simp only [mul_add]
    rw [sum_map_add, k1, k2, w5]
  · intro p hp q hq hwp hwq c hc ⟨h1, h2⟩
    have l1 := hinc p hp c hc h1
    have l2 := hinc c hc q hq h2
    have isab : ∀ r : ℚ, (if r = a then wa else 0) + (if r = b then wb else 0) ≠ 0 → r = a ∨ r = b := by
      intro r hr
      by_contra hcon
      push Not at hcon
      rw [if_neg hcon.1, if_neg hcon.2] at hr
      exact hr (by norm_num)
    have hcm : c.bp ∈ pts.map BreakPt.bp := List.mem_map_of_mem hc
    rcases isab _ hwp with e1 | e1 <;> rcases isab _ hwq with e2 | e2
    · linarith
    · exact hadj c.bp hcm ⟨by linarith, by linarith⟩
    · linarith
    · linarith

theorem SameSchedule.symm {m : Market} {x z : Nat → ℚ} (h : SameSchedule m x z) : SameSchedule m z x :=
  ⟨fun b hb => (h.1 b hb).symm, fun b hb => (h.2.1 b hb).symm, fun b hb => (h.2.2 b hb).symm⟩

theorem SameSchedule.dispatched {m : Market} {x z : Nat → ℚ} (h : SameSchedule m x z) : m.dispatched z = m.dispatched x := by
  funext u s d
  unfold Market.dispatched
  apply sum_map_congr; intro b hb; exact h.1 b (List.mem_of_mem_filter hb)

theorem SameSchedule.flow {m : Market} {x z : Nat → ℚ} (h : SameSchedule m x z) : m.flow z = m.flow x := by
  funext i l
  unfold Market.flow
  apply sum_map_congr; intro b hb; exact h.2.1 b (List.mem_of_mem_filter hb)

theorem SameSchedule.linkLoss {m : Market} {x z : Nat → ℚ} (h : SameSchedule m x z) : m.linkLoss z = m.linkLoss x := by
  funext i l
  unfold Market.linkLoss
  apply sum_map_congr; intro b hb; exact h.2.2 b (List.mem_of_mem_filter hb)

theorem SameSchedule.meets {m : Market} {x z : Nat → ℚ} (h : SameSchedule m x z) {fs : List LossFn} {op : Op} (hm : op.meets m fs x) :
    op.meets m fs z := by
  have hd := h.dispatched
  have hf := h.flow
  have hl := h.linkLoss
  have hs : m.supply z = m.supply x := by funext r s; unfold Market.supply; rw [hd]
  have hn : m.netImport z = m.netImport x := by funext r; unfold Market.netImport; rw [hf]
  have hc : m.chargedLoss z = m.chargedLoss x := by funext fs r; unfold Market.chargedLoss; rw [hl]
  have hss : m.setSupply z = m.setSupply x := by funext rs t; unfold Market.setSupply; rw [hs]
  have hno : m.netOutput z = m.netOutput x := by funext u; unfold Market.netOutput; rw [hd]
  have ho : m.output z = m.output x := by funext u s d; unfold Market.output; rw [hd]
  have hse : m.sideEnergy z = m.sideEnergy x := by funext u d; unfold Market.sideEnergy; rw [ho]
  have hpo : m.position z = m.position x := by funext u d; unfold Market.position; rw [ho, hno]
  have hre : m.regulation z = m.regulation x := by funext u s d; unfold Market.regulation; rw [ho, hd]
  have hrg : m.regEnergy z = m.regEnergy x := by funext u s; unfold Market.regEnergy; rw [hd]
  have hk : m.linked z = m.linked x := by
    funext t
    unfold Market.linked Market.unitTotal Market.regionTotal Market.interTotal
    rw [hd, hf]
  cases op with
  | volumeBids b =>
    simp only [Op.meets] at hm ⊢
    intro b hb
    rw [h.1 b hb]; exact hm b hb
  | _ => simp only [Op.meets, hd, hf, hl, hs, hn, hc, hss, hk, hno, ho, hse, hpo, hre, hrg] at hm ⊢ <;> exact hm

/-- the part of a market that no call sets is as at the start -/
theorem MadeBy.samePart {ops : List Op} {m : Market} (h : MadeBy ops m) {p : Part} (hp : ∀ o ∈ ops, p ∉ o.parts) :
    ∃ m0 : Market, SamePart m0 m p ∧ m0.bids = none ∧ m0.inters = none ∧ m0.dirs = none ∧ m0.losses = none ∧ m0.weights = none := by
  obtain ⟨r, u, d, m0, h1, h2, h3, rfl⟩ := h.history
  have e0 := (init_fresh h1).1
  exact ⟨m0, part_run hp, by rw [e0], by rw [e0], by rw [e0], by rw [e0], by rw [e0]⟩

theorem MadeBy.bids_op {ops : List Op} {m : Market} (h : MadeBy ops m) : m.bids = none ∨ ∃ bs, Op.volumeBids bs ∈ ops := by
  by_cases hc : ∃ bs, Op.volumeBids bs ∈ ops
  · exact Or.inr hc
  · left
    obtain ⟨m0, hs, e, _⟩ := h.samePart (p := .bids) (fun o ho hp => by
      cases o <;> first | exact hc ⟨_, ho⟩ | simp [Op.parts] at hp)
    simp only [SamePart] at hs
    rw [hs.1, e]

theorem MadeBy.inters_op {ops : List Op} {m : Market} (h : MadeBy ops m) :
    (m.inters = none ∧ m.dirs = none) ∨ ∃ ds, Op.interconnectors ds ∈ ops := by
  by_cases hc : ∃ bs, Op.interconnectors bs ∈ ops
  · exact Or.inr hc
  · left
    obtain ⟨m0, hs, _, e, e', _⟩ := h.samePart (p := .inters) (fun o ho hp => by
      cases o <;> first | exact hc ⟨_, ho⟩ | simp [Op.parts] at hp)
    simp only [SamePart] at hs
    rw [hs.1, hs.2.1, e, e']
    exact ⟨rfl, rfl⟩

theorem MadeBy.losses_op {ops : List Op} {m : Market} (h : MadeBy ops m) :
    (m.losses = none ∧ m.weights = none ∧ ∀ (lp : Lp) (x : Nat → ℚ), m.obeys lp x .interpWeights) ∨ ∃ fs bs, Op.losses fs bs ∈ ops := by
  by_cases hc : ∃ fs bs, Op.losses fs bs ∈ ops
  · exact Or.inr hc
  · left
    have hno : ∀ o ∈ ops, Part.set .interpWeights ∉ o.parts := fun o ho hp => by
      rcases h.kinds o ho with this | this <;>
      · cases o <;> first | exact hc ⟨_, _, ho⟩ | exact this | simp [Op.parts] at hp
    obtain ⟨m0, hs, _, _, _, e, e'⟩ := h.samePart (p := .set .interpWeights) hno
    simp only [SamePart] at hs
    have := hs.loss rfl
    exact ⟨by rw [this.2.2.2.1, e], by rw [this.2.2.1, e'], fun lp x => h.unset hno⟩

/-- interconnectors -/
theorem inters_meets {ds : List InterDef} {m : Market} (h : InForce (.interconnectors ds) m) {fs : List LossFn} {z : Nat → ℚ}
    (hm : (Op.interconnectors ds).meets m fs z) :
    (∀ v ∈ m.inters.getD [], v.lb ≤ z v.vid ∧ z v.vid ≤ v.ub) ∧ ∀ g ∈ m.sos1Groups, Sos1 z g := by
  obtain ⟨n, hw, e1, e2, hok⟩ := inters_set h
  have fl : ∀ (i : Nat) (d : InterDef), ds[i]? = some d → m.flow z d.inter d.link = z (n + i) := by
    intro i d hi
    unfold Market.flow
    rw [e2, Option.getD_some, flow_at (interKeys hok) hi]
    simp
  simp only [Op.meets] at hm
  constructor
  · rw [e2, Option.getD_some]
    intro v hv
    obtain ⟨i, d, hi, rfl⟩ := mem_saveIndex.1 hv
    have := hm.1 d (List.mem_of_getElem? hi)
    rw [fl i d hi] at this
    exact this
  · rw [Market.sos1Groups, e2, Option.getD_some]
    intro g hg a ha b hb ha0 hb0
    obtain ⟨s, hs, rfl⟩ := List.mem_map.1 hg
    obtain ⟨v, hv, rfl⟩ := List.mem_map.1 ha
    obtain ⟨v', hv', rfl⟩ := List.mem_map.1 hb
    unfold groupBy at hs
    obtain ⟨k, _, rfl⟩ := List.mem_map.1 hs
    simp only [List.mem_filter, decide_eq_true_eq] at hv hv'
    obtain ⟨⟨hv, hne⟩, hk⟩ := hv
    obtain ⟨⟨hv', hne'⟩, hk'⟩ := hv'
    obtain ⟨i, d, hi, rfl⟩ := mem_saveIndex.1 hv
    obtain ⟨j, d', hj, rfl⟩ := mem_saveIndex.1 hv'
    dsimp only at *
    have := hm.2 d (List.mem_of_getElem? hi) d' (List.mem_of_getElem? hj) (hk.trans hk'.symm) hne hne' (by rw [fl i d hi]; exact ha0)
      (by rw [fl j d' hj]; exact hb0)
    subst this
    have h2 := fl i d hi
    have h3 := flow_at (n := n) (interKeys hok) hi
    have h4 := flow_at (n := n) (interKeys hok) hj
    rw [h3] at h4
    simp only [List.cons.injEq, InterVar.mk.injEq, and_true, true_and] at h4
    exact h4

theorem weights_apart {m : Market} (hw : WF m) {w : WeightVar} (h : w ∈ m.weights.getD []) :
    (∀ b ∈ m.bids.getD [], b.vid ≠ w.vid) ∧ (∀ v ∈ m.inters.getD [], v.vid ≠ w.vid) ∧ (∀ v ∈ m.losses.getD [], v.vid ≠ w.vid) ∧
    ∀ w' ∈ m.weights.getD [], w'.vid = w.vid → w' = w := by
  have hn : (m.allVars.map LVar.vid).Nodup := by
    rw [List.nodup_iff_count_le_one]
    intro i
    rw [vcount_eq]
    exact (hw.var i).1
  unfold Market.allVars at hn
  simp only [List.map_append, List.map_map] at hn
  have h1 := (List.nodup_append.1 hn).1
  obtain ⟨_, h2, h3⟩ := List.nodup_append.1 h1
  have mw : w.vid ∈ List.map (LVar.vid ∘ fun v : WeightVar => { vid := v.vid, lb := 0, ub := some 1 }) (m.weights.getD []) :=
    List.mem_map.2 ⟨w, h, rfl⟩
  refine ⟨fun b hb => h3 b.vid ?_ w.vid mw, fun b hb => h3 b.vid ?_ w.vid mw, fun b hb => h3 b.vid ?_ w.vid mw, fun w' hw' e => ?_⟩
  · exact List.mem_append_left _ (List.mem_append_left _ (List.mem_map.2 ⟨b, hb, rfl⟩))
  · exact List.mem_append_left _ (List.mem_append_right _ (List.mem_map.2 ⟨b, hb, rfl⟩))
  · exact List.mem_append_right _ (List.mem_map.2 ⟨b, hb, rfl⟩)
  · exact List.inj_on_of_nodup_map (f := LVar.vid ∘ fun v : WeightVar => { vid := v.vid, lb := 0, ub := some 1 }) h2 hw' h e

theorem losses_meets {fs : List LossFn} {bs : List BreakPt} {m : Market} (h : InForceKeeping [.inters] (.losses fs bs) m)
    (hp : (Op.losses fs bs).firm) {lp : Lp} (hl : m.assemble = .ok lp) {gs : List LossFn} {x : Nat → ℚ} (hm : (Op.losses fs bs).meets m gs x) :
    ∃ z, SameSchedule m x z ∧ (∀ v ∈ m.losses.getD [], v.lb ≤ z v.vid ∧ z v.vid ≤ v.ub) ∧
      (∀ w ∈ m.weights.getD [], 0 ≤ z w.vid ∧ z w.vid ≤ 1) ∧ (∀ g ∈ m.sos2Groups, Sos2 z g) ∧ m.obeys lp z .interpWeights := by
  classical
  obtain ⟨ds, n, nv, nc, n1, n2, nw, ht⟩ := losses_set (by simp) h
  simp only [Op.meets] at hm
  simp only [Op.firm] at hp
  rw [ht.dirs, Option.getD_some] at hm
  -- weights for every link with break points
  have hW : ∀ k : String × String, ∃ W : ℚ → ℚ, (∀ q, 0 ≤ W q ∧ W q ≤ 1) ∧
      (pointsOf bs k.1 k.2 ≠ [] →
        ((pointsOf bs k.1 k.2).map (fun p => W p.bp)).sum = 1 ∧
        ((pointsOf bs k.1 k.2).map (fun p => p.bp * W p.bp)).sum = m.flow x k.1 k.2 ∧
        (∀ f ∈ fs, f.inter = k.1 → f.link = k.2 → ((pointsOf bs k.1 k.2).map (fun p => f.fn p.bp * W p.bp)).sum = m.linkLoss x k.1 k.2) ∧
        ∀ p ∈ pointsOf bs k.1 k.2, ∀ q ∈ pointsOf bs k.1 k.2, W p.bp ≠ 0 → W q.bp ≠ 0 → ∀ c ∈ pointsOf bs k.1 k.2, ¬ (p.seg < c.seg ∧ c.seg < q.seg)) := by
    intro k
    by_cases hne : pointsOf bs k.1 k.2 = []
    · exact ⟨fun _ => 0, fun _ => ⟨le_refl _, by norm_num⟩, fun hc => absurd hne hc⟩
    · obtain ⟨b, hb⟩ := List.exists_mem_of_ne_nil _ hne
      simp only [pointsOf, List.mem_filter, decide_eq_true_eq] at hb
      obtain ⟨f, hf, f1, f2⟩ := hp.2 b hb.1
      obtain ⟨d, hd, d1, d2⟩ := ht.known b hb.1
      have e1 : f.inter = k.1 := f1.trans hb.2.1
      have e2 : f.link = k.2 := f2.trans hb.2.2
      have e3 : d.inter = k.1 := d1.trans hb.2.1
      have e4 : d.link = k.2 := d2.trans hb.2.2
      have hi := (hm d hd f hf (e1.trans e3.symm) (e2.trans e4.symm)).2 (by rw [e3, e4]; exact hne)
      rw [e3, e4] at hi
      have hinc := hp.1 f hf
      rw [e1, e2] at hinc
      have h3 : ((pointsOf bs k.1 k.2).map (fun b => (b.inter, b.link, b.seg))).Nodup := ht.bkeys.sublist (List.filter_sublist.map _)
      have hseg : ((pointsOf bs k.1 k.2).map BreakPt.seg).Nodup := by
        apply List.Nodup.map_on _ (List.Nodup.of_map _ h3)
        intro a ha b hb hab
        apply List.inj_on_of_nodup_map h3 ha hb
        simp only [pointsOf, List.mem_filter, decide_eq_true_eq] at ha hb
        rw [ha.2.1, ha.2.2, hb.2.1, hb.2.2, hab]
      obtain ⟨W, w1, w2, w3, w4, w5⟩ := weights_exist hseg hinc hi
      refine ⟨W, w1, fun _ => ⟨w2, w3, fun f' hf' g1 g2 => ?_, w5⟩⟩
      have : f' = f := by
        apply List.inj_on_of_nodup_map ht.fkeys hf' hf
        rw [g1, g2, e1, e2]
      rw [this]; exact w4
  choose W hW1 hW2 using hW
  let z : Nat → ℚ := fun i => match (m.weights.getD []).find? (fun w => decide (w.vid = i)) with
    | some w => W (w.inter, w.link) w.bp
    | none => x i
  have zw : ∀ w ∈ m.weights.getD [], z w.vid = W (w.inter, w.link) w.bp := by
    intro w hw
    have hf : (m.weights.getD []).find? (fun w' => decide (w'.vid = w.vid)) = some w := by
      cases hc : (m.weights.getD []).find? (fun w' => decide (w'.vid = w.vid)) with
      | none =>
        rw [List.find?_eq_none] at hc
        exact absurd (decide_eq_true (rfl : w.vid = w.vid)) (by simpa using hc w hw)
      | some w' =>
        have h1 := List.mem_of_find?_eq_some hc
        have h2 := List.find?_some hc
        rw [(weights_apart ht.wf hw).2.2.2 w' h1 (by simpa using h2)]
    show (match (m.weights.getD []).find? (fun w' => decide (w'.vid = w.vid)) with | some w => W (w.inter, w.link) w.bp | none => x w.vid) = _
    rw [hf]
  have zx : ∀ i, (∀ w ∈ m.weights.getD [], i ≠ w.vid) → z i = x i := by
    intro i hi
    have : (m.weights.getD []).find? (fun w' => decide (w'.vid = i)) = none := by
      rw [List.find?_eq_none]
      intro w hw
      simpa using (hi w hw).symm
    show (match (m.weights.getD []).find? (fun w' => decide (w'.vid = i)) with | some w => W (w.inter, w.link) w.bp | none => x i) = _
    rw [this]
  have hsame : SameSchedule m x z :=
    ⟨fun b hb => zx _ (fun w hw => (weights_apart ht.wf hw).1 b hb), fun b hb => zx _ (fun w hw => (weights_apart ht.wf hw).2.1 b hb),
      fun b hb => zx _ (fun w hw => (weights_apart ht.wf hw).2.2.1 b hb)⟩
  have hws : m.weights.getD [] = weightVariables bs nw := by rw [ht.weights]; rfl
  have sums : ∀ (g : ℚ → ℚ) (i l : String), ((LossTables.weightsOf (weightVariables bs nw) (i, l)).map (fun w => g w.bp * z w.vid)).sum =
      ((pointsOf bs i l).map (fun p => g p.bp * W (i, l) p.bp)).sum := by
    intro g i l
    rw [← weightsOf_pt bs nw i l, List.map_map]
    apply sum_map_congr
    intro w hw
    simp only [LossTables.weightsOf, List.mem_filter, decide_eq_true_eq] at hw
    have := zw w (by rw [hws]; exact hw.1)
    rw [hw.2] at this
    rw [this]; rfl
  refine ⟨z, hsame, ?_, ?_, ?_, ?_⟩
  · intro v hv
    rw [ht.losses, Option.getD_some] at hv
    have hval := ht.loss_val hv z
    rw [hsame.linkLoss] at hval
    rw [← hval]
    unfold lossVariables lossVariablesAux at hv
    simp only [List.mem_map, List.mem_flatMap, List.mem_filter, decide_eq_true_eq] at hv
    obtain ⟨_, ⟨v', hv', g, ⟨hg, g1, g2⟩, rfl⟩, rfl⟩ := hv
    obtain ⟨j, v'', hv'', rfl⟩ := mem_saveIndex.1 hv'
    obtain ⟨j', d, hd, rfl⟩ := mem_saveIndex.1 (List.mem_of_getElem? hv'')
    unfold mergeFromRegion at hg
    simp only [List.mem_map, List.mem_flatMap, List.mem_filter, decide_eq_true_eq] at hg
    obtain ⟨f, hf, d', _, rfl⟩ := hg
    dsimp only at g1 g2 ⊢
    have := (hm d (List.mem_of_getElem? hd) f hf g1 g2).1
    rw [abs_le] at this
    exact ⟨by linarith [this.1], this.2⟩
  · intro w hw
    rw [zw w hw]
    exact hW1 _ _
  · unfold Market.sos2Groups
    rw [hws]
    intro g hg a ha b hb ha0 hb0 c hc
    obtain ⟨s, hs, rfl⟩ := List.mem_map.1 hg
    unfold groupBy at hs
    obtain ⟨k, _, rfl⟩ := List.mem_map.1 hs
    obtain ⟨wa, hwa, rfl⟩ := List.mem_map.1 ha
    obtain ⟨wb, hwb, rfl⟩ := List.mem_map.1 hb
    obtain ⟨wc, hwc, rfl⟩ := List.mem_map.1 hc
    have hin : ∀ w ∈ (weightVariables bs nw).filter (fun a => decide ((a.inter, a.link) = k)), w.pt ∈ pointsOf bs k.1 k.2 ∧ z w.vid = W k w.bp := by
      intro w hw
      refine ⟨?_, ?_⟩
      · rw [← weightsOf_pt bs nw k.1 k.2]
        exact List.mem_map_of_mem hw
      · simp only [List.mem_filter, decide_eq_true_eq] at hw
        rw [zw w (by rw [hws]; exact hw.1), hw.2]
    have hne : pointsOf bs k.1 k.2 ≠ [] := List.ne_nil_of_mem (hin wa hwa).1
    dsimp only at ha0 hb0
    rw [(hin wa hwa).2] at ha0
    rw [(hin wb hwb).2] at hb0
    exact (hW2 k hne).2.2.2 wa.pt (hin wa hwa).1 wb.pt (hin wb hwb).1 ha0 hb0 wc.pt (hin wc hwc).1
  · rw [ht.obeys_iff hl]
    intro d hd hne
    obtain ⟨a1, a2, a3, _⟩ := hW2 (d.inter, d.link) hne
    unfold LossTables.LinkOk
    rw [hsame.flow, hsame.linkLoss]
    refine ⟨?_, ?_, fun f hf f1 f2 => ?_⟩
    · have := sums (fun _ => 1) d.inter d.link
      simp only [one_mul] at this
      rw [this]; exact a1
    · rw [sums (fun q => q)]; exact a2
    · rw [sums f.fn]; exact a3 f hf f1 f2

end Verif
