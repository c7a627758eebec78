import Verif.Spec.Price
import Verif.Proofs.Prices
import Verif.Proofs.ShadowCheck

/-!
# C32: the linear model used for pricing
-/

namespace Verif

/-! ### The three closest break points -/

theorem two_above {b p q r : ℚ} (hp : b ≤ p) (hq : b ≤ q) (hr : b ≤ r) (h1 : p ≠ q) (h2 : p ≠ r) (h3 : q ≠ r) {P : ℚ → Prop}
    (p1 : P p) (p2 : P q) (p3 : P r) : ∃ c d, P c ∧ P d ∧ b < c ∧ c < d := by
  rcases lt_or_gt_of_ne h1 with a | a <;> rcases lt_or_gt_of_ne h2 with b' | b' <;> rcases lt_or_gt_of_ne h3 with c | c
  · exact ⟨q, r, p2, p3, by linarith, c⟩
  · exact ⟨r, q, p3, p2, by linarith, c⟩
  · exact absurd (a.trans c) (not_lt.2 b'.le)
  · exact ⟨p, q, p1, p2, by linarith, a⟩
  · exact ⟨p, r, p1, p3, by linarith, b'⟩
  · exact absurd (a.trans b') (not_lt.2 c.le)
  · exact ⟨r, p, p3, p1, by linarith, b'⟩
  · exact ⟨q, p, p2, p1, by linarith, a⟩

theorem closest_above {pts : List ℚ} (he : EvenlySpaced pts) {a b t p q r : ℚ} (ha : a ∈ pts) (hb : b ∈ pts)
    (hadj : ∀ c ∈ pts, ¬ (a < c ∧ c < b)) (h1 : a < t) (h2 : t < b) (hp : p ∈ pts) (hq : q ∈ pts) (hr : r ∈ pts)
    (n1 : p ≠ q) (n2 : p ≠ r) (n3 : q ≠ r) (a1 : p ≠ a) (a2 : q ≠ a) (a3 : r ≠ a)
    (d1 : |t - p| ≤ |t - a|) (d2 : |t - q| ≤ |t - a|) (d3 : |t - r| ≤ |t - a|) : False := by
  have hat : |t - a| = t - a := abs_of_nonneg (by linarith)
  have key : ∀ c ∈ pts, c ≠ a → |t - c| ≤ |t - a| → b ≤ c ∧ c ≤ t + (t - a) := by
    intro c hc hne hd
    rw [hat, abs_le] at hd
    have : a < c := lt_of_le_of_ne (by linarith) (Ne.symm hne)
    refine ⟨?_, by linarith⟩
    by_contra h
    exact hadj c hc ⟨this, not_le.1 h⟩
  obtain ⟨c, d, ⟨hc, _⟩, ⟨hd, hd'⟩, h3, h4⟩ := two_above (P := fun c => c ∈ pts ∧ c ≤ t + (t - a)) (key p hp a1 d1).1 (key q hq a2 d2).1 (key r hr a3 d3).1
    n1 n2 n3 ⟨hp, (key p hp a1 d1).2⟩ ⟨hq, (key q hq a2 d2).2⟩ ⟨hr, (key r hr a3 d3).2⟩
  have := (he a ha b hb (h1.trans h2) hadj).1 c hc d hd h3 h4
  linarith

theorem closest_below {pts : List ℚ} (he : EvenlySpaced pts) {a b t p q r : ℚ} (ha : a ∈ pts) (hb : b ∈ pts)
    (hadj : ∀ c ∈ pts, ¬ (a < c ∧ c < b)) (h1 : a < t) (h2 : t < b) (hp : p ∈ pts) (hq : q ∈ pts) (hr : r ∈ pts)
    (n1 : p ≠ q) (n2 : p ≠ r) (n3 : q ≠ r) (a1 : p ≠ b) (a2 : q ≠ b) (a3 : r ≠ b)
    (d1 : |t - p| ≤ |t - b|) (d2 : |t - q| ≤ |t - b|) (d3 : |t - r| ≤ |t - b|) : False := by
  have hat : |t - b| = b - t := by rw [abs_sub_comm]; exact abs_of_nonneg (by linarith)
  have key : ∀ c ∈ pts, c ≠ b → |t - c| ≤ |t - b| → -a ≤ -c ∧ -c ≤ -t + (b - t) := by
    intro c hc hne hd
    rw [hat, abs_le] at hd
    have : c < b := lt_of_le_of_ne (by linarith) hne
    refine ⟨?_, by linarith⟩
    by_contra h
    exact hadj c hc ⟨by linarith, this⟩
  obtain ⟨c, d, ⟨hc, _⟩, ⟨hd, hd'⟩, h3, h4⟩ := two_above (P := fun c => -c ∈ pts ∧ c ≤ -t + (b - t)) (key p hp a1 d1).1 (key q hq a2 d2).1 (key r hr a3 d3).1
    (fun h => n1 (neg_injective h)) (fun h => n2 (neg_injective h)) (fun h => n3 (neg_injective h))
    ⟨by rwa [neg_neg], (key p hp a1 d1).2⟩ ⟨by rwa [neg_neg], (key q hq a2 d2).2⟩ ⟨by rwa [neg_neg], (key r hr a3 d3).2⟩
  have := (he a ha b hb (h1.trans h2) hadj).2 (-c) hc (-d) hd (by linarith) (by linarith)
  linarith

/-- With evenly spaced points the weights in use are among the three closest points. -/
theorem unused_zero (x : Nat → ℚ) (l : List WeightVar) (hv : (l.map WeightVar.vid).Nodup) (hn : (l.map WeightVar.seg).Nodup)
    (hinc : ∀ a ∈ l, ∀ b ∈ l, a.seg < b.seg → a.bp < b.bp) (h0 : ∀ w ∈ l, 0 ≤ x w.vid)
    (hs : Sos2 x (l.map (fun w => (w.vid, w.seg)))) {t : ℚ} (h1 : (l.map (fun w => x w.vid)).sum = 1)
    (h2 : (l.map (fun w => w.bp * x w.vid)).sum = t) (he : EvenlySpaced (l.map WeightVar.bp)) {L : List (ℚ × Nat)}
    (hp : L.Perm (l.map (fun w => (|t - w.bp|, w.vid)))) (ho : L.Pairwise (fun a b => a.1 ≤ b.1)) {p : ℚ × Nat} (hd : p ∈ L.drop 3) :
    x p.2 = 0 := by
  by_contra hx
  obtain ⟨w, hw, rfl⟩ := List.mem_map.1 (hp.mem_iff.1 (List.mem_of_mem_drop hd))
  simp only at hx
  have hLn : (L.map Prod.snd).Nodup := by
    rw [(hp.map Prod.snd).nodup_iff, List.map_map]; exact hv
  -- three other points at least as close
  obtain ⟨p1, p2, p3, L', rfl⟩ : ∃ p1 p2 p3 L', L = p1 :: p2 :: p3 :: L' := by
    match L, hd with
    | p1 :: p2 :: p3 :: L', _ => exact ⟨p1, p2, p3, L', rfl⟩
  simp only [List.drop_succ_cons, List.drop_zero] at hd
  have hseg : ∀ a ∈ l, ∀ b ∈ l, a.seg = b.seg → a = b := fun a ha b hb e => List.inj_on_of_nodup_map hn ha hb e
  have hbp : ∀ a ∈ l, ∀ b ∈ l, a.bp = b.bp → a = b := by
    intro a ha b hb e
    rcases lt_trichotomy a.seg b.seg with h | h | h
    · have := hinc a ha b hb h; linarith
    · exact hseg a ha b hb h
    · have := hinc b hb a ha h; linarith
  have hlt : ∀ a ∈ l, ∀ b ∈ l, a.bp < b.bp → a.seg < b.seg := by
    intro a ha b hb e
    rcases lt_trichotomy a.seg b.seg with h | h | h
    · exact h
    · rw [hseg a ha b hb h] at e; exact absurd e (lt_irrefl _)
    · have := hinc b hb a ha h; linarith
  have get : ∀ p ∈ (p1 :: p2 :: p3 :: L'), ∃ w ∈ l, p = (|t - w.bp|, w.vid) := by
    intro p hpm
    obtain ⟨w, hw, e⟩ := List.mem_map.1 (hp.mem_iff.1 hpm)
    exact ⟨w, hw, e.symm⟩
  obtain ⟨w1, hw1, rfl⟩ := get p1 (by simp)
  obtain ⟨w2, hw2, rfl⟩ := get p2 (by simp)
  obtain ⟨w3, hw3, rfl⟩ := get p3 (by simp)
  simp only [List.map_cons, List.nodup_cons, List.mem_cons, List.mem_map, not_or] at hLn
  simp only [List.pairwise_cons, List.mem_cons] at ho
  obtain ⟨⟨v12, v13, v1⟩, ⟨v23, v2⟩, v3, _⟩ := hLn
  obtain ⟨o1, o2, o3, _⟩ := ho
  have n1 : w1.bp ≠ w2.bp := fun e => v12 (by rw [hbp _ hw1 _ hw2 e])
  have n2 : w1.bp ≠ w3.bp := fun e => v13 (by rw [hbp _ hw1 _ hw3 e])
  have n3 : w2.bp ≠ w3.bp := fun e => v23 (by rw [hbp _ hw2 _ hw3 e])
  have m1 : w1.bp ≠ w.bp := fun e => v1 ⟨_, hd, by rw [hbp _ hw1 _ hw e]⟩
  have m2 : w2.bp ≠ w.bp := fun e => v2 ⟨_, hd, by rw [hbp _ hw2 _ hw e]⟩
  have m3 : w3.bp ≠ w.bp := fun e => v3 ⟨_, hd, by rw [hbp _ hw3 _ hw e]⟩
  have c1 := o1 _ (Or.inr (Or.inr hd))
  have c2 := o2 _ (Or.inr hd)
  have c3 := o3 _ hd
  simp only at c1 c2 c3
  have hwpos : 0 < x w.vid := lt_of_le_of_ne (h0 w hw) (Ne.symm hx)
  -- the other weight in use
  have hnd : l.Nodup := List.Nodup.of_map _ hv
  by_cases hall : ∀ w' ∈ l, w' ≠ w → x w'.vid = 0
  · have s1 : (l.map (fun w => x w.vid)).sum = x w.vid := by
      rw [sum_nonzero l (fun b => decide (b.vid = w.vid)) _ (by
        intro a ha e; exact hall a ha (by rintro rfl; simp at e)), filter_key_unique hv hw]
      simp
    have s2 : (l.map (fun w => w.bp * x w.vid)).sum = w.bp * x w.vid := by
      rw [sum_nonzero l (fun b => decide (b.vid = w.vid)) _ (by
        intro a ha e; rw [hall a ha (by rintro rfl; simp at e), mul_zero]), filter_key_unique hv hw]
      simp
    have ht : t = w.bp := by rw [← h2, s2, ← s1, h1, mul_one]
    rw [ht, sub_self, abs_zero, abs_nonpos_iff, sub_eq_zero] at c1
    exact m1 c1.symm
  · push Not at hall
    obtain ⟨w', hw', hne, hx'⟩ := hall
    have hwpos' : 0 < x w'.vid := lt_of_le_of_ne (h0 w' hw') (Ne.symm hx')
    have sos : ∀ a ∈ l, ∀ b ∈ l, x a.vid ≠ 0 → x b.vid ≠ 0 → ∀ c ∈ l, ¬ (a.seg < c.seg ∧ c.seg < b.seg) := by
      intro a ha b hb ea eb c hc
      exact hs _ (List.mem_map_of_mem ha) _ (List.mem_map_of_mem hb) ea eb _ (List.mem_map_of_mem (f := fun w : WeightVar => (w.vid, w.seg)) hc)
    have hns : w.seg ≠ w'.seg := fun e => hne (hseg _ hw' _ hw e.symm)
    have hall : ∀ a ∈ l, (decide (a = w) || decide (a = w')) = false → x a.vid = 0 := by
      intro a ha e
      simp only [Bool.or_eq_false_iff, decide_eq_false_iff_not] at e
      by_contra hxa
      have e1 : a.seg ≠ w.seg := fun h => e.1 (hseg _ ha _ hw h)
      have e2 : a.seg ≠ w'.seg := fun h => e.2 (hseg _ ha _ hw' h)
      rcases lt_or_gt_of_ne e1 with f1 | f1 <;> rcases lt_or_gt_of_ne e2 with f2 | f2 <;> rcases lt_or_gt_of_ne hns with f3 | f3
      · exact sos a ha w' hw' hxa hx' w hw ⟨f1, f3⟩
      · exact sos a ha w hw hxa hx w' hw' ⟨f2, f3⟩
      · omega
      · exact sos w' hw' w hw hx' hx a ha ⟨f2, f1⟩
      · exact sos w hw w' hw' hx hx' a ha ⟨f1, f2⟩
      · omega
      · exact sos w hw a ha hx hxa w' hw' ⟨f3, f2⟩
      · exact sos w' hw' a ha hx' hxa w hw ⟨f3, f1⟩
    have two : ∀ g : WeightVar → ℚ, (∀ a, x a.vid = 0 → g a = 0) → (l.map g).sum = g w + g w' := by
      intro g hg
      rw [sum_nonzero l (fun b => decide (b = w) || decide (b = w')) g (fun a ha e => hg a (hall a ha e))]
      have : (l.filter (fun b => decide (b = w) || decide (b = w'))).Perm [w, w'] := by
        rw [List.perm_ext_iff_of_nodup (hnd.filter _) (by simp [Ne.symm hne])]
        intro a
        simp only [List.mem_filter, Bool.or_eq_true, decide_eq_true_eq, List.mem_cons, List.not_mem_nil, or_false]
        constructor
        · exact fun h => h.2
        · rintro (rfl | rfl)
          · exact ⟨hw, Or.inl rfl⟩
          · exact ⟨hw', Or.inr rfl⟩
      rw [(this.map g).sum_eq]
      simp
    rw [two _ (fun a h => h)] at h1
    rw [two _ (fun a h => by rw [h, mul_zero])] at h2
    have hadj : ∀ a ∈ l, ∀ b ∈ l, x a.vid ≠ 0 → x b.vid ≠ 0 → ∀ c ∈ l.map WeightVar.bp, ¬ (a.bp < c ∧ c < b.bp) := by
      rintro a ha b hb ea eb c hc ⟨g1, g2⟩
      obtain ⟨v, hv, rfl⟩ := List.mem_map.1 hc
      exact sos a ha b hb ea eb v hv ⟨hlt _ ha _ hv g1, hlt _ hv _ hb g2⟩
    have mm : ∀ a ∈ l, a.bp ∈ l.map WeightVar.bp := fun a ha => List.mem_map_of_mem ha
    have ht : t = w.bp + (w'.bp - w.bp) * x w'.vid := by
      rw [← h2, show x w.vid = 1 - x w'.vid by linarith]; ring
    have ht' : t = w'.bp - (w'.bp - w.bp) * x w.vid := by
      rw [← h2, show x w'.vid = 1 - x w.vid by linarith]; ring
    rcases lt_or_gt_of_ne hns with f | f
    · have hb := hinc w hw w' hw' f
      have q1 := mul_pos (sub_pos.2 hb) hwpos'
      have q2 := mul_pos (sub_pos.2 hb) hwpos
      exact closest_above he (mm w hw) (mm w' hw') (hadj w hw w' hw' hx hx') (by linarith) (by linarith) (mm _ hw1) (mm _ hw2) (mm _ hw3)
        n1 n2 n3 m1 m2 m3 c1 c2 c3
    · have hb := hinc w' hw' w hw f
      have q1 := mul_pos (sub_pos.2 hb) hwpos'
      have q2 := mul_pos (sub_pos.2 hb) hwpos
      refine closest_below he (mm w' hw') (mm w hw) (hadj w' hw' w hw hx' hx) ?_ ?_ (mm _ hw1) (mm _ hw2) (mm _ hw3)
        n1 n2 n3 m1 m2 m3 c1 c2 c3
      · nlinarith
      · nlinarith

/-- **C32 (evenly spaced break points).**  If the break points of each link increase with their segment numbers and no segment is longer than
the next two together on either side, the dispatch is a feasible point of the linear model from which the prices are taken. -/
theorem C32_linear_keeps_solution_partial {fs : List LossFn} {bs : List BreakPt} {m : Market} (h : InForceKeeping [.inters] (.losses fs bs) m)
    {lp : Lp} (hl : m.assemble = .ok lp) {x : Nat → ℚ} (hx : Feasible lp x) {S : Solver} (hS : S.sorts)
    (hinc : ∀ i l, Increasing (pointsOf bs i l)) (hev : ∀ i l, EvenlySpaced ((pointsOf bs i l).map BreakPt.bp)) :
    Feasible (m.linear S x lp) x := by
  obtain ⟨ds, n, nv, nc, n1, n2, nw, ht⟩ := losses_set (by simp) h
  obtain ⟨hv, _, h2, _⟩ := assemble_parts hl
  have hz : ∀ i ∈ m.unusedWeights S x ++ m.unusedLinks x, x i = 0 := by
    intro i hi
    rcases List.mem_append.1 hi with hi | hi
    · unfold Market.unusedWeights at hi
      obtain ⟨v, hvm, hi⟩ := List.mem_flatMap.1 hi
      obtain ⟨p, hp, rfl⟩ := List.mem_map.1 hi
      rw [ht.inters, Option.getD_some] at hvm
      have hflow := ht.flow_val hvm x
      have hd : ∃ d ∈ ds, d.inter = v.inter ∧ d.link = v.link := by
        unfold interVariables at hvm
        obtain ⟨j, d, hd, rfl⟩ := mem_saveIndex.1 hvm
        exact ⟨d, List.mem_of_getElem? hd, rfl, rfl⟩
      obtain ⟨d, hd, d1, d2⟩ := hd
      have hdist : m.distances x v = (LossTables.weightsOf (weightVariables bs nw) (v.inter, v.link)).map (fun w => (|x v.vid - w.bp|, w.vid)) := by
        unfold Market.distances LossTables.weightsOf
        rw [ht.weights, Option.getD_some]
        congr 1
        apply List.filter_congr
        intro w _
        rw [decide_eq_decide]
        simp
      have hpt := weightsOf_pt bs nw v.inter v.link
      have hp0 : pointsOf bs v.inter v.link ≠ [] := by
        intro e
        rw [e, List.map_eq_nil_iff] at hpt
        rw [hpt] at hdist
        have := (hS (m.distances x v)).1
        rw [hdist] at this
        rw [hdist, List.Perm.eq_nil this] at hp
        cases hp
      have ok := (ht.obeys_iff hl).1 (hx.obeys m _) d hd (by rw [d1, d2]; exact hp0)
      unfold LossTables.LinkOk at ok
      rw [d1, d2, hflow] at ok
      have hin : ∀ w ∈ LossTables.weightsOf (weightVariables bs nw) (v.inter, v.link), w.pt ∈ pointsOf bs v.inter v.link := by
        intro w hw; rw [← hpt]; exact List.mem_map_of_mem hw
      have hSS := hS (m.distances x v)
      rw [hdist] at hSS hp
      refine unused_zero x (LossTables.weightsOf (weightVariables bs nw) (v.inter, v.link)) ?_ ?_ ?_ ?_ ?_ ok.1 ok.2.1 ?_ hSS.1 hSS.2 hp
      · have : ((weightVariables bs nw).map WeightVar.vid).Nodup := by
          unfold weightVariables
          rw [map_saveIndex, saveIndex_ids]
          exact List.nodup_range'
        exact this.sublist (List.filter_sublist.map _)
      · have : (LossTables.weightsOf (weightVariables bs nw) (v.inter, v.link)).map WeightVar.seg = (pointsOf bs v.inter v.link).map BreakPt.seg := by
          rw [← hpt, List.map_map]; rfl
        rw [this]
        have h3 : ((pointsOf bs v.inter v.link).map (fun b => (b.inter, b.link, b.seg))).Nodup :=
          ht.bkeys.sublist (List.filter_sublist.map _)
        apply List.Nodup.map_on _ (List.Nodup.of_map _ h3)
        intro a ha b hb hab
        apply List.inj_on_of_nodup_map h3 ha hb
        simp only [pointsOf, List.mem_filter, decide_eq_true_eq] at ha hb
        rw [ha.2.1, ha.2.2, hb.2.1, hb.2.2, hab]
      · intro a ha b hb hab
        exact hinc _ _ a.pt (hin a ha) b.pt (hin b hb) hab
      · intro w hw
        have hw' : w ∈ m.weights.getD [] := by rw [ht.weights]; exact List.mem_of_mem_filter hw
        have := hx.vars ⟨w.vid, 0, some 1⟩ (by
          rw [hv]; unfold Market.allVars
          refine List.mem_append_left _ (List.mem_append_right _ (List.mem_map.2 ⟨w, hw', rfl⟩)))
        exact this.1
      · apply hx.sos2
        rw [h2, Market.sos2Groups, ht.weights, Option.getD_some, List.mem_map]
        refine ⟨LossTables.weightsOf (weightVariables bs nw) (v.inter, v.link), ?_, rfl⟩
        obtain ⟨b, hb⟩ := List.exists_mem_of_ne_nil _ hp0
        rw [← hpt, List.mem_map] at hb
        obtain ⟨w, hw, _⟩ := hb
        unfold LossTables.weightsOf at hw ⊢
        rw [List.mem_filter, decide_eq_true_eq] at hw
        rw [← hw.2]
        exact mem_groupBy hw.1
      · have e : (LossTables.weightsOf (weightVariables bs nw) (v.inter, v.link)).map WeightVar.bp = (pointsOf bs v.inter v.link).map BreakPt.bp := by
          rw [← hpt, List.map_map]; rfl
        rw [e]
        exact hev _ _
    · unfold Market.unusedLinks at hi
      obtain ⟨v, hvm, rfl⟩ := List.mem_map.1 hi
      exact (of_decide_eq_true (List.mem_filter.1 hvm).2).2
  unfold Market.linear
  rw [ht.losses]
  simp only [Option.isSome_some, if_true]
  refine ⟨?_, hx.rows, by simp [Lp.disable], by simp [Lp.disable]⟩
  intro v hvm
  obtain ⟨u, hu, rfl⟩ := List.mem_map.1 hvm
  split
  · rename_i hi
    have := hz _ hi
    exact ⟨this.ge, fun w hw => by cases hw; exact this.le⟩
  · exact hx.vars u hu

/-- **C32, without losses.**  If no losses are set the linear model only lacks the special ordered sets. -/
theorem C32_without_losses {m : Market} (h : m.losses = none) {lp : Lp} {x : Nat → ℚ} (hx : Feasible lp x) {S : Solver} :
    Feasible (m.linear S x lp) x := by
  unfold Market.linear
  rw [h]
  exact ⟨hx.vars, hx.rows, by simp, by simp⟩

/-! ### Instances -/

def linLoss : List LossFn := [{ inter := "I", link := "I", share := 1/2, fn := fun f => f * f / 1000 }]

/-- break points of the link I -/
def linPoints (l : List ℚ) : List BreakPt := l.zipIdx.map (fun p => { inter := "I", link := "I", seg := p.2, bp := p.1 })

/-- a region served over a lossy link with the given break points -/
def linCase (pts : List ℚ) (sol : List ℚ) : Case where
  regions := ["NSW", "VIC"]
  units := [{ unit := "A", region := "NSW" }]
  hist := [.volumeBids [{ unit := "A", bands := [("1", 200)] }], .priceBids [{ unit := "A", bands := [("1", 20)] }],
    .interconnectors [{ inter := "I", link := "I", fromR := "NSW", toR := "VIC", min := -100, max := 100 }],
    .losses linLoss (linPoints pts), .demand [{ region := "VIC", demand := (sol.getD 1 0) - (sol.getD 2 0) / 2 }] none]
  sol := sol

def linSolver (x : Nat → ℚ) : Solver where
  mip := fun _ => some x
  dual := fun _ _ => 0
  sort := fun l => l.insertionSort (fun a b => a.1 ≤ b.1)

theorem linSolver_sorts (x : Nat → ℚ) : (linSolver x).sorts := by
  intro l
  haveI : Std.Total (fun a b : ℚ × Nat => a.1 ≤ b.1) := ⟨fun a b => le_total _ _⟩
  haveI : IsTrans (ℚ × Nat) (fun a b => a.1 ≤ b.1) := ⟨fun a b c => le_trans⟩
  exact ⟨List.perm_insertionSort _ _, List.pairwise_insertionSort _ _⟩

instance (pts : List ℚ) : Decidable (EvenlySpaced pts) := by unfold EvenlySpaced; infer_instance
instance (bs : List BreakPt) : Decidable (Increasing bs) := by unfold Increasing; infer_instance

def evenCase : Case := linCase [-100, -50, 0, 50, 100] [0, 75, 25/4, 0, 0, 0, 1/2, 1/2]

/-- instance of C32: five break points, the flow is between two of them -/
example : ∃ m lp, InForceKeeping [.inters] (.losses linLoss (linPoints [-100, -50, 0, 50, 100])) m ∧ m.assemble = .ok lp ∧
    Feasible lp evenCase.x ∧ m.unusedWeights (linSolver evenCase.x) evenCase.x ≠ [] ∧
    Increasing (pointsOf (linPoints [-100, -50, 0, 50, 100]) "I" "I") ∧
    EvenlySpaced ((pointsOf (linPoints [-100, -50, 0, 50, 100]) "I" "I").map BreakPt.bp) := by
  have hb : evenCase.ok (fun m => decide (m.unusedWeights (linSolver evenCase.x) evenCase.x ≠ [])) = true := by decide +kernel
  obtain ⟨m, lp, h0, h1, h2, h3⟩ := Case.witness hb
  exact ⟨m, lp, Case.inForce (i := 3) (keep := [.inters]) h0 rfl (by decide +kernel), h1, h2, of_decide_eq_true h3, by decide +kernel, by decide +kernel⟩

def unevenCase : Case := linCase [0, 1, 2, 100] [0, 3, 97 / 98 * (4 / 1000) + 10 / 98, 0, 0, 97 / 98, 1 / 98]

/-- **C32 fails for uneven break points.**  With the break points 0, 1, 2, 100 and a flow of 3 the weight of 100 is in use, but 100
is not among the three closest break points: the dispatch is not feasible in the linear model. -/
theorem C32_uneven_negation : ∃ m lp, InForceKeeping [.inters] (.losses linLoss (linPoints [0, 1, 2, 100])) m ∧ m.assemble = .ok lp ∧
    Feasible lp unevenCase.x ∧ Increasing (pointsOf (linPoints [0, 1, 2, 100]) "I" "I") ∧ (linSolver unevenCase.x).sorts ∧
    m.flow unevenCase.x "I" "I" = 3 ∧ ¬ Feasible (m.linear (linSolver unevenCase.x) unevenCase.x lp) unevenCase.x := by
  have hb : unevenCase.ok (fun m => match m.assemble with
    | .error _ => false
    | .ok lp => decide (m.flow unevenCase.x "I" "I" = 3 ∧
        ¬ Feasible (m.linear (linSolver unevenCase.x) unevenCase.x lp) unevenCase.x)) = true := by decide +kernel
  obtain ⟨m, lp, h0, h1, h2, h3⟩ := Case.witness hb
  rw [h1] at h3
  obtain ⟨h4, h5⟩ := of_decide_eq_true h3
  exact ⟨m, lp, Case.inForce (i := 3) (keep := [.inters]) h0 rfl (by decide +kernel), h1, h2, by decide +kernel, linSolver_sorts _, h4, h5⟩

end Verif
