import Verif.Proofs.Spread
import Verif.Proofs.ConstraintFile

/-!
# Lemmas: markets with the same offers
-/

namespace Verif

/-- unit, service, dispatch type and price of a band -/
def cls (ps : List BidRow) (b : BidVar) : String × Service × DType × Option ℚ :=
  (b.unit, b.service, b.dtype, priceOf ps b.unit b.service b.dtype b.band)

theorem melt_bands (vs : List BidRow) : (meltVolumes vs).map (fun v => (v.unit, v.service, v.dtype, v.band, v.ub)) =
    (bandsOf vs).filter (fun e => decide (1 / 10000 ≤ e.2.2.2.2)) := by
  unfold meltVolumes bandsOf
  induction vs with
  | nil => rfl
  | cons r vs ih =>
    simp only [List.flatMap_cons, List.filter_append, List.map_append]
    rw [ih]
    congr 1
    rw [List.filter_map, List.filter_map, List.map_map]
    rfl

theorem keyed_volume (vs ps : List BidRow) (n : Nat) (k : String × Service × DType × Option ℚ) :
    keyed (bidVariables vs n) (cls ps) BidVar.ub k = volumeAt vs ps k.1 k.2.1 k.2.2.1 k.2.2.2 := by
  obtain ⟨u, s, d, p⟩ := k
  unfold keyed volumeAt
  have hp := bidVariables_perm vs n
  rw [melt_bands] at hp
  have h2 := (hp.filter (fun e => decide ((e.1, e.2.1, e.2.2.1, priceOf ps e.1 e.2.1 e.2.2.1 e.2.2.2.1) = (u, s, d, p)))).map (fun e => e.2.2.2.2)
  rw [List.filter_map, List.map_map, List.filter_filter] at h2
  have e1 := h2.sum_eq
  have : ((bandsOf vs).filter (fun e => decide (e.1 = u ∧ e.2.1 = s ∧ e.2.2.1 = d ∧ 1 / 10000 ≤ e.2.2.2.2 ∧ priceOf ps u s d e.2.2.2.1 = p))) =
      (bandsOf vs).filter (fun a => decide ((a.1, a.2.1, a.2.2.1, priceOf ps a.1 a.2.1 a.2.2.1 a.2.2.2.1) = (u, s, d, p)) && decide (1 / 10000 ≤ a.2.2.2.2)) := by
    apply List.filter_congr
    rintro ⟨a, b, c, e, v⟩ _
    rw [← Bool.decide_and, decide_eq_decide]
    simp only [Prod.mk.injEq]
    constructor
    · rintro ⟨rfl, rfl, rfl, h, h'⟩; exact ⟨⟨rfl, rfl, rfl, h'⟩, h⟩
    · rintro ⟨⟨rfl, rfl, rfl, h'⟩, h⟩; exact ⟨rfl, rfl, rfl, h, h'⟩
  rw [this, ← e1]
  rfl

theorem bidVariables_pos {vs : List BidRow} {n : Nat} {b : BidVar} (h : b ∈ bidVariables vs n) : 0 < b.ub := by
  have : (b.unit, b.service, b.dtype, b.band, b.ub) ∈ (bidVariables vs n).map (fun v => (v.unit, v.service, v.dtype, v.band, v.ub)) :=
    List.mem_map.2 ⟨b, h, rfl⟩
  rw [(bidVariables_perm vs n).mem_iff, melt_bands] at this
  have := (List.mem_filter.1 this).2
  simp only [decide_eq_true_eq] at this
  linarith [show (0 : ℚ) < 1 / 10000 by norm_num]

theorem gRegion_of {m : Market} {gi : List GRegion} (hi : InForce (.linkRegions gi) m) : m.gRegion = some gi := by
  obtain ⟨a, ha, hm, hok, hb, hs⟩ := hi.unpack
  have hn := step_ok hok
  have hs := hs .gRegion (by simp [Op.parts])
  simp only [SamePart] at hs
  simp only [Market.step, hn, Market.linkRegions, Bool.false_eq_true, if_false] at hok hs
  split at hok
  · simp at hok
  · rename_i hc; rw [if_neg hc] at hs; exact hs

theorem MadeBy.links {ops : List Op} {m : Market} (h : MadeBy ops m) :
    (m.gUnit = none ∨ ∃ g, Op.linkUnits g ∈ ops) ∧ (m.gRegion = none ∨ ∃ g, Op.linkRegions g ∈ ops) ∧
    (m.gInter = none ∨ ∃ g, Op.linkInters g ∈ ops) := by
  obtain ⟨r, u, d, m0, h1, h2, h3, rfl⟩ := h.history
  have e0 := (init_fresh h1).1
  refine ⟨?_, ?_, ?_⟩
  · by_cases hc : ∃ g, Op.linkUnits g ∈ ops
    · exact Or.inr hc
    · left
      have := part_run (m := m0) (p := .gUnit) (ops := ops) (fun o ho hp => by
        cases o <;> first | exact hc ⟨_, ho⟩ | simp [Op.parts] at hp)
      simp only [SamePart] at this
      rw [this, e0]
  · by_cases hc : ∃ g, Op.linkRegions g ∈ ops
    · exact Or.inr hc
    · left
      have := part_run (m := m0) (p := .gRegion) (ops := ops) (fun o ho hp => by
        cases o <;> first | exact hc ⟨_, ho⟩ | simp [Op.parts] at hp)
      simp only [SamePart] at this
      rw [this, e0]
  · by_cases hc : ∃ g, Op.linkInters g ∈ ops
    · exact Or.inr hc
    · left
      have := part_run (m := m0) (p := .gInter) (ops := ops) (fun o ho hp => by
        cases o <;> first | exact hc ⟨_, ho⟩ | simp [Op.parts] at hp)
      simp only [SamePart] at this
      rw [this, e0]

/-- keys of the loss variables do not depend on ids -/
theorem lossVariables_keyList (ds : List InterDef) (n nv : Nat) (fr : List LossFnR) :
    (lossVariables (interVariables ds n) fr nv).map (fun v => (v.inter, v.link)) =
      ds.flatMap (fun d => (fr.filter (fun f => decide (f.inter = d.inter ∧ f.link = d.link))).map (fun _ => (d.inter, d.link))) := by
  unfold lossVariables lossVariablesAux
  rw [List.map_map, List.map_flatMap]
  have e1 : ∀ L : List LossVar, L.flatMap (fun a => List.map ((fun v : LossVar => (v.inter, v.link)) ∘ (fun x : LossVar × LossFnR => x.1))
      ((fr.filter (fun f => decide (f.inter = a.inter ∧ f.link = a.link))).map (fun f => (a, f)))) =
      (L.map (fun v => (v.inter, v.link))).flatMap (fun k => (fr.filter (fun f => decide (f.inter = k.1 ∧ f.link = k.2))).map (fun _ => k)) := by
    intro L
    rw [List.flatMap_map]
    congr 1
    funext a
    rw [List.map_map]
    rfl
  rw [e1, map_saveIndex, saveIndex_vals (interVariables ds n) nv (fun v => (v.inter, v.link)), interVariables, map_saveIndex,
    saveIndex_vals ds n (fun d => (d.inter, d.link)), List.flatMap_map]

section
variable {ops ops' : List Op} {m m' : Market} {vs ps vs' ps' : List BidRow}

theorem OtherOffers.mem (h : OtherOffers ops ops' m m' vs ps vs' ps') {op : Op} (hb : op.isBid = false) : op ∈ ops' ↔ op ∈ ops := by
  have e : ∀ l : List Op, op ∈ l ↔ op ∈ l.filter (fun o => !o.isBid) := by
    intro l; rw [List.mem_filter]; simp [hb]
  rw [e ops', e ops, h.others]

theorem filter_flatMap_bid {β : Type} (f : Op → List β) (hf : ∀ op, op.isBid = true → f op = []) (l : List Op) :
    (l.filter (fun o => !o.isBid)).flatMap f = l.flatMap f := by
  induction l with
  | nil => rfl
  | cons o l ih =>
    by_cases hb : o.isBid = true
    · rw [List.filter_cons_of_neg (by simp [hb]), ih, List.flatMap_cons, hf o hb]; rfl
    · rw [List.filter_cons_of_pos (by simpa using hb), List.flatMap_cons, List.flatMap_cons, ih]

theorem OtherOffers.losses (h : OtherOffers ops ops' m m' vs ps vs' ps') : lossesOf ops' = lossesOf ops := by
  unfold lossesOf
  rw [← filter_flatMap_bid _ _ ops', ← filter_flatMap_bid _ _ ops, h.others] <;> (intro op hb; cases op <;> first | rfl | cases hb)

theorem OtherOffers.tables (h : OtherOffers ops ops' m m' vs ps vs' ps') :
    m'.gUnit = m.gUnit ∧ m'.gRegion = m.gRegion ∧ m'.gInter = m.gInter ∧ m'.dirs = m.dirs ∧
    (m'.inters.getD []).map (fun v => (v.inter, v.link)) = (m.inters.getD []).map (fun v => (v.inter, v.link)) ∧
    (m'.losses.getD []).map (fun v => (v.inter, v.link)) = (m.losses.getD []).map (fun v => (v.inter, v.link)) := by
  obtain ⟨a1, a2, a3⟩ := h.made.links
  obtain ⟨b1, b2, b3⟩ := h.made'.links
  have hi : m'.dirs = m.dirs ∧ (m'.inters.getD []).map (fun v => (v.inter, v.link)) = (m.inters.getD []).map (fun v => (v.inter, v.link)) := by
    rcases h.made.inters_op with a | ⟨ds, a⟩
    · rcases h.made'.inters_op with b | ⟨ds, b⟩
      · rw [a.1, a.2, b.1, b.2]; exact ⟨rfl, rfl⟩
      · have := (h.mem rfl).1 b
        obtain ⟨n, _, e, _⟩ := inters_set (h.made.inForce this)
        rw [a.2] at e; cases e
    · obtain ⟨n, _, e, e', _⟩ := inters_set (h.made.inForce a)
      obtain ⟨n', _, f, f', _⟩ := inters_set (h.made'.inForce ((h.mem rfl).2 a))
      rw [e, f, e', f']
      refine ⟨rfl, ?_⟩
      simp only [Option.getD_some, interVariables, map_saveIndex, saveIndex_vals]
  refine ⟨?_, ?_, ?_, hi.1, hi.2, ?_⟩
  · rcases a1 with a | ⟨g, a⟩
    · rcases b1 with b | ⟨g, b⟩
      · rw [a, b]
      · have := gUnit_of (h.made.inForce ((h.mem rfl).1 b)); rw [a] at this; cases this
    · rw [gUnit_of (h.made.inForce a), gUnit_of (h.made'.inForce ((h.mem rfl).2 a))]
  · rcases a2 with a | ⟨g, a⟩
    · rcases b2 with b | ⟨g, b⟩
      · rw [a, b]
      · have := gRegion_of (h.made.inForce ((h.mem rfl).1 b)); rw [a] at this; cases this
    · rw [gRegion_of (h.made.inForce a), gRegion_of (h.made'.inForce ((h.mem rfl).2 a))]
  · rcases a3 with a | ⟨g, a⟩
    · rcases b3 with b | ⟨g, b⟩
      · rw [a, b]
      · have := gInter_of (h.made.inForce ((h.mem rfl).1 b)); rw [a] at this; cases this
    · rw [gInter_of (h.made.inForce a), gInter_of (h.made'.inForce ((h.mem rfl).2 a))]
  · rcases h.made.losses_op with a | ⟨fs, bs, a⟩
    · rcases h.made'.losses_op with b | ⟨fs, bs, b⟩
      · rw [a.1, b.1]
      · have := (h.mem rfl).1 b
        obtain ⟨ds, n, nv, nc, n1, n2, nw, ht⟩ := losses_set (by simp) (h.made.lossesKeeping this)
        have := ht.losses
        rw [a.1] at this; cases this
    · obtain ⟨ds, n, nv, nc, n1, n2, nw, ht⟩ := losses_set (by simp) (h.made.lossesKeeping a)
      obtain ⟨ds', n', nv', nc', n1', n2', nw', ht'⟩ := losses_set (by simp) (h.made'.lossesKeeping ((h.mem rfl).2 a))
      have : ds' = ds := by
        have e := ht'.dirs
        rw [hi.1, ht.dirs] at e
        injection e with e; exact e.symm
      subst this
      rw [ht.losses, ht'.losses, Option.getD_some, Option.getD_some, lossVariables_keyList, lossVariables_keyList]

theorem taken_keyed (ps : List BidRow) (x : Nat → ℚ) (k : String × Service × DType × Option ℚ) :
    keyed (m.bids.getD []) (cls ps) (fun b => x b.vid) k = m.takenAt ps x k.1 k.2.1 k.2.2.1 k.2.2.2 := by
  obtain ⟨u, s, d, p⟩ := k
  unfold keyed Market.takenAt
  congr 2
  apply List.filter_congr
  intro b _
  rw [decide_eq_decide]
  simp only [cls, Prod.mk.injEq]
  constructor
  · rintro ⟨rfl, rfl, rfl, h⟩; exact ⟨rfl, rfl, rfl, h⟩
  · rintro ⟨rfl, rfl, rfl, h⟩; exact ⟨rfl, rfl, rfl, h⟩

/-- the schedule of the second market with the same results -/
theorem OtherOffers.carry (h : OtherOffers ops ops' m m' vs ps vs' ps') {x : Nat → ℚ}
    (hx : ∀ b ∈ m.bids.getD [], 0 ≤ x b.vid) (ht : ∀ u s d p, m.takenAt ps x u s d p ≤ volumeAt vs' ps' u s d p) :
    ∃ x', Twin m m' x x' ∧ (∀ b ∈ m'.bids.getD [], 0 ≤ x' b.vid ∧ x' b.vid ≤ b.ub) ∧ m'.costAt ps' x' = m.costAt ps x := by
  obtain ⟨t1, t2, t3, t4, t5, t6⟩ := h.tables
  obtain ⟨n, hb, _, _⟩ := volumeBids_vars (h.made.inForce h.volumes)
  obtain ⟨n', hb', _, _⟩ := volumeBids_vars (h.made'.inForce h.volumes')
  have hB : m.bids.getD [] = bidVariables vs n := by rw [hb]; rfl
  have hB' : m'.bids.getD [] = bidVariables vs' n' := by rw [hb']; rfl
  have hpos : ∀ b ∈ m.bids.getD [], 0 < b.ub := by rw [hB]; exact fun b h => bidVariables_pos h
  have hpos' : ∀ b ∈ m'.bids.getD [], 0 < b.ub := by rw [hB']; exact fun b h => bidVariables_pos h
  -- totals of the first schedule
  let T := keyed (m.bids.getD []) (cls ps) (fun b => x b.vid)
  let F := keyed (m.inters.getD []) (fun v => (v.inter, v.link)) (fun v => x v.vid)
  let G := keyed (m.losses.getD []) (fun v => (v.inter, v.link)) (fun v => x v.vid)
  obtain ⟨x', x1, x2, x3⟩ := exists_schedule h.made'.wf (share (m'.bids.getD []) (cls ps') BidVar.ub T)
    (share (m'.inters.getD []) (fun v => (v.inter, v.link)) (fun _ => 1) F) (share (m'.losses.getD []) (fun v => (v.inter, v.link)) (fun _ => 1) G)
  have hT0 : ∀ k, 0 ≤ T k := by
    intro k
    apply List.sum_nonneg
    intro q hq
    obtain ⟨b, hb, rfl⟩ := List.mem_map.1 hq
    exact hx b (List.mem_of_mem_filter hb)
  have hTv : ∀ k, T k ≤ keyed (m'.bids.getD []) (cls ps') BidVar.ub k := by
    intro k
    rw [hB', keyed_volume]
    refine le_trans (le_of_eq ?_) (ht k.1 k.2.1 k.2.2.1 k.2.2.2)
    show keyed _ _ _ _ = _
    rw [taken_keyed]
  have hT : ∀ k, keyed (m'.bids.getD []) (cls ps') (fun b => x' b.vid) k = T k := by
    intro k
    rw [← keyed_share hpos' (T := T) (fun k hk => le_antisymm (by have := hTv k; rwa [keyed_zero hk] at this) (hT0 k)) k]
    unfold keyed
    congr 1
    exact List.map_congr_left (fun b hb => x1 b (List.mem_of_mem_filter hb))
  -- sums over bands of a function of their class
  have hsum : ∀ g : String × Service × DType × Option ℚ → ℚ, ((m'.bids.getD []).map (fun b => g (cls ps' b) * x' b.vid)).sum =
      ((m.bids.getD []).map (fun b => g (cls ps b) * x b.vid)).sum := by
    intro g
    rw [sum_keyed (List.nodup_dedup ((m'.bids.getD []).map (cls ps') ++ (m.bids.getD []).map (cls ps)))
        (fun b hb => List.mem_dedup.2 (List.mem_append_left _ (List.mem_map_of_mem hb))) g (fun b => x' b.vid),
      sum_keyed (List.nodup_dedup ((m'.bids.getD []).map (cls ps') ++ (m.bids.getD []).map (cls ps)))
        (fun b hb => List.mem_dedup.2 (List.mem_append_right _ (List.mem_map_of_mem hb))) g (fun b => x b.vid)]
    apply sum_map_congr
    intro k _
    rw [hT]
  let C : String × Service × DType × Option ℚ → ℚ := fun k => match k.2.2.2, lossFactor m.units k.1 k.2.2.1 with
        | some p, some f => if k.2.1 = .energy then (if k.2.2.1 = .load then -(p / f) else p / f) else p
        | _, _ => 0
  refine ⟨x', ⟨⟨?_, ?_, ?_⟩, h.units, h.di, t4, t1, t2, t3, ?_⟩, ?_, ?_⟩
  · funext u s d
    have := hsum (fun k => if k.1 = u ∧ k.2.1 = s ∧ k.2.2.1 = d then 1 else 0)
    unfold Market.dispatched
    rw [sum_filter_eq_ite, sum_filter_eq_ite]
    have e : ∀ (L : List BidVar) (y : Nat → ℚ) (qs : List BidRow), (L.map (fun b => (fun k : String × Service × DType × Option ℚ =>
        if k.1 = u ∧ k.2.1 = s ∧ k.2.2.1 = d then (1 : ℚ) else 0) (cls qs b) * y b.vid)) =
        L.map (fun b => if decide (b.unit = u ∧ b.service = s ∧ b.dtype = d) = true then y b.vid else 0) := by
      intro L y qs
      apply List.map_congr_left
      intro b _
      by_cases hc : b.unit = u ∧ b.service = s ∧ b.dtype = d
      · rw [if_pos (decide_eq_true hc)]
        show (if b.unit = u ∧ b.service = s ∧ b.dtype = d then (1 : ℚ) else 0) * _ = _
        rw [if_pos hc, one_mul]
      · rw [if_neg (by simpa using hc)]
        show (if b.unit = u ∧ b.service = s ∧ b.dtype = d then (1 : ℚ) else 0) * _ = _
        rw [if_neg hc, zero_mul]
    rw [e, e] at this
    exact this
  · funext i l
    have : m'.flow x' i l = keyed (m'.inters.getD []) (fun v => (v.inter, v.link)) (fun v => x' v.vid) (i, l) := by
      unfold Market.flow keyed; simp only [Prod.mk.injEq]
    have e : m.flow x i l = F (i, l) := by
      show _ = keyed _ _ _ _
      unfold Market.flow keyed; simp only [Prod.mk.injEq]
    rw [this, e, ← keyed_share (L := m'.inters.getD []) (key := fun v => (v.inter, v.link)) (w := fun _ => 1) (fun _ _ => one_pos) (T := F)
      (fun k hk => keyed_zero (by rw [← t5]; exact hk)) (i, l)]
    unfold keyed
    congr 1
    exact List.map_congr_left (fun b hb => x2 b (List.mem_of_mem_filter hb))
  · funext i l
    have : m'.linkLoss x' i l = keyed (m'.losses.getD []) (fun v => (v.inter, v.link)) (fun v => x' v.vid) (i, l) := by
      unfold Market.linkLoss keyed; simp only [Prod.mk.injEq]
    have e : m.linkLoss x i l = G (i, l) := by
      show _ = keyed _ _ _ _
      unfold Market.linkLoss keyed; simp only [Prod.mk.injEq]
    rw [this, e, ← keyed_share (L := m'.losses.getD []) (key := fun v => (v.inter, v.link)) (w := fun _ => 1) (fun _ _ => one_pos) (T := G)
      (fun k hk => keyed_zero (by rw [← t6]; exact hk)) (i, l)]
    unfold keyed
    congr 1
    exact List.map_congr_left (fun b hb => x3 b (List.mem_of_mem_filter hb))
  · funext u s d
    have : ∀ (a : Market) (qs : List BidRow), a.bidsFor u s d ↔ ∃ p, (u, s, d, p) ∈ (a.bids.getD []).map (cls qs) := by
      intro a qs
      constructor
      · rintro ⟨b, hb, rfl, rfl, rfl⟩
        exact ⟨_, List.mem_map.2 ⟨b, hb, rfl⟩⟩
      · rintro ⟨p, hp⟩
        obtain ⟨b, hb, e⟩ := List.mem_map.1 hp
        simp only [cls, Prod.mk.injEq] at e
        exact ⟨b, hb, e.1, e.2.1, e.2.2.1⟩
    have pos : ∀ (qs ws : List BidRow) (k : Nat) (p : Option ℚ), 0 < volumeAt ws qs u s d p ↔ (u, s, d, p) ∈ (bidVariables ws k).map (cls qs) := by
      intro qs ws k p
      have e := keyed_volume ws qs k (u, s, d, p)
      simp only at e
      rw [← e]
      constructor
      · intro h
        by_contra hc
        rw [keyed_zero hc] at h
        exact lt_irrefl _ h
      · exact keyed_pos (fun b h => bidVariables_pos h)
    rw [eq_iff_iff, this m' ps', this m ps]
    rw [hB, hB']
    have := h.sides u s d
    simp only [pos ps' vs' n', pos ps vs n] at this
    exact this
  · intro b hb
    rw [x1 b hb]
    exact share_bounds hpos' hT0 hTv hb
  · unfold Market.costAt
    rw [h.units]
    exact hsum C

theorem MoreOffers.toOther (h : MoreOffers ops ops' m m' vs ps vs' ps') : OtherOffers ops ops' m m' vs ps vs' ps' :=
  ⟨h.made, h.made', h.units, h.di, h.others, h.volumes, h.volumes', h.prices, h.prices', h.noTies,
    fun u s d => ⟨h.sides u s d, fun ⟨p, hp⟩ => ⟨p, lt_of_lt_of_le hp (h.more u s d p)⟩⟩⟩

/-- no schedule takes more than is offered -/
theorem OtherOffers.taken_le (h : OtherOffers ops ops' m m' vs ps vs' ps') {x : Nat → ℚ}
    (hx : ∀ b ∈ m.bids.getD [], 0 ≤ x b.vid ∧ x b.vid ≤ b.ub) (u : String) (s : Service) (d : DType) (p : Option ℚ) :
    m.takenAt ps x u s d p ≤ volumeAt vs ps u s d p := by
  obtain ⟨n, hb, _, _⟩ := volumeBids_vars (h.made.inForce h.volumes)
  have e1 := taken_keyed (m := m) ps x (u, s, d, p)
  have e2 := keyed_volume vs ps n (u, s, d, p)
  have hB : m.bids.getD [] = bidVariables vs n := by rw [hb]; rfl
  simp only at e1 e2
  rw [← e1, ← e2, ← hB]
  apply List.sum_le_sum
  intro b hb
  exact (hx b (List.mem_of_mem_filter hb)).2

/-- the same offers are offers of at least as much -/
theorem SameOffers.toMore (h : SameOffers ops ops' m m' vs ps vs' ps') : MoreOffers ops ops' m m' vs ps vs' ps' :=
  ⟨h.made, h.made', h.units, h.di, h.others, h.volumes, h.volumes', h.prices, h.prices', h.noTies, fun u s d p => (h.same u s d p).ge,
    fun u s d ⟨p, hp⟩ => ⟨p, h.same u s d p ▸ hp⟩⟩

theorem SameOffers.mem (h : SameOffers ops ops' m m' vs ps vs' ps') {op : Op} (hb : op.isBid = false) : op ∈ ops' ↔ op ∈ ops := h.toMore.toOther.mem hb

end

end Verif
