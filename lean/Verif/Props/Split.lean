import Verif.Proofs.SplitLp
import Verif.Proofs.Duality

/-!
# C122: regions that nothing connects are dispatched independently
-/

namespace Verif

variable {m m' : Market} {G : String → Prop}

/-- the combination of two schedules agrees with the first in the regions of `G` and with the second elsewhere -/
theorem agree_mixed (hm : Reached m) (ha : Unconnected m G) (x x' : Nat → ℚ) :
    m.agreeIn G x (mixed (m.sideIn G) x x') ∧ m.agreeIn (fun g => ¬ G g) x' (mixed (m.sideIn G) x x') := by
  refine ⟨⟨?_, ?_⟩, ?_, ?_⟩
  · intro b hb hu
    exact mixed_in ((sideIn_owned hm (owns_bid hb)).2 ((varIn_iff hm (owns_bid hb)).2 hu))
  · intro v hv hu
    exact mixed_in ((sideIn_owned hm (owns_inter hv)).2 ((varIn_iff hm (owns_inter hv)).2 hu))
  · rintro b hb ⟨i, hi, e, hg⟩
    apply mixed_out
    rw [sideIn_owned hm (owns_bid hb), varIn_iff hm (owns_bid hb)]
    show ¬ m.unitIn G b.unit
    rw [← e, unitIn_iff ha hi]; exact hg
  · rintro v hv ⟨d, hd, e, hg⟩
    apply mixed_out
    rw [sideIn_owned hm (owns_inter hv), varIn_iff hm (owns_inter hv)]
    rintro ⟨d', hd', e', hg'⟩
    exact hg (((ha.links d hd d' hd' (e.trans e'.symm)).1).2 hg')

theorem getElem?_forall₂ {α β : Type} {R : α → β → Prop} {l : List α} {l' : List β} (h : List.Forall₂ R l l') {i : Nat} {a : α} {b : β}
    (ha : l[i]? = some a) (hb : l'[i]? = some b) : R a b := by
  induction h generalizing i with
  | nil => simp at ha
  | cons h _ ih =>
    cases i with
    | zero => simp only [List.getElem?_cons_zero, Option.some.injEq] at ha hb; subst ha; subst hb; exact h
    | succ i => simp only [List.getElem?_cons_succ] at ha hb; exact ih ha hb

/-- rows of the same position of two tables with the same ids from `n` and `n'` on -/
theorem same_start {α β : Type} {l l' : List α} {n n' : Nat} {f f' : Nat → α → β} {id : β → Nat} (hf : ∀ i a, id (f i a) = i)
    (hf' : ∀ i a, id (f' i a) = i) (h : (saveIndex l' n' f').map id = (saveIndex l n f).map id) (hne : l ≠ []) : n' = n := by
  rw [map_saveIndex, map_saveIndex] at h
  cases l with
  | nil => exact absurd rfl hne
  | cons a l =>
    cases l' with
    | nil => simp [saveIndex] at h
    | cons b l' =>
      simp only [saveIndex, List.cons.injEq, hf, hf'] at h
      exact h.1

theorem lp_const_mkt (hw : ConWF m) {lp : Lp} (h : m.assemble = .ok lp) {r : LRow} (hr : r ∈ lp.rows) {k : CKey} {rows : List Row}
    (hk : m.mktRhs.get? k = some rows) {q : Row} (hq : q ∈ rows) (e : q.cid = r.cid) : r.rhs = .const q.rhs := by
  have h1 := lp_row_all h hr
  have h2 : (r.cid, q.ctype, Rhs.const q.rhs) ∈ m.allRows := by
    simp only [Market.allRows, List.mem_append, List.mem_map]
    exact Or.inl (Or.inr ⟨q, List.mem_flatMap.2 ⟨_, Dict.mem_of_get? hk, hq⟩, by rw [e]⟩)
  exact (unique_row hw h1 h2).2

theorem lp_const_con (hw : ConWF m) {lp : Lp} (h : m.assemble = .ok lp) {r : LRow} (hr : r ∈ lp.rows) {k : CKey} {rows : List Row}
    (hk : m.conRhs.get? k = some rows) {q : Row} (hq : q ∈ rows) (e : q.cid = r.cid) : r.rhs = .const q.rhs := by
  have h1 := lp_row_all h hr
  have h2 : (r.cid, q.ctype, Rhs.const q.rhs) ∈ m.allRows := by
    simp only [Market.allRows, List.mem_append, List.mem_map]
    exact Or.inl (Or.inl ⟨q, List.mem_flatMap.2 ⟨_, Dict.mem_of_get? hk, hq⟩, by rw [e]⟩)
  exact (unique_row hw h1 h2).2

/-- the programs of two markets that differ in the demand of regions outside `G` -/
theorem demand_parts {ds ds' : List Demand} {vc : Option VCost} {fs : List LossFn} (h : OneCall [] (.demand ds vc) (.demand ds' vc) m m')
    (hd : List.Forall₂ (fun d d' => d'.region = d.region ∧ (G d.region → d'.demand = d.demand)) ds ds') (hf : LossFunctions fs m)
    (ha : Unconnected m G) {lp lp' : Lp} (hl : m.assemble = .ok lp) (hl' : m'.assemble = .ok lp') :
    TwoParts lp lp' (m.sideIn G) (m.conIn G) ∧ TwoParts lp' lp (m.sideIn G) (m.conIn G) ∧ ∀ z, lp'.cost z = lp.cost z := by
  have hm := h.first.inForce.reached
  have hm' := h.second.inForce.reached
  obtain ⟨hA, hB⟩ := demand_alike h (forall₂_map_eq hd _ (fun a b r => r.1))
  obtain ⟨_, n, t1, t2⟩ := h.first.inForce.demandSet.tables
  obtain ⟨_, n', t1', t2'⟩ := h.second.inForce.demandSet.tables
  have hr : ∀ r ∈ lp.rows, ∀ r' ∈ lp'.rows, r.cid = r'.cid → m.rowOf .demand r.cid → m.conIn G r.cid → r.rhs = r'.rhs := by
    intro r hr r' hr' e hk hc
    have hin := (conIn_names hm hf ha (inTab_of_rowOf hk) hc).1 _ t1
    rcases hk with ⟨rows, h1, q, hq, eq⟩ | ⟨rows, h1, q, hq, eq⟩ | ⟨h1, _⟩
    · have := hm.wf.con.conMkt _ (Dict.mem_of_get? h1); simp [CKey.isMarket] at this
    · rw [t1] at h1; injection h1 with h1; subst h1
      obtain ⟨i, d, hi, rfl⟩ := mem_saveIndex.1 hq
      obtain ⟨g, e1, hg⟩ := hin _ hq eq rfl
      injection e1 with e1
      subst e1
      obtain ⟨d', hi'⟩ : ∃ d', ds'[i]? = some d' := by
        have h1 := (List.getElem?_eq_some_iff.1 hi).1
        rw [hd.length_eq] at h1
        exact ⟨_, List.getElem?_eq_getElem h1⟩
      have hn : n' = n := by
        have h1 := (hA.mkt .demand).2
        rw [t1, t1'] at h1
        simp only [Option.map_some, Option.some.injEq] at h1
        have h2 := congrArg (List.map Row.cid) h1
        rw [List.map_map, List.map_map] at h2
        exact same_start (id := Row.cid) (fun _ _ => rfl) (fun _ _ => rfl) h2 (by rintro rfl; simp at hi)
      subst hn
      rw [lp_const_mkt hm.wf.con hl hr t1 hq eq,
        lp_const_mkt hm'.wf.con hl' hr' t1' (mem_saveIndex.2 ⟨i, d', hi', rfl⟩) (eq.trans e)]
      have := (getElem?_forall₂ hd hi hi').2 hg
      dsimp only
      rw [this]
    · cases h1
  obtain ⟨p1, p2⟩ := twoParts hm hm' hf ha hl hl' (by simp) hA hr
  exact ⟨p1, p2, alike_cost hA hB hl hl'⟩

/-- **C122**, demand.  Let nothing connect the regions of `G` with the other regions, and let two markets be the result of the same calls
but for the demand of regions outside `G`.  Then optimal dispatches of the two markets can be combined: what is optimal for the first
market is, in the regions of `G`, part of an optimal dispatch of the second, and the rest of any optimal dispatch of the second market
goes with it. -/
theorem C122_demand {ds ds' : List Demand} {vc : Option VCost} {fs : List LossFn} (h : OneCall [] (.demand ds vc) (.demand ds' vc) m m')
    (hd : List.Forall₂ (fun d d' => d'.region = d.region ∧ (G d.region → d'.demand = d.demand)) ds ds') (hf : LossFunctions fs m)
    (ha : Unconnected m G) {lp lp' : Lp} (hl : m.assemble = .ok lp) (hl' : m'.assemble = .ok lp') {x x' : Nat → ℚ} (hx : Optimal lp x)
    (hx' : Optimal lp' x') : ∃ y, Optimal lp' y ∧ m.agreeIn G x y ∧ m.agreeIn (fun g => ¬ G g) x' y := by
  obtain ⟨p1, p2, hc⟩ := demand_parts h hd hf ha hl hl'
  exact ⟨_, (p1.optimal p2 (fun z => hc _) hx hx').1, agree_mixed h.first.inForce.reached ha x x'⟩

/-- the price of a region under the combined prices -/
theorem prices_mixed {ds : List Demand} {p p' : Nat → ℚ} {k : CKey} (h : DemandSet ds m) (hA : Alike k m m')
    {energy : List (String × ℚ)} (he : m.energyPrices p = .ok energy) {y : List (String × ℚ)}
    (hy : m'.energyPrices (mixed (m.conIn G) p p') = .ok y) {g : String} (hg : G g) (q : ℚ) (hq : (g, q) ∈ energy) : (g, q) ∈ y := by
  obtain ⟨_, n, t1, _⟩ := h.tables
  unfold Market.energyPrices at he hy
  have h1 := (hA.mkt .demand).2
  rw [t1] at he h1
  injection he with he
  subst he
  cases hk : m'.mktRhs.get? .demand with
  | none => rw [hk] at hy; cases hy
  | some rows =>
    rw [hk] at hy h1
    injection hy with hy
    subst hy
    simp only [Option.map_some, Option.some.injEq] at h1
    obtain ⟨r, hr, e⟩ := List.mem_filterMap.1 hq
    obtain ⟨r', hr', e'⟩ : ∃ r' ∈ rows, r'.noRhs = r.noRhs := by
      have : r.noRhs ∈ rows.map Row.noRhs := by rw [h1]; exact List.mem_map_of_mem hr
      obtain ⟨r', h1, h2⟩ := List.mem_map.1 this
      exact ⟨r', h1, h2⟩
    have e1 : r'.cid = r.cid := by simpa [Row.noRhs] using congrArg Row.cid e'
    have e2 : r'.region = r.region := by simpa [Row.noRhs] using congrArg Row.region e'
    refine List.mem_filterMap.2 ⟨r', hr', ?_⟩
    rw [e1, e2]
    cases hreg : r.region with
    | none => rw [hreg] at e; cases e
    | some g' =>
      rw [hreg] at e
      simp only [Option.map_some, Option.some.injEq, Prod.mk.injEq] at e ⊢
      obtain ⟨rfl, rfl⟩ := e
      refine ⟨rfl, mixed_in (Or.inr (Or.inr ⟨_, t1, r, hr, rfl, ?_, g', hreg, hg⟩))⟩
      obtain ⟨i, d, _, rfl⟩ := mem_saveIndex.1 hr
      rfl

/-- energy prices of markets whose programs fall into the same two parts -/
theorem parts_prices {ds : List Demand} {k : CKey} (h : DemandSet ds m) (hA : Alike k m m') (hf : NoLosses m) (hf' : NoLosses m')
    (ha : Unconnected m G) {S S' : Solver} {o o' : Outcome} {lp lp' : Lp} (hl : m.assemble = .ok lp) (hl' : m'.assemble = .ok lp')
    (p1 : TwoParts lp lp' (m.sideIn G) (m.conIn G)) (p2 : TwoParts lp' lp (m.sideIn G) (m.conIn G))
    (hc : ∀ x, sidePart (m.sideIn G) x lp'.obj = sidePart (m.sideIn G) x lp.obj)
    {xl xl' : Nat → ℚ} (hs : ShadowPrices (m.linear S o.x lp) xl o.price) (hs' : ShadowPrices (m'.linear S' o'.x lp') xl' o'.price)
    {energy : List (String × ℚ)} (he : m.energyPrices o.price = .ok energy) :
    ∃ y p energy', ShadowPrices (m'.linear S' o'.x lp') y p ∧ m'.energyPrices p = .ok energy' ∧ m.agreeIn G xl y ∧
      m.agreeIn (fun g => ¬ G g) xl' y ∧ ∀ g q, G g → (g, q) ∈ energy → (g, q) ∈ energy' := by
  have lin : ∀ {m : Market} {S : Solver} {x : Nat → ℚ} {lp : Lp}, NoLosses m → m.linear S x lp = { lp with sos1 := [], sos2 := [] } := by
    intro m S x lp hf
    unfold Market.linear
    rw [(noLosses_none hf).2]
    rfl
  rw [lin hf] at hs
  rw [lin hf'] at hs' ⊢
  have drop : ∀ {l l' : Lp} {S P : Nat → Prop}, TwoParts l l' S P → TwoParts { l with sos1 := [], sos2 := [] } { l' with sos1 := [], sos2 := [] } S P :=
    fun h => ⟨h.vars, rfl, rfl, h.rows, h.side, by simp, by simp⟩
  have n1 := lpRows_nodup hl
  have n2 := lpRows_nodup hl'
  have key := (drop p1).shadow (drop p2) n1 n2 hc hs hs'
  obtain ⟨y, hy⟩ : ∃ y, m'.energyPrices (mixed (m.conIn G) o.price o'.price) = .ok y := by
    obtain ⟨_, n, t1, _⟩ := h.tables
    have h1 := (hA.mkt .demand).2
    rw [t1] at h1
    unfold Market.energyPrices
    cases hk : m'.mktRhs.get? .demand with
    | none => rw [hk] at h1; simp at h1
    | some rows => exact ⟨_, rfl⟩
  have hm : Reached m := by
    obtain ⟨r, u, di, m0, before, after, vc, h0, hb, _, _, e⟩ := h
    exact ⟨r, u, di, m0, _, h0, hb, e⟩
  obtain ⟨a1, a2⟩ := agree_mixed hm ha xl xl'
  exact ⟨_, _, y, key, hy, a1, a2, fun g q hg hq => prices_mixed h hA he hy hg q hq⟩

/-- **C122**, energy prices, without losses.  In the same situation let the prices of both markets be shadow prices.  Then the second
market has shadow prices that are those of the first market in every region of `G`: a change of demand elsewhere gives no reason for other
prices there. -/
theorem C122_energy_prices {ds ds' : List Demand} {vc : Option VCost} (h : OneCall [] (.demand ds vc) (.demand ds' vc) m m')
    (hd : List.Forall₂ (fun d d' => d'.region = d.region ∧ (G d.region → d'.demand = d.demand)) ds ds') (hf : NoLosses m) (hf' : NoLosses m')
    (ha : Unconnected m G) {S S' : Solver} {o o' : Outcome} {lp lp' : Lp} (hl : m.assemble = .ok lp) (hl' : m'.assemble = .ok lp')
    {xl xl' : Nat → ℚ} (hs : ShadowPrices (m.linear S o.x lp) xl o.price) (hs' : ShadowPrices (m'.linear S' o'.x lp') xl' o'.price)
    {energy : List (String × ℚ)} (he : m.energyPrices o.price = .ok energy) :
    ∃ y p energy', ShadowPrices (m'.linear S' o'.x lp') y p ∧ m'.energyPrices p = .ok energy' ∧ m.agreeIn G xl y ∧
      m.agreeIn (fun g => ¬ G g) xl' y ∧ ∀ g q, G g → (g, q) ∈ energy → (g, q) ∈ energy' := by
  obtain ⟨p1, p2, hc⟩ := demand_parts h hd (Or.inl ⟨rfl, hf⟩) ha hl hl'
  have hA := (demand_alike h (forall₂_map_eq hd _ (fun a b r => r.1))).1
  exact parts_prices h.first.inForce.demandSet hA hf hf' ha hl hl' p1 p2 (fun z => hc _) hs hs' he

/-- the programs of two markets that differ in the prices of units outside `G` -/
theorem priceBids_parts {ps ps' : List BidRow} {fs : List LossFn} (h : OneCall [.bids, .set .tieBreak] (.priceBids ps) (.priceBids ps') m m')
    (hb : BandsUnique ps) (hb' : BandsUnique ps') (hp : ∀ b ∈ m.bids.getD [], m.unitIn G b.unit → b.price ps' m = b.price ps m)
    (hf : LossFunctions fs m) (ha : Unconnected m G) {lp lp' : Lp} (hl : m.assemble = .ok lp) (hl' : m'.assemble = .ok lp') :
    TwoParts lp lp' (m.sideIn G) (m.conIn G) ∧ TwoParts lp' lp (m.sideIn G) (m.conIn G) ∧
      ∀ x, sidePart (m.sideIn G) x lp'.obj = sidePart (m.sideIn G) x lp.obj := by
  have hm := h.first.inForce.reached
  have hm' := h.second.inForce.reached
  have hA := priceBids_alike h
  have hr : ∀ k, ∀ r ∈ lp.rows, ∀ r' ∈ lp'.rows, r.cid = r'.cid → m.rowOf k r.cid → r.rhs = r'.rhs := by
    intro k r hr r' hr' e hk
    obtain ⟨k', hne⟩ : ∃ k', k' ≠ k := by
      by_cases hd : k = .demand
      · subst hd; exact ⟨.fcas, by simp⟩
      · exact ⟨.demand, Ne.symm hd⟩
    obtain ⟨q, hq, c1, _, _, c4⟩ := ((hA k').lp hm.wf.con hm'.wf.con hl hl').2.2.2 r hr
    have hn : ¬ m.rowOf k' r.cid := by
      intro hk'
      obtain ⟨own, ho⟩ := hm.wf.con.own
      exact hne ((ho _ _ (inTab_of_rowOf hk')).1.symm.trans (ho _ _ (inTab_of_rowOf hk)).1)
    have := c4 hn
    subst this
    exact lp_row_unique hm'.wf.con hl' hq hr' e
  obtain ⟨p1, p2⟩ := twoParts hm hm' hf ha hl hl' (k := .demand) (by simp) (hA .demand) (fun r hr1 r' hr2 e hk _ => hr .demand r hr1 r' hr2 e hk)
  refine ⟨p1, p2, ?_⟩
  intro z
  have keep : ∀ {op : Op} {m : Market}, InForceKeeping [.bids, .set .tieBreak] op m → InForceKeeping [.bids] op m := by
    rintro op m ⟨r, u, di, m0, before, after, h0, hb, ho, ha, e⟩
    exact ⟨r, u, di, m0, before, after, h0, hb, ho, fun o ho p hp => ha o ho p (by simp only [List.mem_append, List.mem_cons] at hp ⊢; tauto), e⟩
  have c1 := C05_objective_is_cost_of_bids (keep h.first) hb hl
  have c2 := C05_objective_is_cost_of_bids (keep h.second) hb' hl'
  rw [(hA .demand).bids, (hA .demand).units, (hA .demand).deficits] at c2
  show lp'.cost _ = lp.cost _
  rw [c1, c2]
  congr 1
  apply sum_map_congr
  intro b hbm
  by_cases hu : m.unitIn G b.unit
  · have := hp b hbm hu
    unfold BidVar.price at this
    rw [this]
  · have : ¬ m.sideIn G b.vid := by
      rw [sideIn_owned hm (owns_bid hbm), varIn_iff hm (owns_bid hbm)]; exact hu
    rw [mixed_out this, mul_zero, mul_zero]

/-- **C122**, prices.  The same for two markets in which bids of units outside `G` have different prices. -/
theorem C122_prices {ps ps' : List BidRow} {fs : List LossFn} (h : OneCall [.bids, .set .tieBreak] (.priceBids ps) (.priceBids ps') m m')
    (hb : BandsUnique ps) (hb' : BandsUnique ps') (hp : ∀ b ∈ m.bids.getD [], m.unitIn G b.unit → b.price ps' m = b.price ps m)
    (hf : LossFunctions fs m) (ha : Unconnected m G) {lp lp' : Lp} (hl : m.assemble = .ok lp) (hl' : m'.assemble = .ok lp') {x x' : Nat → ℚ}
    (hx : Optimal lp x) (hx' : Optimal lp' x') : ∃ y, Optimal lp' y ∧ m.agreeIn G x y ∧ m.agreeIn (fun g => ¬ G g) x' y := by
  obtain ⟨p1, p2, hc⟩ := priceBids_parts h hb hb' hp hf ha hl hl'
  exact ⟨_, (p1.optimal p2 hc hx hx').1, agree_mixed h.first.inForce.reached ha x x'⟩

/-- **C122**, energy prices when bids of units outside `G` change their prices. -/
theorem C122_energy_prices_of_prices {ds : List Demand} {ps ps' : List BidRow}
    (h : OneCall [.bids, .set .tieBreak] (.priceBids ps) (.priceBids ps') m m')
    (hb : BandsUnique ps) (hb' : BandsUnique ps') (hp : ∀ b ∈ m.bids.getD [], m.unitIn G b.unit → b.price ps' m = b.price ps m)
    (hds : DemandSet ds m) (hf : NoLosses m) (hf' : NoLosses m')
    (ha : Unconnected m G) {S S' : Solver} {o o' : Outcome} {lp lp' : Lp} (hl : m.assemble = .ok lp) (hl' : m'.assemble = .ok lp')
    {xl xl' : Nat → ℚ} (hs : ShadowPrices (m.linear S o.x lp) xl o.price) (hs' : ShadowPrices (m'.linear S' o'.x lp') xl' o'.price)
    {energy : List (String × ℚ)} (he : m.energyPrices o.price = .ok energy) :
    ∃ y p energy', ShadowPrices (m'.linear S' o'.x lp') y p ∧ m'.energyPrices p = .ok energy' ∧ m.agreeIn G xl y ∧
      m.agreeIn (fun g => ¬ G g) xl' y ∧ ∀ g q, G g → (g, q) ∈ energy → (g, q) ∈ energy' := by
  obtain ⟨p1, p2, hc⟩ := priceBids_parts h hb hb' hp (Or.inl ⟨rfl, hf⟩) ha hl hl'
  exact parts_prices hds (priceBids_alike h .demand) hf hf' ha hl hl' p1 p2 hc hs hs' he

/-- two capacity calls about the same units leave markets that differ in the limits only -/
theorem capacity_alike {ls ls' : List Lim} {vc : Option VCost} (h : OneCall [] (.capacity ls vc) (.capacity ls' vc) m m')
    (hd : List.Forall₂ (fun l l' => l' = { l with val := l'.val }) ls ls') : Alike .unitBidCapacity m m' ∧ m'.bidCost = m.bidCost := by
  obtain ⟨r, u, di, m0, before, after, h0, _, _, h1, h2, ha, rfl, rfl⟩ := h
  rw [run_append, run_append, run_cons, run_cons]
  generalize m0.run before = a at *
  have hA : AlikeR .unitBidCapacity (a.step (.capacity ls vc)) (a.step (.capacity ls' vc)) := by
    have hn := step_ok h1
    simp only [Market.step, hn, Bool.false_eq_true, if_false, Market.setCapacity] at h1 h2 ⊢
    split at h1
    · cases h1
    split at h1
    · cases h1
    split at h2
    · cases h2
    split at h2
    · cases h2
    rename_i c1 c2 c3 c4
    rw [if_neg c1, if_neg c2, if_neg c3, if_neg c4]
    refine AlikeR.andThen ?_ (fun m M h => elasticOpt_alike h _ _)
    have e1 : ls'.map (fun l => { l with val := 0 }) = ls.map (fun l => { l with val := 0 }) :=
      forall₂_map_eq hd _ (fun a b r => by rw [r])
    have k1 : ∀ l : List Lim, (createConstraints l a.nextCon .le).1.map Row.noRhs =
        saveIndex (l.map (fun l => { l with val := 0 })) a.nextCon (fun i _ => { cid := i, ctype := .le, rhs := 0 }) := by
      intro l
      unfold createConstraints
      rw [map_saveIndex, saveIndex_map]
      rfl
    have k2 : ∀ l : List Lim, (createConstraints l a.nextCon .le).2 = saveIndex (l.map (fun l => { l with val := 0 })) a.nextCon
        (fun i a => ({ cid := i, unit := a.unit, service := a.service, dtype := a.dtype, coef := 1 } : ConUnit)) := by
      intro l; rw [saveIndex_map]; rfl
    refine unitSet_alike' (.refl _ a) _ (fun e => absurd rfl e) ?_ ?_
    · show (createConstraints ls' a.nextCon .le).1.map Row.noRhs = (createConstraints ls a.nextCon .le).1.map Row.noRhs
      rw [k1, k1, e1]
    · unfold capacityConstraints; dsimp only; rw [k2, k2, e1]
  have hb : (a.step (.capacity ls' vc)).1.bidCost = (a.step (.capacity ls vc)).1.bidCost := by
    rw [step_bidCost _ (by simp), step_bidCost _ (by simp)]
  exact run_alike_same hA.1 hb after

/-- the programs of two markets that differ in capacities of units outside `G` -/
theorem capacity_parts {ls ls' : List Lim} {fs : List LossFn} (h : OneCall [] (.capacity ls none) (.capacity ls' none) m m')
    (hd : List.Forall₂ (fun l l' => l' = { l with val := l'.val } ∧ (m.unitIn G l.unit → l'.val = l.val)) ls ls')
    (hf : LossFunctions fs m) (ha : Unconnected m G) {lp lp' : Lp} (hl : m.assemble = .ok lp) (hl' : m'.assemble = .ok lp') :
    TwoParts lp lp' (m.sideIn G) (m.conIn G) ∧ TwoParts lp' lp (m.sideIn G) (m.conIn G) ∧ ∀ z, lp'.cost z = lp.cost z := by
  have hm := h.first.inForce.reached
  have hm' := h.second.inForce.reached
  obtain ⟨hA, hB⟩ := capacity_alike h (hd.imp (fun _ _ h => h.1))
  obtain ⟨n, hi1, _⟩ := capacity_imposed h.first.inForce
  obtain ⟨n', hi2, _⟩ := capacity_imposed h.second.inForce
  have t1 := hi1.rhs
  have t2 := hi1.map
  have t1' := hi2.rhs
  have hr : ∀ r ∈ lp.rows, ∀ r' ∈ lp'.rows, r.cid = r'.cid → m.rowOf .unitBidCapacity r.cid → m.conIn G r.cid → r.rhs = r'.rhs := by
    intro r hr r' hr' e hk hc
    have hin := (conIn_names hm hf ha (inTab_of_rowOf hk) hc).2 _ t2
    rcases hk with ⟨rows, h1, q, hq, eq⟩ | ⟨rows, h1, q, hq, eq⟩ | ⟨h1, _⟩
    · rw [t1] at h1; injection h1 with h1; subst h1
      obtain ⟨i, d, hi, rfl⟩ := mem_saveIndex.1 (show q ∈ (createConstraints ls n .le).1 from hq)
      have hg : m.unitIn G d.unit := by
        have hcon : ({ cid := n + i, unit := d.unit, service := d.service, dtype := d.dtype, coef := 1 } : ConUnit) ∈
            (createConstraints ls n .le).2 := mem_saveIndex.2 ⟨i, d, hi, rfl⟩
        exact hin _ (List.mem_map_of_mem hcon) eq
      obtain ⟨d', hi'⟩ : ∃ d', ls'[i]? = some d' := by
        have h1 := (List.getElem?_eq_some_iff.1 hi).1
        rw [hd.length_eq] at h1
        exact ⟨_, List.getElem?_eq_getElem h1⟩
      have hn : n' = n := by
        have h1 := (hA.con .unitBidCapacity).2
        rw [t1, t1'] at h1
        simp only [Option.map_some, Option.some.injEq] at h1
        have h2 := congrArg (List.map Row.cid) h1
        rw [List.map_map, List.map_map] at h2
        exact same_start (id := Row.cid) (fun _ _ => rfl) (fun _ _ => rfl) h2 (by rintro rfl; simp at hi)
      subst hn
      rw [lp_const_con hm.wf.con hl hr t1 hq eq,
        lp_const_con hm'.wf.con hl' hr' t1' (mem_saveIndex.2 ⟨i, d', hi', rfl⟩) (eq.trans e)]
      have := (getElem?_forall₂ hd hi hi').2 hg
      dsimp only
      rw [this]
    · have := hm.wf.con.mktMkt _ (Dict.mem_of_get? h1); simp [CKey.isMarket] at this
    · cases h1
  obtain ⟨p1, p2⟩ := twoParts hm hm' hf ha hl hl' (by simp) hA hr
  exact ⟨p1, p2, alike_cost hA hB hl hl'⟩

/-- **C122**, limits.  The same for two markets in which units outside `G` have different capacities. -/
theorem C122_capacity {ls ls' : List Lim} {fs : List LossFn} (h : OneCall [] (.capacity ls none) (.capacity ls' none) m m')
    (hd : List.Forall₂ (fun l l' => l' = { l with val := l'.val } ∧ (m.unitIn G l.unit → l'.val = l.val)) ls ls')
    (hf : LossFunctions fs m) (ha : Unconnected m G) {lp lp' : Lp} (hl : m.assemble = .ok lp) (hl' : m'.assemble = .ok lp') {x x' : Nat → ℚ}
    (hx : Optimal lp x) (hx' : Optimal lp' x') : ∃ y, Optimal lp' y ∧ m.agreeIn G x y ∧ m.agreeIn (fun g => ¬ G g) x' y := by
  obtain ⟨p1, p2, hc⟩ := capacity_parts h hd hf ha hl hl'
  exact ⟨_, (p1.optimal p2 (fun z => hc _) hx hx').1, agree_mixed h.first.inForce.reached ha x x'⟩

/-- **C122**, energy prices when capacities of units outside `G` change. -/
theorem C122_energy_prices_of_capacity {ds : List Demand} {ls ls' : List Lim}
    (h : OneCall [] (.capacity ls none) (.capacity ls' none) m m')
    (hd : List.Forall₂ (fun l l' => l' = { l with val := l'.val } ∧ (m.unitIn G l.unit → l'.val = l.val)) ls ls')
    (hds : DemandSet ds m) (hf : NoLosses m) (hf' : NoLosses m')
    (ha : Unconnected m G) {S S' : Solver} {o o' : Outcome} {lp lp' : Lp} (hl : m.assemble = .ok lp) (hl' : m'.assemble = .ok lp')
    {xl xl' : Nat → ℚ} (hs : ShadowPrices (m.linear S o.x lp) xl o.price) (hs' : ShadowPrices (m'.linear S' o'.x lp') xl' o'.price)
    {energy : List (String × ℚ)} (he : m.energyPrices o.price = .ok energy) :
    ∃ y p energy', ShadowPrices (m'.linear S' o'.x lp') y p ∧ m'.energyPrices p = .ok energy' ∧ m.agreeIn G xl y ∧
      m.agreeIn (fun g => ¬ G g) xl' y ∧ ∀ g q, G g → (g, q) ∈ energy → (g, q) ∈ energy' := by
  obtain ⟨p1, p2, hc⟩ := capacity_parts h hd (Or.inl ⟨rfl, hf⟩) ha hl hl'
  exact parts_prices hds (capacity_alike h (hd.imp (fun _ _ h => h.1))).1 hf hf' ha hl hl' p1 p2 (fun z => hc _) hs hs' he

/-! ### Instances -/

/-- checker for `Unconnected`, `G` holds for the regions `gs` and the named constraints `ss` are about them -/
def Market.unconnectedB (m : Market) (gs ss : List String) : Bool :=
  decide (∀ u ∈ m.units, ∀ u' ∈ m.units, u.unit = u'.unit → (u.region ∈ gs ↔ u'.region ∈ gs)) &&
  decide (∀ d ∈ m.dirs.getD [], ∀ d' ∈ m.dirs.getD [], d.inter = d'.inter → (d.fromR ∈ gs ↔ d'.fromR ∈ gs) ∧ (d.fromR ∈ gs ↔ d'.toR ∈ gs)) &&
  decide (∀ g ∈ m.gUnit.getD [], ∀ u ∈ m.units, u.unit = g.unit → (u.region ∈ gs ↔ g.set ∈ ss)) &&
  decide (∀ g ∈ m.gRegion.getD [], (g.region ∈ gs ↔ g.set ∈ ss)) &&
  decide (∀ g ∈ m.gInter.getD [], ∀ d ∈ m.dirs.getD [], d.inter = g.inter → (d.fromR ∈ gs ↔ g.set ∈ ss)) &&
  decide (∀ e ∈ m.mktRhs, ∀ r ∈ e.2, ∀ c ∈ (m.regCon.get? e.1).getD [], c.cid = r.cid → r.set = none ∨ (c.region ∈ gs ↔ r.set.getD "" ∈ ss))

theorem unconnected_of_check {gs ss : List String} (h : m.unconnectedB gs ss = true) : Unconnected m (· ∈ gs) := by
  simp only [Market.unconnectedB, Bool.and_eq_true, decide_eq_true_eq] at h
  obtain ⟨⟨⟨⟨⟨h1, h2⟩, h3⟩, h4⟩, h5⟩, h6⟩ := h
  refine ⟨h1, h2, (· ∈ ss), h3, h4, h5, ?_⟩
  rintro s g ⟨k, r, hr, c, hc, e1, e2, rfl⟩
  cases hk : m.mktRhs.get? k with
  | none => rw [hk] at hr; simp at hr
  | some rows =>
    rw [hk] at hr
    rcases h6 (k, rows) (Dict.mem_of_get? hk) r hr c hc e2 with h | h
    · rw [e1] at h; cases h
    · rw [e1] at h; exact h

def splitPrices (c : ℚ) : List BidRow :=
  [{ unit := "A", bands := [("1", 20)] }, { unit := "B", bands := [("1", 50)] }, { unit := "C", bands := [("1", c)] },
   { unit := "D", bands := [("1", 40)] }, { unit := "C", service := .raise6s, bands := [("1", 1)] }]

def splitDemand (v : ℚ) : List Demand :=
  [{ region := "NSW", demand := 50 }, { region := "QLD", demand := 30 }, { region := "VIC", demand := v }]

def splitCap (v : ℚ) : List Lim := [{ unit := "A", val := 90 }, { unit := "C", val := v }]

/-- two units in NSW, joined with QLD, and two units in VIC, joined with neither; a generic constraint about unit A in NSW and an FCAS
requirement in VIC -/
def splitCase (cap c v : ℚ) (sol : List ℚ) : Case where
  regions := ["NSW", "QLD", "VIC"]
  units := [{ unit := "A", region := "NSW" }, { unit := "B", region := "NSW" }, { unit := "C", region := "VIC" }, { unit := "D", region := "VIC" }]
  hist := [.volumeBids [{ unit := "A", bands := [("1", 100)] }, { unit := "B", bands := [("1", 100)] }, { unit := "C", bands := [("1", 100)] },
      { unit := "D", bands := [("1", 100)] }, { unit := "C", service := .raise6s, bands := [("1", 10)] }],
    .interconnectors [{ inter := "QNI", link := "QNI", toR := "QLD", fromR := "NSW", max := 60, min := -60 }],
    .fcasReq [{ set := "F", service := .raise6s, region := "VIC", volume := 5 }] none,
    .generic [{ set := "X", ctype := .le, rhs := 70 }] none, .linkUnits [⟨"X", "A", .energy, 1⟩],
    .capacity (splitCap cap) none, .priceBids (splitPrices c), .demand (splitDemand v) none]
  sol := sol

/-- the units of the case -/
def splitUnits (m : Market) : Prop :=
  (∀ b ∈ m.bids.getD [], b.unit ∈ ["A", "B"] → b.price (splitPrices 60) m = b.price (splitPrices 30) m) ∧
  ∀ i ∈ m.units, i.region ∈ ["NSW", "QLD"] → i.unit ∈ ["A", "B"]

instance (m : Market) : Decidable (splitUnits m) := by unfold splitUnits; infer_instance

/-- instance of C122: the demand of VIC rises from 60 MW to 90 MW -/
example : ∃ m m' lp lp', OneCall [] (.demand (splitDemand 60) none) (.demand (splitDemand 90) none) m m' ∧ 
    List.Forall₂ (fun d d' : Demand => d'.region = d.region ∧ (d.region ∈ ["NSW", "QLD"] → d'.demand = d.demand)) (splitDemand 60) (splitDemand 90) ∧
    LossFunctions [] m ∧ Unconnected m (· ∈ ["NSW", "QLD"]) ∧ m.assemble = .ok lp ∧ m'.assemble = .ok lp' ∧
    Optimal lp (splitCase 40 30 60 [70, 10, 40, 5, 20, 30]).x ∧ Optimal lp' (splitCase 40 30 90 [70, 10, 40, 5, 50, 30]).x := by
  have h : (splitCase 40 30 60 [70, 10, 40, 5, 20, 30]).best [-30, 1, 50, 50, 40, 0, -10] (fun m => m.unconnectedB ["NSW", "QLD"] ["X"] && decide (splitUnits m)) = true := by decide +kernel
  have h' : (splitCase 40 30 90 [70, 10, 40, 5, 50, 30]).best [-30, 1, 50, 50, 40, 0, -10] (fun _ => true) = true := by decide +kernel
  obtain ⟨m, lp, h0, h1, h2, h3⟩ := Case.optimal h
  obtain ⟨m', lp', k0, k1, k2, _⟩ := Case.optimal h'
  obtain ⟨h3, h4⟩ := (Bool.and_eq_true _ _).mp h3
  have h4 := of_decide_eq_true h4
  have hone := Case.oneCall h0 k0 7 (.demand (splitDemand 60) none) (.demand (splitDemand 90) none) [] ⟨rfl, rfl, rfl⟩ rfl rfl rfl rfl (by decide +kernel)
  exact ⟨m, m', lp, lp', hone, by unfold splitDemand; exact .cons (by decide) (.cons (by decide) (.cons (by decide) .nil)), Or.inl ⟨rfl, Case.noLosses h0 (by decide +kernel)⟩, unconnected_of_check h3, h1, k1, h2, k2⟩

/-- instance of C122: unit C in VIC raises its price from 30 to 60 -/
example : ∃ m m' lp lp', OneCall [.bids, .set .tieBreak] (.priceBids (splitPrices 30)) (.priceBids (splitPrices 60)) m m' ∧ BandsUnique (splitPrices 30) ∧ BandsUnique (splitPrices 60) ∧
    (∀ b ∈ m.bids.getD [], m.unitIn (· ∈ ["NSW", "QLD"]) b.unit → b.price (splitPrices 60) m = b.price (splitPrices 30) m) ∧
    LossFunctions [] m ∧ Unconnected m (· ∈ ["NSW", "QLD"]) ∧ m.assemble = .ok lp ∧ m'.assemble = .ok lp' ∧
    Optimal lp (splitCase 40 30 60 [70, 10, 40, 5, 20, 30]).x ∧ Optimal lp' (splitCase 40 60 60 [70, 10, 0, 5, 60, 30]).x := by
  have h : (splitCase 40 30 60 [70, 10, 40, 5, 20, 30]).best [-30, 1, 50, 50, 40, 0, -10] (fun m => m.unconnectedB ["NSW", "QLD"] ["X"] && decide (splitUnits m)) = true := by decide +kernel
  have h' : (splitCase 40 60 60 [70, 10, 0, 5, 60, 30]).best [-30, 1, 50, 50, 40, 0, 0] (fun _ => true) = true := by decide +kernel
  obtain ⟨m, lp, h0, h1, h2, h3⟩ := Case.optimal h
  obtain ⟨m', lp', k0, k1, k2, _⟩ := Case.optimal h'
  obtain ⟨h3, h4⟩ := (Bool.and_eq_true _ _).mp h3
  have h4 := of_decide_eq_true h4
  have hone := Case.oneCall h0 k0 6 (.priceBids (splitPrices 30)) (.priceBids (splitPrices 60)) [.bids, .set .tieBreak] ⟨rfl, rfl, rfl⟩ rfl rfl rfl rfl (by decide +kernel)
  exact ⟨m, m', lp, lp', hone, by unfold BandsUnique; decide +kernel, by unfold BandsUnique; decide +kernel,
    fun b hb ⟨i, hi, e, hg⟩ => h4.1 b hb (e ▸ h4.2 i hi hg), Or.inl ⟨rfl, Case.noLosses h0 (by decide +kernel)⟩, unconnected_of_check h3, h1, k1, h2, k2⟩

/-- instance of C122: the capacity of unit C in VIC rises from 40 MW to 55 MW -/
example : ∃ m m' lp lp', OneCall [] (.capacity (splitCap 40) none) (.capacity (splitCap 55) none) m m' ∧ 
    List.Forall₂ (fun l l' : Lim => l' = { l with val := l'.val } ∧ (m.unitIn (· ∈ ["NSW", "QLD"]) l.unit → l'.val = l.val)) (splitCap 40) (splitCap 55) ∧
    LossFunctions [] m ∧ Unconnected m (· ∈ ["NSW", "QLD"]) ∧ m.assemble = .ok lp ∧ m'.assemble = .ok lp' ∧
    Optimal lp (splitCase 40 30 60 [70, 10, 40, 5, 20, 30]).x ∧ Optimal lp' (splitCase 55 30 60 [70, 10, 55, 5, 5, 30]).x := by
  have h : (splitCase 40 30 60 [70, 10, 40, 5, 20, 30]).best [-30, 1, 50, 50, 40, 0, -10] (fun m => m.unconnectedB ["NSW", "QLD"] ["X"] && decide (splitUnits m)) = true := by decide +kernel
  have h' : (splitCase 55 30 60 [70, 10, 55, 5, 5, 30]).best [-30, 1, 50, 50, 40, 0, -10] (fun _ => true) = true := by decide +kernel
  obtain ⟨m, lp, h0, h1, h2, h3⟩ := Case.optimal h
  obtain ⟨m', lp', k0, k1, k2, _⟩ := Case.optimal h'
  obtain ⟨h3, h4⟩ := (Bool.and_eq_true _ _).mp h3
  have h4 := of_decide_eq_true h4
  have hone := Case.oneCall h0 k0 5 (.capacity (splitCap 40) none) (.capacity (splitCap 55) none) [] ⟨rfl, rfl, rfl⟩ rfl rfl rfl rfl (by decide +kernel)
  exact ⟨m, m', lp, lp', hone, by
    unfold splitCap
    refine .cons ⟨rfl, fun _ => rfl⟩ (.cons ⟨rfl, fun ⟨i, hi, e, hg⟩ => ?_⟩ .nil)
    have := h4.2 i hi hg
    rw [e] at this
    exact absurd this (by decide), Or.inl ⟨rfl, Case.noLosses h0 (by decide +kernel)⟩, unconnected_of_check h3, h1, k1, h2, k2⟩

/-- instance of C122, prices: the demand of VIC rises, the price in NSW and QLD is 50 in both markets -/
example : ∃ m m' lp lp' o o' S S', OneCall [] (.demand (splitDemand 60) none) (.demand (splitDemand 90) none) m m' ∧
    List.Forall₂ (fun d d' : Demand => d'.region = d.region ∧ (d.region ∈ ["NSW", "QLD"] → d'.demand = d.demand)) (splitDemand 60) (splitDemand 90) ∧
    NoLosses m ∧ NoLosses m' ∧ Unconnected m (· ∈ ["NSW", "QLD"]) ∧ m.dispatch S none = .ok o ∧ m'.dispatch S' none = .ok o' ∧
    m.assemble = .ok lp ∧ m'.assemble = .ok lp' ∧
    ShadowPrices (m.linear S o.x lp) (splitCase 40 30 60 [70, 10, 40, 5, 20, 30]).x o.price ∧
    ShadowPrices (m'.linear S' o'.x lp') (splitCase 40 30 90 [70, 10, 40, 5, 50, 30]).x o'.price ∧
    m.energyPrices o.price = .ok [("NSW", 50), ("QLD", 50), ("VIC", 40)] := by
  have h : (splitCase 40 30 60 [70, 10, 40, 5, 20, 30]).shadow [1, -30, 0, -10, 50, 50, 40] (fun m => m.unconnectedB ["NSW", "QLD"] ["X"] &&
      decide (m.energyPrices (fun c => [1, -30, 0, -10, 50, 50, 40].getD c 0) = .ok [("NSW", 50), ("QLD", 50), ("VIC", 40)])) = true := by decide +kernel
  have h' : (splitCase 40 30 90 [70, 10, 40, 5, 50, 30]).shadow [1, -30, 0, -10, 50, 50, 40] (fun _ => true) = true := by decide +kernel
  obtain ⟨m, lp, o, h0, h1, h2, h3, h4, h5, h6⟩ := Case.shadow_spec h
  obtain ⟨m', lp', o', k0, k1, k2, k3, k4, k5, _⟩ := Case.shadow_spec h'
  obtain ⟨h6, h7⟩ := (Bool.and_eq_true _ _).mp h6
  have hone := Case.oneCall h0 k0 7 (.demand (splitDemand 60) none) (.demand (splitDemand 90) none) [] ⟨rfl, rfl, rfl⟩ rfl rfl rfl rfl (by decide +kernel)
  exact ⟨m, m', lp, lp', o, o', _, _, hone, by unfold splitDemand; exact .cons (by decide) (.cons (by decide) (.cons (by decide) .nil)),
    Case.noLosses h0 (by decide +kernel), Case.noLosses k0 (by decide +kernel), unconnected_of_check h6, h2, k2, h1, k1, h5, k5,
    h4 ▸ of_decide_eq_true h7⟩

/-- instance of C122, prices: unit C in VIC raises its price -/
example : ∃ m m' lp lp' o o' S S', OneCall [.bids, .set .tieBreak] (.priceBids (splitPrices 30)) (.priceBids (splitPrices 60)) m m' ∧
    BandsUnique (splitPrices 30) ∧ BandsUnique (splitPrices 60) ∧
    (∀ b ∈ m.bids.getD [], m.unitIn (· ∈ ["NSW", "QLD"]) b.unit → b.price (splitPrices 60) m = b.price (splitPrices 30) m) ∧ DemandSet (splitDemand 60) m ∧
    NoLosses m ∧ NoLosses m' ∧ Unconnected m (· ∈ ["NSW", "QLD"]) ∧ m.dispatch S none = .ok o ∧ m'.dispatch S' none = .ok o' ∧
    m.assemble = .ok lp ∧ m'.assemble = .ok lp' ∧
    ShadowPrices (m.linear S o.x lp) (splitCase 40 30 60 [70, 10, 40, 5, 20, 30]).x o.price ∧
    ShadowPrices (m'.linear S' o'.x lp') (splitCase 40 60 60 [70, 10, 0, 5, 60, 30]).x o'.price ∧
    m.energyPrices o.price = .ok [("NSW", 50), ("QLD", 50), ("VIC", 40)] := by
  have h : (splitCase 40 30 60 [70, 10, 40, 5, 20, 30]).shadow [1, -30, 0, -10, 50, 50, 40] (fun m => (m.unconnectedB ["NSW", "QLD"] ["X"] &&
      decide (splitUnits m)) && decide (m.energyPrices (fun c => [1, -30, 0, -10, 50, 50, 40].getD c 0) = .ok [("NSW", 50), ("QLD", 50), ("VIC", 40)])) = true := by decide +kernel
  have h' : (splitCase 40 60 60 [70, 10, 0, 5, 60, 30]).shadow [1, -30, 0, 0, 50, 50, 40] (fun _ => true) = true := by decide +kernel
  obtain ⟨m, lp, o, h0, h1, h2, h3, h4, h5, h6⟩ := Case.shadow_spec h
  obtain ⟨m', lp', o', k0, k1, k2, k3, k4, k5, _⟩ := Case.shadow_spec h'
  obtain ⟨h6, h7⟩ := (Bool.and_eq_true _ _).mp h6
  obtain ⟨h6, h8⟩ := (Bool.and_eq_true _ _).mp h6
  have h8 := of_decide_eq_true h8
  have hone := Case.oneCall h0 k0 6 (.priceBids (splitPrices 30)) (.priceBids (splitPrices 60)) [.bids, .set .tieBreak] ⟨rfl, rfl, rfl⟩ rfl rfl rfl rfl (by decide +kernel)
  have hds := (Case.oneCall h0 h0 7 (.demand (splitDemand 60) none) (.demand (splitDemand 60) none) [] ⟨rfl, rfl, rfl⟩ rfl rfl rfl rfl
    (by decide +kernel)).first.inForce.demandSet
  exact ⟨m, m', lp, lp', o, o', _, _, hone, by unfold BandsUnique; decide +kernel, by unfold BandsUnique; decide +kernel,
    fun b hb ⟨i, hi, e, hg⟩ => h8.1 b hb (e ▸ h8.2 i hi hg), hds,
    Case.noLosses h0 (by decide +kernel), Case.noLosses k0 (by decide +kernel), unconnected_of_check h6, h2, k2, h1, k1, h5, k5,
    h4 ▸ of_decide_eq_true h7⟩

/-- instance of C122, prices: the capacity of unit C in VIC rises -/
example : ∃ m m' lp lp' o o' S S', OneCall [] (.capacity (splitCap 40) none) (.capacity (splitCap 55) none) m m' ∧
    List.Forall₂ (fun l l' : Lim => l' = { l with val := l'.val } ∧ (m.unitIn (· ∈ ["NSW", "QLD"]) l.unit → l'.val = l.val)) (splitCap 40) (splitCap 55) ∧ DemandSet (splitDemand 60) m ∧
    NoLosses m ∧ NoLosses m' ∧ Unconnected m (· ∈ ["NSW", "QLD"]) ∧ m.dispatch S none = .ok o ∧ m'.dispatch S' none = .ok o' ∧
    m.assemble = .ok lp ∧ m'.assemble = .ok lp' ∧
    ShadowPrices (m.linear S o.x lp) (splitCase 40 30 60 [70, 10, 40, 5, 20, 30]).x o.price ∧
    ShadowPrices (m'.linear S' o'.x lp') (splitCase 55 30 60 [70, 10, 55, 5, 5, 30]).x o'.price ∧
    m.energyPrices o.price = .ok [("NSW", 50), ("QLD", 50), ("VIC", 40)] := by
  have h : (splitCase 40 30 60 [70, 10, 40, 5, 20, 30]).shadow [1, -30, 0, -10, 50, 50, 40] (fun m => (m.unconnectedB ["NSW", "QLD"] ["X"] &&
      decide (splitUnits m)) && decide (m.energyPrices (fun c => [1, -30, 0, -10, 50, 50, 40].getD c 0) = .ok [("NSW", 50), ("QLD", 50), ("VIC", 40)])) = true := by decide +kernel
  have h' : (splitCase 55 30 60 [70, 10, 55, 5, 5, 30]).shadow [1, -30, 0, -10, 50, 50, 40] (fun _ => true) = true := by decide +kernel
  obtain ⟨m, lp, o, h0, h1, h2, h3, h4, h5, h6⟩ := Case.shadow_spec h
  obtain ⟨m', lp', o', k0, k1, k2, k3, k4, k5, _⟩ := Case.shadow_spec h'
  obtain ⟨h6, h7⟩ := (Bool.and_eq_true _ _).mp h6
  obtain ⟨h6, h8⟩ := (Bool.and_eq_true _ _).mp h6
  have h8 := of_decide_eq_true h8
  have hone := Case.oneCall h0 k0 5 (.capacity (splitCap 40) none) (.capacity (splitCap 55) none) [] ⟨rfl, rfl, rfl⟩ rfl rfl rfl rfl (by decide +kernel)
  have hds := (Case.oneCall h0 h0 7 (.demand (splitDemand 60) none) (.demand (splitDemand 60) none) [] ⟨rfl, rfl, rfl⟩ rfl rfl rfl rfl
    (by decide +kernel)).first.inForce.demandSet
  exact ⟨m, m', lp, lp', o, o', _, _, hone, by
    unfold splitCap
    refine .cons ⟨rfl, fun _ => rfl⟩ (.cons ⟨rfl, fun ⟨i, hi, e, hg⟩ => ?_⟩ .nil)
    have := h8.2 i hi hg
    rw [e] at this
    exact absurd this (by decide), hds,
    Case.noLosses h0 (by decide +kernel), Case.noLosses k0 (by decide +kernel), unconnected_of_check h6, h2, k2, h1, k1, h5, k5,
    h4 ▸ of_decide_eq_true h7⟩

end Verif
