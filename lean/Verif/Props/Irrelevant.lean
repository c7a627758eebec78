import Verif.Spec.Irrelevant
import Verif.Props.Soft
import Verif.Props.Soften

/-!
# C129: constraints that are met anyway change nothing

Further constraints never make the dispatch of a market cheaper, and if one of its cheapest dispatches meets them, the cheapest
dispatches are the cheapest ones of before that meet them.
-/

namespace Verif

/-- the market without its constraints -/
def Market.core (m : Market) : Market :=
  { regions := m.regions, units := m.units, di := m.di, bids := m.bids, dirs := m.dirs, inters := m.inters,
    losses := m.losses, gUnit := m.gUnit, gRegion := m.gRegion, gInter := m.gInter }

theorem meets_core (m : Market) (fs : List LossFn) (x : Nat → ℚ) (op : Op) : op.meets m fs x ↔ op.meets m.core fs x := by
  cases op <;> exact Iff.rfl

theorem tied_core {m : Market} {ps : List BidRow} {a b : BidVar} : Tied m ps a b ↔ Tied m.core ps a b := by
  rw [tied_iff, tied_iff]
  exact Iff.rfl

theorem misses_core (m : Market) (ops : List Op) (x : Nat → ℚ) (op : Op) : op.misses m ops x = op.misses m.core ops x := by
  cases op with
  | capacity l v => rcases v with _ | v <;> [rfl; (cases v <;> rfl)]
  | uigf l v => rcases v with _ | v <;> [rfl; (cases v <;> rfl)]
  | rampRates r sc ps rt v => rcases v with _ | v <;> [rfl; (cases v <;> rfl)]
  | fastStart p v => rcases v with _ | v <;> [rfl; (cases v <;> rfl)]
  | demand d v => rcases v with _ | v <;> [rfl; (cases v <;> rfl)]
  | fcasReq r v => rcases v with _ | v <;> rfl
  | fcasMaxAvail l v => rcases v with _ | v <;> [rfl; (cases v <;> rfl)]
  | jointRamping r ps rt v => rcases v with _ | v <;> [rfl; (cases v <;> rfl)]
  | jointCapacity t v => rcases v with _ | v <;> [rfl; (cases v <;> rfl)]
  | energyReg t v => rcases v with _ | v <;> [rfl; (cases v <;> rfl)]
  | generic g v => rcases v with _ | v <;> rfl
  | tieBreak c =>
    unfold Op.misses
    simp only [tied_core (m := m)]
    rfl
  | _ => rfl

theorem misses_ops {ops ops' : List Op} (h1 : lossesOf ops' = lossesOf ops) (h2 : pricesOf ops' = pricesOf ops) (m : Market)
    (x : Nat → ℚ) (op : Op) : op.misses m ops' x = op.misses m ops x := by
  cases op with
  | demand d v => rcases v with _ | v <;> [rfl; (cases v <;> simp only [Op.misses, h1])]
  | tieBreak c => simp only [Op.misses, h2]
  | capacity l v => rcases v with _ | v <;> [rfl; (cases v <;> rfl)]
  | uigf l v => rcases v with _ | v <;> [rfl; (cases v <;> rfl)]
  | rampRates r sc ps rt v => rcases v with _ | v <;> [rfl; (cases v <;> rfl)]
  | fastStart p v => rcases v with _ | v <;> [rfl; (cases v <;> rfl)]
  | fcasReq r v => rcases v with _ | v <;> rfl
  | fcasMaxAvail l v => rcases v with _ | v <;> [rfl; (cases v <;> rfl)]
  | jointRamping r ps rt v => rcases v with _ | v <;> [rfl; (cases v <;> rfl)]
  | jointCapacity t v => rcases v with _ | v <;> [rfl; (cases v <;> rfl)]
  | energyReg t v => rcases v with _ | v <;> [rfl; (cases v <;> rfl)]
  | generic g v => rcases v with _ | v <;> rfl
  | _ => rfl

theorem CType.violation_nonneg (c : CType) (l r : ℚ) : 0 ≤ c.violation l r := by
  cases c <;> simp [CType.violation]

theorem FsInput.missedBy_nonneg (p : FsInput) (e : ℚ) : 0 ≤ p.missedBy e := by
  unfold FsInput.missedBy
  split
  · exact le_max_left _ _
  split
  · exact abs_nonneg _
  split
  · exact le_max_left _ _
  split
  · exact le_max_left _ _
  · exact le_refl _

theorem covers_nonneg {vc : VCost} {sets : List String} (h : vc.covers sets) {s : String} (hs : s ∈ sets) :
    0 ≤ (vc.forSet s).getD 0 := by
  obtain ⟨c, e, hc⟩ := h.2 s hs
  rw [e]; exact hc

/-- what a schedule pays for what it misses is not negative -/
theorem misses_nonneg {op : Op} (h : op.firm ∨ op.lax) (m : Market) (ops : List Op) (x : Nat → ℚ) :
    ∀ p ∈ op.misses m ops x, 0 ≤ p.1 * p.2 := by
  intro p hp
  unfold Op.misses at hp
  split at hp
  · obtain ⟨l, _, rfl⟩ := List.mem_map.1 hp
    exact mul_nonneg (by simpa [Op.firm, Op.lax] using h) (le_max_left _ _)
  · obtain ⟨l, _, rfl⟩ := List.mem_map.1 hp
    exact mul_nonneg (by simpa [Op.firm, Op.lax] using h) (le_max_left _ _)
  · obtain ⟨l, _, rfl⟩ := List.mem_map.1 hp
    exact mul_nonneg (by simpa [Op.firm, Op.lax] using h) (le_max_left _ _)
  · obtain ⟨l, _, rfl⟩ := List.mem_map.1 hp
    exact mul_nonneg (by simpa [Op.firm, Op.lax] using h) (abs_nonneg _)
  · have hc := (by simpa [Op.firm, Op.lax] using h : _ ∧ _).1
    rcases List.mem_append.1 hp with hp | hp
    · obtain ⟨l, _, rfl⟩ := List.mem_map.1 hp
      exact mul_nonneg hc (le_max_left _ _)
    · obtain ⟨l, _, rfl⟩ := List.mem_map.1 hp
      exact mul_nonneg hc (le_max_left _ _)
  · have hc := (by simpa [Op.firm, Op.lax] using h : _ ∧ _).1
    rcases List.mem_append.1 hp with hp | hp
    · obtain ⟨l, _, rfl⟩ := List.mem_map.1 hp
      exact mul_nonneg hc (le_max_left _ _)
    · obtain ⟨l, _, rfl⟩ := List.mem_map.1 hp
      exact mul_nonneg hc (le_max_left _ _)
  · rename_i c
    have hc : 0 ≤ c := by simpa [Op.firm, Op.lax] using h
    rcases List.mem_append.1 hp with hp | hp
    · obtain ⟨r, _, hp⟩ := List.mem_flatMap.1 hp
      split at hp
      · cases hp
      · rcases List.mem_append.1 hp with hp | hp
        · obtain ⟨L, _, rfl⟩ := List.mem_map.1 hp
          exact mul_nonneg hc (le_max_left _ _)
        · obtain ⟨L, _, rfl⟩ := List.mem_map.1 hp
          exact mul_nonneg hc (le_max_left _ _)
    · obtain ⟨g, _, hp⟩ := List.mem_flatMap.1 hp
      obtain ⟨l, _, hp⟩ := List.mem_flatMap.1 hp
      split at hp
      · simp only [List.mem_cons, List.not_mem_nil, or_false] at hp
        rcases hp with rfl | rfl
        · exact mul_nonneg hc (le_max_left _ _)
        · exact mul_nonneg hc (le_max_left _ _)
      · cases hp
  · obtain ⟨u, _, hp⟩ := List.mem_flatMap.1 hp
    obtain ⟨q, _, rfl⟩ := List.mem_map.1 hp
    exact mul_nonneg (by simpa [Op.firm, Op.lax] using h) (FsInput.missedBy_nonneg _ _)
  · rename_i c
    have hc : 0 ≤ c := by simpa [Op.firm, Op.lax] using h
    obtain ⟨r, _, hp⟩ := List.mem_flatMap.1 hp
    have key : ∀ (b : Bool) (l : List (ℚ × ℚ)), (∀ p ∈ l, 0 ≤ p.1 * p.2) → p ∈ (if b = true then l else []) → 0 ≤ p.1 * p.2 := by
      intro b l hl h
      split at h
      · exact hl p h
      · cases h
    by_cases hb : r.unit ∈ m.bidi
    · rw [if_pos hb] at hp
      rcases List.mem_append.1 hp with hp | hp
      all_goals
        refine key _ _ ?_ hp
        intro p hp
        obtain ⟨L, _, rfl⟩ := List.mem_map.1 hp
        exact mul_nonneg hc (le_max_left _ _)
    rw [if_neg hb] at hp
    rcases List.mem_append.1 hp with hp | hp
    · rcases List.mem_append.1 hp with hp | hp
      · rcases List.mem_append.1 hp with hp | hp
        · refine key _ _ ?_ hp
          intro p hp
          obtain ⟨L, _, rfl⟩ := List.mem_map.1 hp
          exact mul_nonneg hc (le_max_left _ _)
        · refine key _ _ ?_ hp
          intro p hp
          rw [List.mem_singleton.1 hp]
          exact mul_nonneg hc (le_max_left _ _)
      · refine key _ _ ?_ hp
        intro p hp
        obtain ⟨L, _, rfl⟩ := List.mem_map.1 hp
        exact mul_nonneg hc (le_max_left _ _)
    · refine key _ _ ?_ hp
      intro p hp
      rw [List.mem_singleton.1 hp]
      exact mul_nonneg hc (le_max_left _ _)
  · obtain ⟨r, hr, rfl⟩ := List.mem_map.1 hp
    have hc := (by simpa [Op.firm, Op.lax] using h : _ ∧ _).1
    exact mul_nonneg (covers_nonneg hc (List.mem_map_of_mem (mem_of_mem_dropDup hr))) (CType.violation_nonneg _ _ _)
  · obtain ⟨r, hr, rfl⟩ := List.mem_map.1 hp
    have hc := (by simpa [Op.firm, Op.lax] using h : _ ∧ _).1
    exact mul_nonneg (covers_nonneg hc (List.mem_map_of_mem hr)) (CType.violation_nonneg _ _ _)
  · obtain ⟨a, _, hp⟩ := List.mem_flatMap.1 hp
    obtain ⟨b, _, rfl⟩ := List.mem_map.1 hp
    exact mul_nonneg (by simpa [Op.firm, Op.lax] using h) (abs_nonneg _)
  · cases hp

section
variable {ops more : List Op} {m : Market} {ps : List BidRow} {lp lp' : Lp}

theorem core_run (h : ∀ o ∈ more, o.restricts) (m : Market) : (m.run more).core = m.core := by
  have hp : ∀ p ∈ [Part.bids, .prices, .inters, .gUnit, .gRegion, .gInter, .set .interpWeights], SamePart m (m.run more) p :=
    fun p hp => part_run (fun o ho hm => h o ho p hm hp)
  obtain ⟨b1, b2, b3⟩ := sameBase_run m more
  have h1 : _ ∧ _ := hp .bids (by decide)
  have h2 : _ ∧ _ := hp .inters (by decide)
  have h3 := hp .gUnit (by decide)
  have h4 := hp .gRegion (by decide)
  have h5 := hp .gInter (by decide)
  have h6 := (SameSet.loss (hp (.set .interpWeights) (by decide)) rfl).2.2.2.1
  unfold SamePart at h3 h4 h5
  unfold Market.core
  rw [b1, b2, b3, h1.1, h2.1, h2.2.1, h3, h4, h5, h6]

theorem restricts_ops (h : ∀ o ∈ more, o.restricts) :
    lossesOf (ops ++ more) = lossesOf ops ∧ pricesOf (ops ++ more) = pricesOf ops := by
  unfold lossesOf pricesOf
  simp only [List.flatMap_append]
  constructor
  · rw [List.append_right_eq_self, List.flatMap_eq_nil_iff]
    intro o ho
    have := h o ho
    cases o <;> first | rfl | (exfalso; revert this; unfold Op.restricts; simp [Op.parts])
  · rw [List.append_right_eq_self, List.flatMap_eq_nil_iff]
    intro o ho
    have := h o ho
    cases o <;> first | rfl | (exfalso; revert this; unfold Op.restricts; simp [Op.parts])

theorem meets_more (h : ∀ o ∈ more, o.restricts) (x : Nat → ℚ) (op : Op) :
    op.meets (m.run more) (lossesOf (ops ++ more)) x ↔ op.meets m (lossesOf ops) x := by
  rw [meets_core, core_run h, ← meets_core, (restricts_ops h).1]

theorem misses_more (h : ∀ o ∈ more, o.restricts) (x : Nat → ℚ) (op : Op) :
    op.misses (m.run more) (ops ++ more) x = op.misses m ops x := by
  rw [misses_core, core_run h, ← misses_core, misses_ops (restricts_ops h).1 (restricts_ops h).2]

theorem costAt_more (h : ∀ o ∈ more, o.restricts) (x : Nat → ℚ) : (m.run more).costAt ps x = m.costAt ps x := by
  have : ∀ m : Market, m.costAt ps x = m.core.costAt ps x := fun m => rfl
  rw [this, core_run h, ← this]

theorem same_more (h : ∀ o ∈ more, o.restricts) (x z : Nat → ℚ) : SameSchedule (m.run more) x z ↔ SameSchedule m x z := by
  have : ∀ m : Market, SameSchedule m x z ↔ SameSchedule m.core x z := fun m => Iff.rfl
  rw [this, core_run h, ← this]

theorem permitted_more (h : ∀ o ∈ more, o.restricts) (x : Nat → ℚ) : Permitted (m.run more) (ops ++ more) x ↔
    Permitted m ops x ∧ ∀ op ∈ more, op.firm → op.meets m (lossesOf ops) x := by
  unfold Permitted
  simp only [meets_more h, List.mem_append, or_imp, forall_and]

theorem penalty_more (h : ∀ o ∈ more, o.restricts) (x : Nat → ℚ) : (m.run more).penalty (ops ++ more) x =
    m.penalty ops x + ((more.flatMap (Op.misses m ops x)).map (fun p => p.1 * p.2)).sum := by
  unfold Market.penalty
  have : (ops ++ more).flatMap (Op.misses (m.run more) (ops ++ more) x) = (ops ++ more).flatMap (Op.misses m ops x) :=
    List.flatMap_congr (fun op _ => misses_more h x op)
  rw [this, List.flatMap_append, List.map_append, List.sum_append]

/-- the least objective value of a schedule -/
theorem optimal_total (h : MadeBy ops m) (hp : Op.priceBids ps ∈ ops) (hb : BandsUnique ps) (hl : m.assemble = .ok lp)
    {x : Nat → ℚ} (hx : Optimal lp x) : LeastTotal m ops ps x ∧ lp.cost x = m.costAt ps x + m.penalty ops x := by
  have same : SameSchedule m x x := ⟨fun _ _ => rfl, fun _ _ => rfl, fun _ _ => rfl⟩
  have h1 := (C124_optimal h hp hb hl x).1 ⟨x, same, hx⟩
  refine ⟨h1, ?_⟩
  obtain ⟨⟨z, _, hz, hc⟩, h3⟩ := C124_cost h hp hb hl h1.1
  exact le_antisymm (hc ▸ hx.2 z hz) (h3 x same hx.1)

/-- **C129** Further constraints never make the cheapest dispatch cheaper. -/
theorem C129_never_cheaper (hr : ∀ o ∈ more, o.restricts) (h : MadeBy ops m) (h' : MadeBy (ops ++ more) (m.run more))
    (hp : Op.priceBids ps ∈ ops) (hb : BandsUnique ps) (hl : m.assemble = .ok lp) (hl' : (m.run more).assemble = .ok lp')
    {x y : Nat → ℚ} (hx : Optimal lp x) (hy : Optimal lp' y) : lp.cost x ≤ lp'.cost y := by
  obtain ⟨⟨_, h1⟩, e1⟩ := optimal_total h hp hb hl hx
  obtain ⟨⟨h2, _⟩, e2⟩ := optimal_total h' (List.mem_append_left _ hp) hb hl' hy
  rw [e1, e2, costAt_more hr, penalty_more hr]
  have h3 := h1 y ((permitted_more hr y).1 h2).1
  have h4 : 0 ≤ ((more.flatMap (Op.misses m ops y)).map (fun p => p.1 * p.2)).sum := by
    apply List.sum_nonneg
    intro q hq
    obtain ⟨p, hpm, rfl⟩ := List.mem_map.1 hq
    obtain ⟨op, hop, hpm⟩ := List.mem_flatMap.1 hpm
    exact misses_nonneg (h'.kinds op (List.mem_append_right _ hop)) m ops y p hpm
  linarith

theorem satisfied_free {x : Nat → ℚ} (hs : ∀ o ∈ more, o.satisfied m ops x) :
    ((more.flatMap (Op.misses m ops x)).map (fun p => p.1 * p.2)).sum = 0 := by
  apply List.sum_eq_zero
  intro q hq
  obtain ⟨p, hpm, rfl⟩ := List.mem_map.1 hq
  obtain ⟨op, hop, hpm⟩ := List.mem_flatMap.1 hpm
  rw [(hs op hop).2 p hpm, mul_zero]

/-- **C129** A cheapest dispatch that does what further calls ask is a cheapest dispatch of the market with these calls, at the same
cost. -/
theorem C129_irrelevant (hr : ∀ o ∈ more, o.restricts) (h : MadeBy ops m) (h' : MadeBy (ops ++ more) (m.run more))
    (hp : Op.priceBids ps ∈ ops) (hb : BandsUnique ps) (hl : m.assemble = .ok lp) (hl' : (m.run more).assemble = .ok lp')
    {x : Nat → ℚ} (hx : Optimal lp x) (hs : ∀ o ∈ more, o.satisfied m ops x) :
    ∃ z, SameSchedule m x z ∧ Optimal lp' z ∧ lp'.cost z = lp.cost x := by
  obtain ⟨⟨h1, h2⟩, e1⟩ := optimal_total h hp hb hl hx
  have hz := satisfied_free hs
  have hlt : LeastTotal (m.run more) (ops ++ more) ps x := by
    refine ⟨(permitted_more hr x).2 ⟨h1, fun op hop => (hs op hop).1⟩, fun y hy => ?_⟩
    rw [costAt_more hr, penalty_more hr, costAt_more hr, penalty_more hr, hz]
    have h3 := h2 y ((permitted_more hr y).1 hy).1
    have h4 : 0 ≤ ((more.flatMap (Op.misses m ops y)).map (fun p => p.1 * p.2)).sum := by
      apply List.sum_nonneg
      intro q hq
      obtain ⟨p, hpm, rfl⟩ := List.mem_map.1 hq
      obtain ⟨op, hop, hpm⟩ := List.mem_flatMap.1 hpm
      exact misses_nonneg (h'.kinds op (List.mem_append_right _ hop)) m ops y p hpm
    linarith
  obtain ⟨z, hs', ho⟩ := (C124_optimal h' (List.mem_append_left _ hp) hb hl' x).2 hlt
  refine ⟨z, (same_more hr x z).1 hs', ho, ?_⟩
  obtain ⟨w, _, hw, hc⟩ := (C124_cost h' (List.mem_append_left _ hp) hb hl' hlt.1).1
  have e2 := (C124_cost h' (List.mem_append_left _ hp) hb hl' hlt.1).2 z hs' ho.1
  have e3 := ho.2 w hw
  rw [costAt_more hr, penalty_more hr, hz] at hc e2
  rw [e1]
  linarith

/-- **C129** If some cheapest dispatch does what further calls ask, every cheapest dispatch of the market with these calls is a cheapest
dispatch of the market without them, that meets the calls without a violation cost and pays nothing for the others. -/
theorem C129_no_others (hr : ∀ o ∈ more, o.restricts) (h : MadeBy ops m) (h' : MadeBy (ops ++ more) (m.run more))
    (hp : Op.priceBids ps ∈ ops) (hb : BandsUnique ps) (hl : m.assemble = .ok lp) (hl' : (m.run more).assemble = .ok lp')
    {x : Nat → ℚ} (hx : Optimal lp x) (hs : ∀ o ∈ more, o.satisfied m ops x) {y : Nat → ℚ} (hy : Optimal lp' y) :
    (∃ z, SameSchedule m y z ∧ Optimal lp z ∧ lp.cost z = lp'.cost y) ∧
    ∀ o ∈ more, (o.firm → o.meets m (lossesOf ops) y) ∧ ∀ p ∈ o.misses m ops y, p.1 * p.2 = 0 := by
  obtain ⟨z, _, hz, hc⟩ := C129_irrelevant hr h h' hp hb hl hl' hx hs
  obtain ⟨⟨h1, h2⟩, e1⟩ := optimal_total h hp hb hl hx
  obtain ⟨⟨h3, _⟩, e3⟩ := optimal_total h' (List.mem_append_left _ hp) hb hl' hy
  have h5 := ((permitted_more hr y).1 h3).1
  have h0 : ∀ q ∈ (more.flatMap (Op.misses m ops y)).map (fun p => p.1 * p.2), 0 ≤ q := by
    intro q hq
    obtain ⟨p, hpm, rfl⟩ := List.mem_map.1 hq
    obtain ⟨op, hop, hpm⟩ := List.mem_flatMap.1 hpm
    exact misses_nonneg (h'.kinds op (List.mem_append_right _ hop)) m ops y p hpm
  have h4 : 0 ≤ ((more.flatMap (Op.misses m ops y)).map (fun p => p.1 * p.2)).sum := List.sum_nonneg h0
  have e4 := hy.2 z hz.1
  rw [e3, hc, e1, costAt_more hr, penalty_more hr] at e4
  have hlt : LeastTotal m ops ps y := ⟨h5, fun w hw => by linarith [h2 w hw]⟩
  obtain ⟨w, hs', ho⟩ := (C124_optimal h hp hb hl y).2 hlt
  refine ⟨⟨w, hs', ho, ?_⟩, fun o ho => ⟨((permitted_more hr y).1 h3).2 o ho, fun p hpm => ?_⟩⟩
  swap
  · have hm : p.1 * p.2 ∈ (more.flatMap (Op.misses m ops y)).map (fun p => p.1 * p.2) :=
      List.mem_map.2 ⟨p, List.mem_flatMap.2 ⟨o, ho, hpm⟩, rfl⟩
    have := List.single_le_sum h0 _ hm
    linarith [h0 _ hm, h2 y h5]
  have a1 := ho.2 x hx.1
  have a2 := hx.2 w ho.1
  have a3 := hz.2 y hy.1
  have a4 := hy.2 z hz.1
  linarith

end

/-- two units, the cheaper one limited to 60 MW, demand 80 MW; afterwards a forecast of 70 MW for the cheaper one and ramp rates for
the other -/
def spareCase (more : List Op) : Case where
  regions := ["NSW"]
  units := [{ unit := "A", region := "NSW" }, { unit := "B", region := "NSW" }]
  hist := [.volumeBids [{ unit := "A", bands := [("1", 100)] }, { unit := "B", bands := [("1", 100)] }],
    .priceBids [{ unit := "A", bands := [("1", 20)] }, { unit := "B", bands := [("1", 30)] }],
    .capacity [{ unit := "A", val := 60 }] none, .demand [{ region := "NSW", demand := 80 }] none] ++ more
  sol := [60, 20]

def spareMore : List Op :=
  [.uigf [{ unit := "A", val := 70 }] none, .rampRates [{ unit := "B", init := 0, up := 360, down := 360 }] none none .noFastStart (some (.num 300))]

/-- instance of the theorems of C129: the forecast is firm, the ramp rates have a violation cost, and the cheapest dispatch without
these calls does what they ask -/
example : ∃ (ops more : List Op) (m : Market) (ps : List BidRow) (lp lp' : Lp) (x : Nat → ℚ), more ≠ [] ∧ (∀ o ∈ more, o.restricts) ∧
    MadeBy ops m ∧ MadeBy (ops ++ more) (m.run more) ∧ Op.priceBids ps ∈ ops ∧ BandsUnique ps ∧ m.assemble = .ok lp ∧
    (m.run more).assemble = .ok lp' ∧ Optimal lp x ∧ (∀ o ∈ more, o.satisfied m ops x) ∧ m.costAt ps x = 1800 := by
  have h : (spareCase []).shadow [-10, 30] (fun m => decide ((m.losses = none ∧ m.sos1Groups = [] ∧ m.sos2Groups = []) ∧
      (∀ op ∈ (spareCase []).hist, op.suits m) ∧ m.properLinks (lossesOf (spareCase []).hist) ∧
      m.costAt (pricesOf (spareCase []).hist) (spareCase []).x = 1800 ∧
      m.dispatched (spareCase []).x "A" .energy .generator ≤ 70 ∧
      ∀ o ∈ spareMore, ∀ p ∈ o.misses m (spareCase []).hist (spareCase []).x, p.2 = 0)) = true := by decide +kernel
  have h' : (spareCase spareMore).ok (fun m => decide ((∀ op ∈ (spareCase spareMore).hist, op.suits m) ∧
      m.properLinks (lossesOf (spareCase spareMore).hist))) = true := by decide +kernel
  obtain ⟨m, lp, o, h0, h1, h2, h3, h4, h5, h6⟩ := Case.shadow_spec h
  obtain ⟨m', lp', g0, g1, g2, g3⟩ := Case.witness h'
  obtain ⟨⟨k1, k2, k3⟩, k4, k5, k6, k7, k8⟩ := of_decide_eq_true h6
  obtain ⟨k9, k10⟩ := of_decide_eq_true g3
  have e : ∀ {more : List Op} {m : Market}, (spareCase more).final = some m →
      m = Market.run { regions := ["NSW"], units := (spareCase []).units, di := 5 } (spareCase more).hist := by
    intro more m h
    unfold Case.final at h
    split at h
    · cases h
    · rename_i m0 hm0
      rw [(init_fresh hm0).1] at h
      split at h
      · cases h; rfl
      · cases h
  have hm : m' = m.run spareMore := by
    rw [e g0, e h0, ← run_append]
    rfl
  have kinds : ∀ op ∈ (spareCase spareMore).hist, op.firm ∨ op.lax := by
    intro op ho
    simp only [spareCase, spareMore, List.cons_append, List.nil_append, List.mem_cons, List.not_mem_nil, or_false] at ho
    rcases ho with rfl | rfl | rfl | rfl | rfl | rfl
    · left; trivial
    · left; trivial
    · left; rfl
    · left; rfl
    · left; rfl
    · right; simp only [Op.lax]; norm_num
  have hmem : ∀ op ∈ (spareCase []).hist, op ∈ (spareCase spareMore).hist := fun op ho => List.mem_append_left _ (by simpa [spareCase] using ho)
  have hm1 : MadeBy (spareCase []).hist m := Case.madeBy h0 (by decide +kernel) (by decide +kernel) (fun op ho => kinds op (hmem op ho)) k4 k5
    (fun c hc => by simp [spareCase] at hc)
  have hm2 : MadeBy (spareCase spareMore).hist m' := Case.madeBy g0 (by decide +kernel) (by decide +kernel) kinds k9 k10
    (fun c hc => by simp [spareCase, spareMore] at hc)
  rw [h3] at h5
  subst hm
  refine ⟨(spareCase []).hist, spareMore, m, _, lp, lp', (spareCase []).x, by simp [spareMore], by decide, hm1, hm2,
    List.mem_cons_of_mem _ List.mem_cons_self, by unfold BandsUnique; decide +kernel, h1, g1, optimal_of_shadow h1 k1 k2 k3 h5, ?_, k6⟩
  intro op ho
  refine ⟨fun hf => ?_, k8 op ho⟩
  simp only [spareMore, List.mem_cons, List.not_mem_nil, or_false] at ho
  rcases ho with rfl | rfl
  · intro l hl hd
    rw [List.mem_singleton.1 hl]
    exact fun _ => k7
  · cases hf

end Verif
