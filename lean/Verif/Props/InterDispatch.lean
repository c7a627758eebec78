import Verif.Props.Interconnectors
import Verif.Props.Regional

/-!
# From the tables of interconnectors and demand to the dispatch: C98, C99, C100

The tables of `InterconnectorData` and `DemandData` for an interval are passed to `set_interconnectors`, `set_interconnector_losses`
and `set_demand_constraints`.
-/

namespace Verif.Inter

open Verif

variable {t : Tables}

/-! ### C98: flow limits -/

/-- **C98** The flow of a regulated interconnector is between the import limit, negated, and the export limit of the table. -/
theorem C98_regulated (hc : (t.constraints.map ConstraintRow.id).Nodup) {m : Market} (h : InForce (.interconnectors t.definitions) m)
    {lp : Lp} (hl : m.assemble = .ok lp) {x : Nat → ℚ} (hx : Feasible lp x) {d : Direction} (hd : d ∈ t.directions) {c : ConstraintRow}
    (hcm : c ∈ t.constraints) (he : c.id = d.id) (hr : c.icType = "REGULATED") :
    -c.importLimit ≤ m.flow x d.id d.id ∧ m.flow x d.id d.id ≤ c.exportLimit := by
  have hm := (C76_definitions hc _).2 (Or.inl ⟨d, hd, c, hcm, he, hr, rfl⟩)
  have := C19_flow_limits h hl hx hm
  exact this

/-- **C98** The flow of a link of a market interconnector is between zero and the availability in the bid for its region, or the
capacity of the link if the bid has none. -/
theorem C98_market (hc : (t.constraints.map ConstraintRow.id).Nodup) {m : Market} (h : InForce (.interconnectors t.definitions) m)
    {lp : Lp} (hl : m.assemble = .ok lp) {x : Nat → ℚ} (hx : Feasible lp x) {l : Mnsp} (hm : l ∈ t.mnsp) {c : ConstraintRow}
    (hcm : c ∈ t.constraints) (he : c.id = l.id) (hr : c.icType = "MNSP") {b : LinkBid} (hb : b ∈ t.linkBids) (h1 : b.inter = l.id)
    (h2 : b.toR = l.toR) : 0 ≤ m.flow x l.id l.link ∧ m.flow x l.id l.link ≤ b.availability.getD l.maxCapacity := by
  have hm := (C76_definitions hc _).2 (Or.inr ⟨l, hm, c, hcm, b, hb, he, hr, h1, h2, rfl⟩)
  have := C19_flow_limits h hl hx hm
  exact this

/-- **C98** Two links of a market interconnector do not both carry flow. -/
theorem C98_one_direction (hc : (t.constraints.map ConstraintRow.id).Nodup) {m : Market}
    (h : InForce (.interconnectors t.definitions) m) {lp : Lp} (hl : m.assemble = .ok lp) {x : Nat → ℚ} (hx : Feasible lp x)
    {r r' : InterDef} (hr : MarketLink t r) (hr' : MarketLink t r') (he : r.inter = r'.inter) (hn : r.link ≠ r'.link)
    (h1 : r.inter ≠ r.link) (h2 : r'.inter ≠ r'.link) : m.flow x r.inter r.link = 0 ∨ m.flow x r'.inter r'.link = 0 := by
  by_contra hcon
  rw [not_or] at hcon
  exact hn (congrArg InterDef.link (C42_one_link h hl hx ((C76_definitions hc _).2 (Or.inr hr)) ((C76_definitions hc _).2 (Or.inr hr'))
    he h1 h2 hcon.1 hcon.2))

/-! ### C99: losses -/

theorem isLoss_unique {mlf f g : ℚ → ℚ} (hf : IsLoss mlf f) (hg : IsLoss mlf g) (q : ℚ) : f q = g q := by
  have h1 := hf.2 0 q
  have h2 := hg.2 0 q
  rw [hf.1] at h1
  rw [hg.1] at h2
  linarith

theorem fixShare_id (c : ConstraintRow) : (fixShare c).id = c.id := rfl

theorem marginalLoss_fixShare (c : ConstraintRow) (ds : List DemandCoef) (rs : List RegionSum) :
    marginalLoss (fixShare c) ds rs = marginalLoss c ds rs := rfl

/-- the loss function of an interconnector -/
theorem lossRow_of {c : ConstraintRow} (hcm : c ∈ t.constraints) :
    ∃ r ∈ createLossFunctions t.cons t.demandCoefs (lossFunctionDemand t.regions), r.inter = c.id ∧
      r.share = (fixShare c).fromShare ∧ IsLoss (marginalLoss c t.demandCoefs t.regions) r.fn := by
  have hall := C63_loss_functions t.cons t.demandCoefs t.regions
  have hm : fixShare c ∈ t.cons := List.mem_map.2 ⟨c, hcm, rfl⟩
  generalize t.cons = cs at hall hm ⊢
  generalize createLossFunctions cs t.demandCoefs (lossFunctionDemand t.regions) = rows at hall
  induction hall with
  | nil => simp at hm
  | cons h _ ih =>
    rcases List.mem_cons.1 hm with rfl | hm
    · exact ⟨_, List.mem_cons_self, h.1, h.2.1, h.2.2⟩
    · obtain ⟨r, hr, e⟩ := ih hm
      exact ⟨r, List.mem_cons_of_mem _ hr, e⟩

theorem flatMap_if {α β : Type} (l : List α) (p : α → Bool) (f : α → List β) :
    l.flatMap (fun a => if p a then f a else []) = (l.filter p).flatMap f := by
  induction l with
  | nil => rfl
  | cons a l ih => by_cases ha : p a <;> simp [ha, ih]

theorem filter_link (d d' : InterDef) (rows : List LossRow) :
    (rows.map (fun f => (⟨d'.inter, d'.link, fun flow => f.fn (flow * d'.gcf), f.share⟩ : LossFn))).filter
      (fun f => decide (f.inter = d.inter ∧ f.link = d.link)) =
    if decide ((d'.inter, d'.link) = (d.inter, d.link)) then
      rows.map (fun f => (⟨d'.inter, d'.link, fun flow => f.fn (flow * d'.gcf), f.share⟩ : LossFn)) else [] := by
  by_cases hk : (d'.inter, d'.link) = (d.inter, d.link)
  · rw [if_pos (by simpa using hk), List.filter_eq_self]
    rw [Prod.mk.injEq] at hk
    intro b hb
    obtain ⟨s, -, rfl⟩ := List.mem_map.1 hb
    simpa using hk
  · rw [if_neg (by simpa using hk), List.filter_eq_nil_iff]
    intro b hb
    obtain ⟨s, -, rfl⟩ := List.mem_map.1 hb
    rw [Prod.mk.injEq] at hk
    simpa using hk

theorem pointsOf_def {d : InterDef} (hn : (t.definitions.map (fun d => (d.inter, d.link))).Nodup) (hd : d ∈ t.definitions) :
    pointsOf t.breakPoints d.inter d.link = (t.segments.filter (fun s => decide (s.id = d.inter))).map (fun s =>
      { inter := d.inter, link := d.link, seg := s.seg * truncate d.gcf, bp := s.bp * d.gcf }) := by
  unfold pointsOf Tables.breakPoints
  rw [List.filter_flatMap]
  have h1 := filter_key_unique hn hd
  have e : ∀ d' : InterDef, ((t.segments.filter (fun s => decide (s.id = d'.inter))).map (fun s =>
      ({ inter := d'.inter, link := d'.link, seg := s.seg * truncate d'.gcf, bp := s.bp * d'.gcf } : BreakPt))).filter
      (fun b => decide (b.inter = d.inter ∧ b.link = d.link)) =
      if decide ((d'.inter, d'.link) = (d.inter, d.link)) then (t.segments.filter (fun s => decide (s.id = d'.inter))).map (fun s =>
      ({ inter := d'.inter, link := d'.link, seg := s.seg * truncate d'.gcf, bp := s.bp * d'.gcf } : BreakPt)) else [] := by
    intro d'
    by_cases hk : (d'.inter, d'.link) = (d.inter, d.link)
    · rw [if_pos (by simpa using hk)]
      rw [Prod.mk.injEq] at hk
      rw [List.filter_eq_self]
      intro b hb
      obtain ⟨s, -, rfl⟩ := List.mem_map.1 hb
      simpa using hk
    · rw [if_neg (by simpa using hk), List.filter_eq_nil_iff]
      intro b hb
      obtain ⟨s, -, rfl⟩ := List.mem_map.1 hb
      rw [Prod.mk.injEq] at hk
      simpa using hk
  rw [List.flatMap_congr (fun d' _ => e d')]
  rw [flatMap_if, h1]
  simp

/-- Interpolation of a mirrored function at mirrored points. -/
theorem interpolates_neg {f : ℚ → ℚ} {pts : List ℚ} {q v : ℚ} (h : Interpolates (fun y => f (-y)) (pts.map (fun p => -p)) q v) :
    Interpolates f pts (-q) v := by
  obtain ⟨a, ha, b, hb, h1, h2, h3, h4⟩ := h
  obtain ⟨a, ha', rfl⟩ := List.mem_map.1 ha
  obtain ⟨b, hb', rfl⟩ := List.mem_map.1 hb
  refine ⟨b, hb', a, ha', by linarith, by linarith, ?_, ?_⟩
  · intro c hc hcc
    exact h3 (-c) (List.mem_map.2 ⟨c, hc, rfl⟩) ⟨by linarith, by linarith⟩
  · rw [h4]
    unfold lineAt
    simp only [neg_neg]
    by_cases hab : a = b
    · subst hab; simp
    · have hab' : ¬ b = a := fun e => hab e.symm
      rw [if_neg (by simpa using hab), if_neg hab']
      have n1 : a - b ≠ 0 := sub_ne_zero.2 hab
      have e1 : (-b - -a) = a - b := by ring
      rw [e1]
      obtain ⟨k, hk⟩ : ∃ k, f b - f a = k * (a - b) := ⟨_, (div_mul_cancel₀ _ n1).symm⟩
      have hk' : f a - f b = -k * (a - b) := by linarith
      rw [hk, hk', mul_div_cancel_right₀ _ n1, mul_div_cancel_right₀ _ n1]
      linarith

theorem truncate_one : truncate 1 = 1 := by decide +kernel
theorem truncate_neg_one : truncate (-1) = -1 := by decide +kernel

/-- the loss of a link with factor one or minus one -/
theorem loss_of_link (hc : (t.constraints.map ConstraintRow.id).Nodup) {m : Market}
    (h : InForce (.interconnectors t.definitions) m) (hlo : InForceKeeping [.inters] (.losses t.lossFunctions t.breakPoints) m)
    {lp : Lp} (hl : m.assemble = .ok lp) {x : Nat → ℚ} (hx : Feasible lp x) {r : InterDef} (hd : r ∈ t.definitions)
    (hg : r.gcf = 1 ∨ r.gcf = -1) {c : ConstraintRow} (hcm : c ∈ t.constraints) (he : c.id = r.inter)
    (hp : lossPoints t r.inter ≠ []) (hi : PointsIncrease t r.inter) {loss : ℚ → ℚ}
    (hloss : IsLoss (marginalLoss c t.demandCoefs t.regions) loss) :
    Interpolates loss (lossPoints t r.inter) (r.gcf * m.flow x r.inter r.link) (m.linkLoss x r.inter r.link) := by
  obtain ⟨row, hrow, e1, -, e3⟩ := lossRow_of hcm
  have hf := ((C64_links t).1 _).2 ⟨r, hd, row, hrow, e1.trans he, rfl⟩
  obtain ⟨n, -, -, -, hok⟩ := inters_set h
  have hpts := pointsOf_def (interKeys hok) hd
  have heq : row.fn = loss := funext (isLoss_unique e3 hloss)
  subst heq
  have hint := C20_losses_interpolate hlo hl hx hf (by
      show pointsOf t.breakPoints r.inter r.link ≠ []
      rw [hpts]
      intro hnil
      apply hp
      unfold lossPoints
      rw [List.map_eq_nil_iff] at hnil ⊢
      exact hnil) (by
      show Increasing (pointsOf t.breakPoints r.inter r.link)
      rw [hpts]
      intro b hb b' hb' hlt
      obtain ⟨s, hs, rfl⟩ := List.mem_map.1 hb
      obtain ⟨s', hs', rfl⟩ := List.mem_map.1 hb'
      simp only [List.mem_filter, decide_eq_true_eq] at hs hs'
      dsimp only at hlt ⊢
      rcases hg with hg | hg
      · rw [hg, truncate_one, mul_one, mul_one] at hlt
        rw [hg, mul_one, mul_one]
        exact hi s hs.1 s' hs'.1 hs.2 hs'.2 hlt
      · rw [hg, truncate_neg_one] at hlt
        rw [hg]
        have := hi s' hs'.1 s hs.1 hs'.2 hs.2 (by omega)
        linarith)
  have hint : Interpolates (fun y => row.fn (y * r.gcf)) ((pointsOf t.breakPoints r.inter r.link).map BreakPt.bp)
    (m.flow x r.inter r.link) (m.linkLoss x r.inter r.link) := hint
  rw [hpts, List.map_map] at hint
  rcases hg with hg | hg
  · rw [hg, one_mul]
    rw [hg] at hint
    simp only [mul_one, Function.comp_def] at hint
    exact hint
  · rw [hg, neg_one_mul]
    rw [hg] at hint
    apply interpolates_neg
    unfold lossPoints
    rw [List.map_map]
    simp only [mul_neg_one, Function.comp_def] at hint ⊢
    exact hint

/-- **C99** In every dispatch the loss of a regulated interconnector is the interpolation at the flow, between the break points of
the table, of the loss function that has the marginal loss factor equation of the table. -/
theorem C99_regulated (hc : (t.constraints.map ConstraintRow.id).Nodup) {m : Market} (h : InForce (.interconnectors t.definitions) m)
    (hlo : InForceKeeping [.inters] (.losses t.lossFunctions t.breakPoints) m) {lp : Lp} (hl : m.assemble = .ok lp) {x : Nat → ℚ}
    (hx : Feasible lp x) {d : Direction} (hd : d ∈ t.directions) {c : ConstraintRow} (hcm : c ∈ t.constraints) (he : c.id = d.id)
    (hr : c.icType = "REGULATED") (hp : lossPoints t d.id ≠ []) (hi : PointsIncrease t d.id) {loss : ℚ → ℚ}
    (hloss : IsLoss (marginalLoss c t.demandCoefs t.regions) loss) :
    Interpolates loss (lossPoints t d.id) (m.flow x d.id d.id) (m.linkLoss x d.id d.id) := by
  have := loss_of_link hc h hlo hl hx ((C76_definitions hc _).2 (Or.inl ⟨d, hd, c, hcm, he, hr, rfl⟩)) (Or.inl rfl) hcm he hp hi hloss
  dsimp only at this
  rwa [one_mul] at this

/-- **C99** The same for a link of a market interconnector whose factor in the table is one or minus one: the loss is that at the
flow in the direction of the interconnector. -/
theorem C99_market (hc : (t.constraints.map ConstraintRow.id).Nodup) {m : Market} (h : InForce (.interconnectors t.definitions) m)
    (hlo : InForceKeeping [.inters] (.losses t.lossFunctions t.breakPoints) m) {lp : Lp} (hl : m.assemble = .ok lp) {x : Nat → ℚ}
    (hx : Feasible lp x) {l : Mnsp} (hm : l ∈ t.mnsp) {c : ConstraintRow} (hcm : c ∈ t.constraints) (he : c.id = l.id)
    (hr : c.icType = "MNSP") (hb : ∃ b ∈ t.linkBids, b.inter = l.id ∧ b.toR = l.toR) (hg : l.lhsFactor = 1 ∨ l.lhsFactor = -1)
    (hp : lossPoints t l.id ≠ []) (hi : PointsIncrease t l.id) {loss : ℚ → ℚ}
    (hloss : IsLoss (marginalLoss c t.demandCoefs t.regions) loss) :
    Interpolates loss (lossPoints t l.id) (l.lhsFactor * m.flow x l.id l.link) (m.linkLoss x l.id l.link) := by
  obtain ⟨b, hb, h1, h2⟩ := hb
  have hgc : ((truncate l.lhsFactor : Int) : ℚ) = l.lhsFactor := by
    rcases hg with hg | hg <;> rw [hg]
    · rw [truncate_one]; rfl
    · rw [truncate_neg_one]; rfl
  have := loss_of_link hc h hlo hl hx ((C76_definitions hc _).2 (Or.inr ⟨l, hm, c, hcm, b, hb, he, hr, h1, h2, rfl⟩))
    (by dsimp only; rw [hgc]; exact hg) hcm he hp hi hloss
  dsimp only at this
  rwa [hgc] at this

/-! ### C100: regional balance -/

/-- a region of the demand table passed to `set_demand_constraints` -/
def toDemand (r : String × ℚ) : Demand := { region := r.1, demand := r.2 }

theorem lossFn_of_link (hc : (t.constraints.map ConstraintRow.id).Nodup) (hn : (t.definitions.map (fun d => (d.inter, d.link))).Nodup)
    {d : InterDef} (hd : d ∈ t.definitions) :
    ∃ fn, t.lossFunctions.filter (fun f => decide (f.inter = d.inter ∧ f.link = d.link)) = [⟨d.inter, d.link, fn, lossShare t d.inter⟩] := by
  have hcons : (t.cons.map ConstraintRow.id).Nodup := by
    unfold Tables.cons
    rwa [List.map_map]
  obtain ⟨c, hcm, he⟩ : ∃ c ∈ t.constraints, c.id = d.inter := by
    rcases (C76_definitions hc d).1 hd with ⟨d', -, c, h1, h2, -, rfl⟩ | ⟨l, -, c, h1, -, -, h2, -, -, -, rfl⟩ <;> exact ⟨c, h1, h2⟩
  obtain ⟨row, hrow, e1, e2, -⟩ := lossRow_of hcm
  have hall := C63_loss_functions t.cons t.demandCoefs t.regions
  have hids : (createLossFunctions t.cons t.demandCoefs (lossFunctionDemand t.regions)).map LossRow.inter = t.cons.map ConstraintRow.id := by
    generalize t.cons = cs at hall
    generalize createLossFunctions cs t.demandCoefs (lossFunctionDemand t.regions) = rows at hall
    induction hall with
    | nil => rfl
    | cons h _ ih => simp [h.1, ih]
  have hone := filter_key_unique (hids ▸ hcons) hrow
  rw [e1, he] at hone
  have hshare : row.share = lossShare t d.inter := by
    rw [e2]
    unfold lossShare fixShare
    have := filter_key_unique hc hcm
    rw [he] at this
    rw [this, he]
    simp
  refine ⟨fun flow => row.fn (flow * d.gcf), ?_⟩
  unfold Tables.lossFunctions
  rw [List.filter_flatMap]
  rw [List.flatMap_congr (fun d' _ => filter_link d d' _), flatMap_if, filter_key_unique hn hd, List.flatMap_cons, List.flatMap_nil,
    List.append_nil, hone, ← hshare]
  rfl

/-- **C100** In every dispatch, in every region of the demand table that has an energy bid or a link: the energy of its units plus
what it receives over the links equals the total demand of the table plus the losses charged to it.  The links are those of the
tables, and the from region of a link pays the loss share of the table. -/
theorem C100_balance (hc : (t.constraints.map ConstraintRow.id).Nodup) {m : Market} (h : InForce (.interconnectors t.definitions) m)
    (hlo : InForceKeeping [.inters] (.losses t.lossFunctions t.breakPoints) m)
    (hd : InForce (.demand ((operationalDemand t.regions).map toDemand) none) m)
    (hp1 : ∀ d ∈ t.directions, d.fromR ≠ d.toR) (hp2 : ∀ l ∈ t.mnsp, l.fromR ≠ l.toR) {ls : List InterDef} (hls : Links t ls)
    {lp : Lp} (hl : m.assemble = .ok lp) {x : Nat → ℚ} (hx : Feasible lp x) {r : RegionSum} (hr : r ∈ t.regions)
    (hs : m.hasSupply r.region .energy ∨ m.hasLink r.region) :
    m.supply x r.region .energy +
      (ls.map (fun d => (if d.toR = r.region then d.toLf * m.flow x d.inter d.link else 0) -
        (if d.fromR = r.region then d.fromLf * m.flow x d.inter d.link else 0))).sum =
    r.totalDemand + (ls.map (fun d => lossCharge d.fromR d.toR (lossShare t d.inter) (m.linkLoss x d.inter d.link) r.region)).sum := by
  obtain ⟨n, -, e1, -, hok⟩ := inters_set h
  have hk := interKeys hok
  have hperm : ls.Perm t.definitions :=
    (List.perm_ext_iff_of_nodup hls.1 (List.Nodup.of_map _ hk)).2 (fun d => (hls.2 d).trans (C76_definitions hc d).symm)
  have hpl : m.properLinks t.lossFunctions := by
    intro d hdd f hf hf1 hf2
    rw [e1, Option.getD_some] at hdd
    rcases (C76_definitions hc d).1 hdd with ⟨d', hd', -, -, -, -, rfl⟩ | ⟨l, hl', -, -, -, -, -, -, -, -, rfl⟩
    · exact hp1 d' hd'
    · exact hp2 l hl'
  have hb := C13_regional_balance hd (Or.inr ⟨_, hlo⟩) hpl hl hx (d := ⟨r.region, r.totalDemand⟩)
    (List.mem_map.2 ⟨(r.region, r.totalDemand), List.mem_map.2 ⟨r, hr, rfl⟩, rfl⟩) hs
  dsimp only at hb
  have h1 : m.netImport x r.region = (ls.map (fun d => (if d.toR = r.region then d.toLf * m.flow x d.inter d.link else 0) -
        (if d.fromR = r.region then d.fromLf * m.flow x d.inter d.link else 0))).sum := by
    rw [C19_contribution h x r.region]
    exact ((hperm.map _).sum_eq).symm
  have h2 : m.chargedLoss x t.lossFunctions r.region =
      (ls.map (fun d => lossCharge d.fromR d.toR (lossShare t d.inter) (m.linkLoss x d.inter d.link) r.region)).sum := by
    unfold Market.chargedLoss
    rw [e1, Option.getD_some, (hperm.map _).sum_eq]
    congr 1
    apply List.map_congr_left
    intro d hdd
    obtain ⟨fn, hfn⟩ := lossFn_of_link hc hk hdd
    rw [hfn]
    simp
  rw [← h1, ← h2]
  linarith

/-! A regulated interconnector and Basslink, 100 MW from VIC to SA and 239 MW from VIC to TAS -/

def dispTables : Tables where
  constraints := demoTables.constraints
  directions := demoTables.directions
  mnsp := demoTables.mnsp
  linkBids := demoTables.linkBids
  regions := demoTables.regions
  demandCoefs := demoTables.demandCoefs
  segments := [⟨"V-SA", -1, -400⟩, ⟨"V-SA", 0, 0⟩, ⟨"V-SA", 1, 400⟩, ⟨"T-V-MNSP1", -1, -478⟩, ⟨"T-V-MNSP1", 0, 0⟩, ⟨"T-V-MNSP1", 1, 594⟩]

def dispCase : Case where
  regions := ["VIC", "SA", "TAS"]
  units := [{ unit := "A", region := "VIC" }, { unit := "B", region := "SA" }, { unit := "C", region := "TAS" }]
  hist := [.volumeBids [{ unit := "A", bands := [("1", 9000)] }, { unit := "B", bands := [("1", 9000)] }, { unit := "C", bands := [("1", 9000)] }],
    .interconnectors dispTables.definitions, .losses dispTables.lossFunctions dispTables.breakPoints,
    .demand ((operationalDemand dispTables.regions).map toDemand) none]
  sol := [53489751 / 10000, 1401827 / 1000, 761, 100, 0, 239, 609 / 100, 0, 81021 / 10000, 0, 3 / 4, 1 / 4, 0, 1, 0, 1 / 2, 1 / 2, 0]

/-- instances of C98, C99 and C100: hypotheses, and flows and losses that are not zero -/
example : ∃ m lp, InForce (.interconnectors dispTables.definitions) m ∧
    InForceKeeping [.inters] (.losses dispTables.lossFunctions dispTables.breakPoints) m ∧
    InForce (.demand ((operationalDemand dispTables.regions).map toDemand) none) m ∧ m.assemble = .ok lp ∧ Feasible lp dispCase.x ∧
    m.flow dispCase.x "V-SA" "V-SA" = 100 ∧ m.linkLoss dispCase.x "V-SA" "V-SA" = 609 / 100 ∧
    m.flow dispCase.x "T-V-MNSP1" "BLNKVIC" = 239 ∧ m.linkLoss dispCase.x "T-V-MNSP1" "BLNKVIC" = 81021 / 10000 ∧
    (∀ r ∈ dispTables.regions, m.hasSupply r.region .energy ∧ m.hasLink r.region) ∧
    (dispTables.constraints.map ConstraintRow.id).Nodup ∧ Links dispTables dispTables.definitions ∧
    (∀ i ∈ ["V-SA", "T-V-MNSP1"], lossPoints dispTables i ≠ [] ∧ PointsIncrease dispTables i) ∧
    (∀ d ∈ dispTables.directions, d.fromR ≠ d.toR) ∧ (∀ l ∈ dispTables.mnsp, l.fromR ≠ l.toR) ∧
    lossShare dispTables "V-SA" = 7 / 10 ∧ lossShare dispTables "T-V-MNSP1" = 1 := by
  have hw : dispCase.ok (fun m => decide (m.flow dispCase.x "V-SA" "V-SA" = 100 ∧ m.linkLoss dispCase.x "V-SA" "V-SA" = 609 / 100 ∧
    m.flow dispCase.x "T-V-MNSP1" "BLNKVIC" = 239 ∧ m.linkLoss dispCase.x "T-V-MNSP1" "BLNKVIC" = 81021 / 10000 ∧
    (∀ r ∈ dispTables.regions, m.hasSupply r.region .energy ∧ m.hasLink r.region))) = true := by
    decide +kernel
  obtain ⟨m, lp, h0, h1, h2, h3⟩ := Case.witness hw
  obtain ⟨a1, a2, a3, a4, a5⟩ := of_decide_eq_true h3
  have hc : (dispTables.constraints.map ConstraintRow.id).Nodup := by decide +kernel
  refine ⟨m, lp, ?_, ?_, ?_, h1, h2, a1, a2, a3, a4, a5, hc, ⟨by decide +kernel, C76_definitions hc⟩, ?_, ?_, ?_, ?_, ?_⟩
  · exact Case.inForce (i := 1) (keep := []) h0 rfl (by decide +kernel)
  · exact Case.inForce (i := 2) (keep := [.inters]) h0 rfl (by decide +kernel)
  · exact Case.inForce (i := 3) (keep := []) h0 rfl (by decide +kernel)
  · unfold PointsIncrease; decide +kernel
  · decide +kernel
  · decide +kernel
  · decide +kernel
  · decide +kernel

end Verif.Inter
