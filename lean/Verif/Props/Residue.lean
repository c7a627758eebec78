import Verif.Props.Equilibrium
import Verif.Props.Linear

/-!
# C104: interconnectors and the difference of prices between regions
-/

namespace Verif

theorem Market.onlyNetwork.cost {ps : List BidRow} {m : Market} (h : InForceKeeping [.bids] (.priceBids ps) m)
    (hb : BandsUnique ps) {lp : Lp} (hl : m.assemble = .ok lp) {x y : Nat → ℚ} (hx : m.onlyNetwork x y) : lp.cost y = lp.cost x := by
  rw [C05_objective_is_cost_of_bids h hb hl, C05_objective_is_cost_of_bids h hb hl]
  congr 1
  · apply sum_map_congr
    intro b hb
    rw [hx.1 b hb]
  · apply sum_map_congr
    intro v hv
    obtain ⟨d, hd, hv⟩ := List.mem_flatMap.1 hv
    rw [hx.2 d hd v hv]

theorem Market.onlyNetwork.supply {m : Market} {x y : Nat → ℚ} (hx : m.onlyNetwork x y) (g : String) (s : Service) :
    m.supply y g s = m.supply x g s := by
  unfold Market.supply
  apply sum_map_congr
  intro i _
  congr 1
  unfold Market.dispatched
  apply sum_map_congr
  intro b hb
  exact hx.1 b (List.mem_of_mem_filter hb)

/-- what the change does to the balance of a region -/
theorem Market.onlyNetwork.row {m : Market} (hr : Reached m) {fs : List LossFn} (hf : LossFunctions fs m) (hp : m.properLinks fs)
    {x y : Nat → ℚ} (h : m.onlyNetwork x y) {ds : List Demand} {n : Nat} (ht1 : m.mktRhs.get? .demand = some (energyConstraints ds n).1)
    (ht2 : m.regCon.get? .demand = some (energyConstraints ds n).2) {i : Nat} {d : Demand} (hd : ds[i]? = some d) :
    rowVal m.terms y (n + i) - rowVal m.terms x (n + i) =
      (m.netImport y d.region - m.chargedLoss y fs d.region) - (m.netImport x d.region - m.chargedLoss x fs d.region) := by
  have hw := hr.wf
  have hin : InTab m .demand (n + i) :=
    Or.inr (Or.inr (Or.inr (Or.inl ⟨_, Dict.mem_of_get? ht1, _, energy_mem hd, rfl⟩)))
  have h5 : m.unitCon.get? .demand = none := by
    apply get?_none_of_keys
    rintro e he h
    have h' := isUnit_not_market (hw.key.1 e he)
    rw [h] at h'; cases h'
  have hf1 : (energyConstraints ds n).2.filter (fun k => decide (k.cid = n + i)) = [⟨n + i, d.region, .energy, 1⟩] :=
    filter_saveIndex ds n (fun i (d : Demand) => ({ cid := i, region := d.region, service := .energy, coef := 1 } : ConReg))
      ConReg.cid (fun _ _ => rfl) hd
  have hg : ∀ z, rowVal (m.genericTermsFor (setIds (m.genericRows .demand))) z (n + i) = 0 := by
    intro z
    unfold Market.genericRows
    simp only [reduceCtorEq, if_false, setIds]
    rw [show (List.filterMap _ [] : List (Nat × String)) = [] from rfl, genericTermsFor_nil]; rfl
  have hdef : rowVal ((m.deficits.get? .demand).elim [] (·.2)) y (n + i) = rowVal ((m.deficits.get? .demand).elim [] (·.2)) x (n + i) := by
    apply rowVal_agree
    intro t ht
    cases hdf : m.deficits.get? .demand with
    | none => rw [hdf] at ht; cases ht
    | some d =>
      rw [hdf] at ht
      obtain ⟨v, hv, e⟩ := List.mem_map.1 (hr.refs.own _ (Dict.mem_of_get? hdf) t ht)
      rw [← e]
      exact h.2 _ (Dict.mem_of_get? hdf) v hv
  have hz : ∀ z, rowVal (createLhsUnit ((none : Option (List ConUnit)).getD []) (m.bidUnit.getD [])) z (n + i) = 0 := fun z => rfl
  rw [rowVal_own hw.con hin, rowVal_own hw.con hin]
  unfold Market.ownTerms
  rw [h5, ht2]
  simp only [reduceCtorEq, if_false, rowVal_append, rowVal_createLhsReg, Option.getD_some, hf1, rowVal_nil, hg, hz, hdef, List.map_cons,
    List.map_nil, List.sum_cons, List.sum_nil, regSum_energy hw hf hp, h.supply]
  ring

/-- **C104, interconnectors.**  At the reported energy prices the interconnectors earn as much as they can: when the prices are shadow
prices of the linear model at its solution `xl`, and `y` differs from `xl` only in flows, losses and interpolation weights and respects
all constraints other than the balance of the regions, then the interconnectors do not earn more with `y`. -/
theorem C104_residue {ds : List Demand} {ps : List BidRow} {fs : List LossFn} {m : Market} (hds : DemandSet ds m)
    (hps : InForceKeeping [.bids] (.priceBids ps) m) (hb : BandsUnique ps) (hf : LossFunctions fs m) (hp : m.properLinks fs)
    {S : Solver} {ocd : Option ReRun} {o : Outcome} (ho : m.dispatch S ocd = .ok o) {lp : Lp} (hl : m.assemble = .ok lp)
    {xl : Nat → ℚ} (hs : ShadowPrices (m.linear S o.x lp) xl o.price) {energy : List (String × ℚ)}
    (he : m.energyPrices o.price = .ok energy) {y : Nat → ℚ} (hx : m.onlyNetwork xl y)
    (hy : m.allButSets [.demand] (m.linear S o.x lp) y) : m.residue energy fs y ≤ m.residue energy fs xl := by
  obtain ⟨-, n, ht1, ht2⟩ := hds.tables
  have hr := hps.inForce.reached
  have hw := hr.wf
  obtain ⟨lp', hl', _, hpr, _⟩ := dispatch_parts ho
  rw [hl] at hl'; injection hl' with hl'; subst hl'
  have hb1 := shadow_rows hw.con hl (linear_rows ..) (R := (energyConstraints ds n).1)
    (rows_nodup hw.con (k := .demand) (by unfold Market.rowsOf; rw [ht1]))
    (fun r hr => ⟨mktRow_mem ht1 hr, priced_row hpr ht1 hr⟩) hs hy.1 (by
      intro r hr' hc
      apply hy.2 r hr'
      intro k hk
      simp only [List.mem_singleton] at hk
      subst hk
      exact not_rowOf hw.con rfl ht1 hc)
  rw [linear_cost, linear_cost, hx.cost hps hb hl] at hb1
  have : m.residue energy fs y - m.residue energy fs xl =
      ((energyConstraints ds n).1.map (fun r => o.price r.cid * (rowVal m.terms y r.cid - rowVal m.terms xl r.cid))).sum := by
    unfold Market.residue
    rw [← sum_map_sub]
    unfold Market.energyPrices at he
    rw [ht1] at he
    injection he with he
    rw [← he]
    have e1 : ∀ l : List (String × ℚ), (l.map (fun e => e.2 * (m.netImport y e.1 - m.chargedLoss y fs e.1) - e.2 * (m.netImport xl e.1 - m.chargedLoss xl fs e.1))).sum =
        (l.map (fun e => e.2 * ((m.netImport y e.1 - m.chargedLoss y fs e.1) - (m.netImport xl e.1 - m.chargedLoss xl fs e.1)))).sum := by
      intro l
      apply sum_map_congr
      intro e _
      ring
    rw [e1, sum_region _ _ o.price (fun g => (m.netImport y g - m.chargedLoss y fs g) - (m.netImport xl g - m.chargedLoss xl fs g))]
    · apply sum_map_congr
      intro r hrm
      obtain ⟨i, d, hd, rfl⟩ := mem_saveIndex.1 hrm
      dsimp only
      rw [hx.row hr hf hp ht1 ht2 hd, Option.getD_some]
    · intro r hrm
      obtain ⟨i, d, hd, rfl⟩ := mem_saveIndex.1 hrm
      exact ⟨_, rfl⟩
  linarith

/-- **C104, reported flows.**  With evenly spaced break points, where the linear model did not find a cheaper solution by mixing segments
or directions that the dispatch excludes (`xl` is feasible for the mixed integer program), it is the reported flows and losses that earn
as much as they can. -/
theorem C104_at_dispatch {ds : List Demand} {ps : List BidRow} {fs : List LossFn} {bs : List BreakPt} {m : Market} (hds : DemandSet ds m)
    (hps : InForceKeeping [.bids] (.priceBids ps) m) (hb : BandsUnique ps) (hf : InForceKeeping [.inters] (.losses fs bs) m)
    (hp : m.properLinks fs) {S : Solver} (hS : S.sorts) (hinc : ∀ i l, Increasing (pointsOf bs i l))
    (hev : ∀ i l, EvenlySpaced ((pointsOf bs i l).map BreakPt.bp)) {ocd : Option ReRun} {o : Outcome} (ho : m.dispatch S ocd = .ok o)
    {lp : Lp} (hl : m.assemble = .ok lp) (hopt : Optimal lp o.x)
    {xl : Nat → ℚ} (hs : ShadowPrices (m.linear S o.x lp) xl o.price) (hxl : Feasible lp xl) {energy : List (String × ℚ)}
    (he : m.energyPrices o.price = .ok energy) {y : Nat → ℚ} (hx : m.onlyNetwork o.x y)
    (hy : m.allButSets [.demand] (m.linear S o.x lp) y) : m.residue energy fs y ≤ m.residue energy fs o.x :=
  C104_residue hds hps hb (Or.inr ⟨bs, hf⟩) hp ho hl
    (C103_at_dispatch hs hopt (C32_linear_keeps_solution_partial hf hl hopt.1 hS hinc hev) hxl) he hx hy

/-- **C104, no loss of money.**  If the interconnectors could be idle without breaking a constraint other than the balance of the regions,
they do not earn less than nothing. -/
theorem C104_residue_nonneg {ds : List Demand} {ps : List BidRow} {fs : List LossFn} {m : Market} (hds : DemandSet ds m)
    (hps : InForceKeeping [.bids] (.priceBids ps) m) (hb : BandsUnique ps) (hf : LossFunctions fs m) (hp : m.properLinks fs)
    {S : Solver} {ocd : Option ReRun} {o : Outcome} (ho : m.dispatch S ocd = .ok o) {lp : Lp} (hl : m.assemble = .ok lp)
    {xl : Nat → ℚ} (hs : ShadowPrices (m.linear S o.x lp) xl o.price) {energy : List (String × ℚ)}
    (he : m.energyPrices o.price = .ok energy) {y : Nat → ℚ} (hx : m.onlyNetwork xl y)
    (hy : m.allButSets [.demand] (m.linear S o.x lp) y)
    (h0 : ∀ d ∈ m.dirs.getD [], m.flow y d.inter d.link = 0 ∧ m.linkLoss y d.inter d.link = 0) : 0 ≤ m.residue energy fs xl := by
  have h := C104_residue hds hps hb hf hp ho hl hs he hx hy
  have hz : m.residue energy fs y = 0 := by
    unfold Market.residue
    apply sum_map_zero
    intro e _
    have h1 : m.netImport y e.1 = 0 := by
      unfold Market.netImport
      apply sum_map_zero
      intro d hd
      rw [(h0 d hd).1]; simp
    have h2 : m.chargedLoss y fs e.1 = 0 := by
      unfold Market.chargedLoss
      apply sum_map_zero
      intro d hd
      apply sum_map_zero
      intro f _
      rw [(h0 d hd).2]; simp [lossCharge]
    rw [h1, h2]; simp
  rwa [hz] at h

theorem dirs_nodup {m : Market} (hw : WF m) : (m.dirs.getD []).Nodup := by
  rcases hw.inter with ⟨a, b, c⟩ | ⟨ds, n, e1, e2, e3, hok⟩
  · rw [a]; simp
  · rw [e1]
    exact List.Nodup.of_map _ (interKeys hok)

theorem sum_one {α : Type} [DecidableEq α] {l : List α} (hn : l.Nodup) {d : α} (hd : d ∈ l) {F : α → ℚ} (h : ∀ q ∈ l, q ≠ d → F q = 0) :
    (l.map F).sum = F d := by
  have : (l.map F).sum = ((l.filter (fun q => decide (q = d))).map F).sum := by
    rw [sum_filter_eq_ite]
    apply sum_map_congr
    intro q hq
    by_cases e : q = d
    · simp [e]
    · simp [e, h q hq e]
  rw [this, filter_key_unique (key := fun q => q) (by simpa using hn) hd]
  simp

theorem price_pick {E : List (String × ℚ)} (hn : (E.map Prod.fst).Nodup) {g : String} {p : ℚ} (hp : (g, p) ∈ E) (c : ℚ) :
    (E.map (fun e => e.2 * (if e.1 = g then c else 0))).sum = p * c := by
  have : (E.map (fun e => e.2 * (if e.1 = g then c else 0))).sum = ((E.filter (fun e => decide (e.1 = g))).map (fun e => e.2 * c)).sum := by
    rw [sum_filter_eq_ite]
    apply sum_map_congr
    intro e _
    by_cases h : e.1 = g <;> simp [h]
  have h2 := filter_key_unique (key := Prod.fst) hn hp
  dsimp only at h2
  rw [this, h2]
  simp

/-- **C104, one link.**  If `y` differs from `xl` only in the flow and the loss of one link, between regions with prices `pt` (to region)
and `pf` (from region), then what more flow delivers, at the price of the to region, is at most what it takes, at the price of the from
region, plus the additional losses at the prices of the regions they are charged to. -/
theorem C104_link {ds : List Demand} {ps : List BidRow} {fs : List LossFn} {m : Market} (hds : DemandSet ds m)
    (hps : InForceKeeping [.bids] (.priceBids ps) m) (hb : BandsUnique ps) (hf : LossFunctions fs m) (hp : m.properLinks fs)
    {S : Solver} {ocd : Option ReRun} {o : Outcome} (ho : m.dispatch S ocd = .ok o) {lp : Lp} (hl : m.assemble = .ok lp)
    {xl : Nat → ℚ} (hs : ShadowPrices (m.linear S o.x lp) xl o.price) {energy : List (String × ℚ)}
    (he : m.energyPrices o.price = .ok energy) {y : Nat → ℚ} (hx : m.onlyNetwork xl y)
    (hy : m.allButSets [.demand] (m.linear S o.x lp) y) {d : InterDef} (hd : d ∈ m.dirs.getD []) (hd1 : m.onlyLink d xl y)
    (hne : d.fromR ≠ d.toR) {pt pf : ℚ} (ht : (d.toR, pt) ∈ energy) (hfr : (d.fromR, pf) ∈ energy) :
    pt * d.toLf * (m.flow y d.inter d.link - m.flow xl d.inter d.link) ≤ pf * d.fromLf * (m.flow y d.inter d.link - m.flow xl d.inter d.link) +
      ((fs.filter (fun f => decide (f.inter = d.inter ∧ f.link = d.link))).map (fun f =>
        (pf * f.share + pt * (1 - f.share)) * (m.linkLoss y d.inter d.link - m.linkLoss xl d.inter d.link))).sum := by
  have hres := C104_residue hds hps hb hf hp ho hl hs he hx hy
  have hr := hps.inForce.reached
  have hw := hr.wf
  have hnd : (energy.map Prod.fst).Nodup := by
    obtain ⟨hn, n, ht1, ht2⟩ := hds.tables
    unfold Market.energyPrices at he
    rw [ht1] at he
    injection he with he
    rw [← he]
    have h2 := saveIndex_filterMap (ds := ds) (n := n) o.price
    rw [h2, map_saveIndex, saveIndex_vals]
    exact hn
  have hflow : ∀ g, m.netImport y g - m.netImport xl g = (if g = d.toR then d.toLf * (m.flow y d.inter d.link - m.flow xl d.inter d.link) else 0) -
      (if g = d.fromR then d.fromLf * (m.flow y d.inter d.link - m.flow xl d.inter d.link) else 0) := by
    intro g
    unfold Market.netImport
    rw [← sum_map_sub, sum_one (dirs_nodup hw) hd]
    · simp only [eq_comm (a := d.toR), eq_comm (a := d.fromR)]
      split <;> split <;> ring
    · intro q hq hqd
      rw [(hd1 q hq hqd).1, sub_self]
  have hloss : ∀ g, m.chargedLoss y fs g - m.chargedLoss xl fs g = 
      (if g = d.fromR then ((fs.filter (fun f => decide (f.inter = d.inter ∧ f.link = d.link))).map (fun f => f.share * (m.linkLoss y d.inter d.link - m.linkLoss xl d.inter d.link))).sum else 0) +
      (if g = d.toR then ((fs.filter (fun f => decide (f.inter = d.inter ∧ f.link = d.link))).map (fun f => (1 - f.share) * (m.linkLoss y d.inter d.link - m.linkLoss xl d.inter d.link))).sum else 0) := by
    intro g
    unfold Market.chargedLoss
    rw [← sum_map_sub, sum_one (dirs_nodup hw) hd]
    · rw [← sum_map_sub]
      by_cases h1 : g = d.fromR
      · have h2 : g ≠ d.toR := h1 ▸ hne
        rw [if_pos h1, if_neg h2, add_zero]
        apply sum_map_congr
        intro f _
        simp only [lossCharge, if_pos h1]; ring
      · by_cases h2 : g = d.toR
        · rw [if_neg h1, if_pos h2, zero_add]
          apply sum_map_congr
          intro f _
          simp only [lossCharge, if_neg h1, if_pos h2]; ring
        · rw [if_neg h1, if_neg h2, zero_add]
          apply sum_map_zero
          intro f _
          simp only [lossCharge, if_neg h1, if_neg h2]; ring
    · intro q hq hqd
      rw [(hd1 q hq hqd).2, sub_self]
  set A := m.flow y d.inter d.link - m.flow xl d.inter d.link with hA
  set L := (fs.filter (fun f => decide (f.inter = d.inter ∧ f.link = d.link))) with hL
  set B := m.linkLoss y d.inter d.link - m.linkLoss xl d.inter d.link with hB
  have hdiff : m.residue energy fs y - m.residue energy fs xl = pt * (d.toLf * A) - pf * (d.fromLf * A) -
      (pf * (L.map (fun f => f.share * B)).sum + pt * (L.map (fun f => (1 - f.share) * B)).sum) := by
    rw [← price_pick hnd ht, ← price_pick hnd hfr, ← price_pick hnd hfr, ← price_pick hnd ht, ← sum_map_add, ← sum_map_sub, ← sum_map_sub]
    unfold Market.residue
    rw [← sum_map_sub]
    apply sum_map_congr
    intro e _
    have h1 := hflow e.1
    have h2 := hloss e.1
    have h3 : e.2 * (m.netImport y e.1 - m.chargedLoss y fs e.1) - e.2 * (m.netImport xl e.1 - m.chargedLoss xl fs e.1) =
        e.2 * (m.netImport y e.1 - m.netImport xl e.1) - e.2 * (m.chargedLoss y fs e.1 - m.chargedLoss xl fs e.1) := by ring
    rw [h3, h1, h2]
    ring
  have hsum : (L.map (fun f => (pf * f.share + pt * (1 - f.share)) * B)).sum =
      pf * (L.map (fun f => f.share * B)).sum + pt * (L.map (fun f => (1 - f.share) * B)).sum := by
    rw [← sum_map_mul_left, ← sum_map_mul_left, ← sum_map_add]
    apply sum_map_congr
    intro f _
    ring
  rw [hsum]
  nlinarith

/-- **C104, a link within its limits.**  Without losses, if flow on a link can both increase and decrease, then the prices of its
regions differ only by the loss factors of the link. -/
theorem C104_price_ratio {ds : List Demand} {ps : List BidRow} {fs : List LossFn} {m : Market} (hds : DemandSet ds m)
    (hps : InForceKeeping [.bids] (.priceBids ps) m) (hb : BandsUnique ps) (hf : LossFunctions fs m) (hp : m.properLinks fs)
    {S : Solver} {ocd : Option ReRun} {o : Outcome} (ho : m.dispatch S ocd = .ok o) {lp : Lp} (hl : m.assemble = .ok lp)
    {xl : Nat → ℚ} (hs : ShadowPrices (m.linear S o.x lp) xl o.price) {energy : List (String × ℚ)}
    (he : m.energyPrices o.price = .ok energy) {d : InterDef} (hd : d ∈ m.dirs.getD []) (hne : d.fromR ≠ d.toR)
    (hno : ∀ f ∈ fs, ¬ (f.inter = d.inter ∧ f.link = d.link)) {pt pf : ℚ} (ht : (d.toR, pt) ∈ energy) (hfr : (d.fromR, pf) ∈ energy)
    {y z : Nat → ℚ} (hy : m.onlyNetwork xl y ∧ m.allButSets [.demand] (m.linear S o.x lp) y ∧ m.onlyLink d xl y)
    (hz : m.onlyNetwork xl z ∧ m.allButSets [.demand] (m.linear S o.x lp) z ∧ m.onlyLink d xl z)
    (hmore : m.flow xl d.inter d.link < m.flow y d.inter d.link) (hless : m.flow z d.inter d.link < m.flow xl d.inter d.link) :
    pt * d.toLf = pf * d.fromLf := by
  have h1 := C104_link hds hps hb hf hp ho hl hs he hy.1 hy.2.1 hd hy.2.2 hne ht hfr
  have h2 := C104_link hds hps hb hf hp ho hl hs he hz.1 hz.2.1 hd hz.2.2 hne ht hfr
  have hnil : fs.filter (fun f => decide (f.inter = d.inter ∧ f.link = d.link)) = [] := by
    rw [List.filter_eq_nil_iff]
    intro f hf
    simpa using hno f hf
  rw [hnil] at h1 h2
  simp only [List.map_nil, List.sum_nil, add_zero] at h1 h2
  apply le_antisymm
  · exact le_of_mul_le_mul_right h1 (by linarith)
  · exact le_of_mul_le_mul_right (a := m.flow xl d.inter d.link - m.flow z d.inter d.link) (by linarith) (by linarith)

/-- **C104, marginal losses.**  If the flow of a link with losses can both increase and decrease and `s` is the loss of one more MW,
then the prices of its regions differ by the loss factors of the link and its marginal loss, split by the share of the from region. -/
theorem C104_marginal_loss {ds : List Demand} {ps : List BidRow} {fs : List LossFn} {m : Market} (hds : DemandSet ds m)
    (hps : InForceKeeping [.bids] (.priceBids ps) m) (hb : BandsUnique ps) (hf : LossFunctions fs m) (hp : m.properLinks fs)
    {S : Solver} {ocd : Option ReRun} {o : Outcome} (ho : m.dispatch S ocd = .ok o) {lp : Lp} (hl : m.assemble = .ok lp)
    {xl : Nat → ℚ} (hs : ShadowPrices (m.linear S o.x lp) xl o.price) {energy : List (String × ℚ)}
    (he : m.energyPrices o.price = .ok energy) {d : InterDef} (hd : d ∈ m.dirs.getD []) (hne : d.fromR ≠ d.toR) {f : LossFn}
    (hfs : fs.filter (fun f => decide (f.inter = d.inter ∧ f.link = d.link)) = [f])
    {pt pf : ℚ} (ht : (d.toR, pt) ∈ energy) (hfr : (d.fromR, pf) ∈ energy)
    {y z : Nat → ℚ} (hy : m.onlyNetwork xl y ∧ m.allButSets [.demand] (m.linear S o.x lp) y ∧ m.onlyLink d xl y)
    (hz : m.onlyNetwork xl z ∧ m.allButSets [.demand] (m.linear S o.x lp) z ∧ m.onlyLink d xl z)
    (hmore : m.flow xl d.inter d.link < m.flow y d.inter d.link) (hless : m.flow z d.inter d.link < m.flow xl d.inter d.link) {s : ℚ}
    (h1 : m.linkLoss y d.inter d.link - m.linkLoss xl d.inter d.link = s * (m.flow y d.inter d.link - m.flow xl d.inter d.link))
    (h2 : m.linkLoss z d.inter d.link - m.linkLoss xl d.inter d.link = s * (m.flow z d.inter d.link - m.flow xl d.inter d.link)) :
    pt * (d.toLf - (1 - f.share) * s) = pf * (d.fromLf + f.share * s) := by
  have k1 := C104_link hds hps hb hf hp ho hl hs he hy.1 hy.2.1 hd hy.2.2 hne ht hfr
  have k2 := C104_link hds hps hb hf hp ho hl hs he hz.1 hz.2.1 hd hz.2.2 hne ht hfr
  rw [hfs] at k1 k2
  simp only [List.map_cons, List.map_nil, List.sum_cons, List.sum_nil, add_zero, h1, h2] at k1 k2
  apply le_antisymm
  · exact le_of_mul_le_mul_right (a := m.flow y d.inter d.link - m.flow xl d.inter d.link) (by linarith) (by linarith)
  · exact le_of_mul_le_mul_right (a := m.flow xl d.inter d.link - m.flow z d.inter d.link) (by linarith) (by linarith)

def residueLoss : List LossFn := [{ inter := "I", link := "I", share := 1/2, fn := fun f => f * f / 1000 }]

def residuePoints : List BreakPt := [-100, -50, 0, 50, 100].zipIdx.map (fun p => { inter := "I", link := "I", seg := p.2, bp := p.1 })

def residueLink : InterDef := { inter := "I", link := "I", fromR := "NSW", toR := "VIC", min := -100, max := 100 }

def residueDemand : List Demand := [{ region := "NSW", demand := 10 }, { region := "VIC", demand := 575 / 8 }]

/-- A region is supplied over an interconnector with losses. -/
def residueCase : Case where
  regions := ["NSW", "VIC"]
  units := [{ unit := "A", region := "NSW" }]
  hist := [.volumeBids [{ unit := "A", bands := [("1", 200)] }], .priceBids [{ unit := "A", bands := [("1", 20)] }],
    .interconnectors [residueLink], .losses residueLoss residuePoints, .demand residueDemand none]
  sol := [705 / 8, 75, 25 / 4, 0, 0, 0, 1 / 2, 1 / 2]

def residueDuals : List ℚ := [-4000 / 37, -800 / 37, 120 / 37, 20, 860 / 37]

/-- five MW more or less -/
def residueMore (v : Nat) : ℚ := [705 / 8, 80, 7, 0, 0, 0, 2 / 5, 3 / 5].getD v 0
def residueLess (v : Nat) : ℚ := [705 / 8, 70, 11 / 2, 0, 0, 0, 3 / 5, 2 / 5].getD v 0

/-- instance of C104: marginal loss 0.15 -/
example : ∃ m lp o S y z, DemandSet residueDemand m ∧ InForceKeeping [.bids] (.priceBids [{ unit := "A", bands := [("1", 20)] }]) m ∧
    LossFunctions residueLoss m ∧ m.properLinks residueLoss ∧ m.dispatch S none = .ok o ∧ m.assemble = .ok lp ∧
    ShadowPrices (m.linear S o.x lp) residueCase.x o.price ∧ m.energyPrices o.price = .ok [("NSW", 20), ("VIC", 860 / 37)] ∧
    residueLink ∈ m.dirs.getD [] ∧
    (m.onlyNetwork residueCase.x y ∧ m.allButSets [.demand] (m.linear S o.x lp) y ∧ m.onlyLink residueLink residueCase.x y) ∧
    (m.onlyNetwork residueCase.x z ∧ m.allButSets [.demand] (m.linear S o.x lp) z ∧ m.onlyLink residueLink residueCase.x z) ∧
    m.flow y "I" "I" - m.flow residueCase.x "I" "I" = 5 ∧ m.flow z "I" "I" - m.flow residueCase.x "I" "I" = -5 ∧
    m.linkLoss y "I" "I" - m.linkLoss residueCase.x "I" "I" = 3 / 20 * 5 ∧ m.linkLoss z "I" "I" - m.linkLoss residueCase.x "I" "I" = 3 / 20 * -5 ∧
    (860 / 37 : ℚ) * (residueLink.toLf - (1 - 1 / 2) * (3 / 20)) = 20 * (residueLink.fromLf + 1 / 2 * (3 / 20)) := by
  have h : residueCase.shadow residueDuals (fun m => (match m.assemble with
      | .error _ => false
      | .ok lp => m.butChecked [.demand] (m.linear (residueCase.solver residueDuals) residueCase.x lp) residueMore &&
          m.butChecked [.demand] (m.linear (residueCase.solver residueDuals) residueCase.x lp) residueLess) &&
      decide (m.energyPrices (fun c => residueDuals.getD c 0) = .ok [("NSW", 20), ("VIC", 860 / 37)] ∧ m.dirs.getD [] = [residueLink] ∧
      m.deficits = [] ∧ (∀ b ∈ m.bids.getD [], b.vid = 0) ∧
      m.flow residueMore "I" "I" - m.flow residueCase.x "I" "I" = 5 ∧ m.flow residueLess "I" "I" - m.flow residueCase.x "I" "I" = -5 ∧
      m.linkLoss residueMore "I" "I" - m.linkLoss residueCase.x "I" "I" = 3 / 20 * 5 ∧
      m.linkLoss residueLess "I" "I" - m.linkLoss residueCase.x "I" "I" = 3 / 20 * -5)) = true := by decide +kernel
  obtain ⟨m, lp, o, h0, h1, h2, h3, h4, h5, h6⟩ := Case.shadow_spec h
  rw [h1] at h6
  simp only [Bool.and_eq_true] at h6
  obtain ⟨⟨k1, k1'⟩, k2⟩ := h6
  obtain ⟨k2, k3, k4, k5, k6, k7, k8, k9⟩ := of_decide_eq_true k2
  have hd := InForceKeeping.inForce (Case.inForce (s := residueCase) (op := .demand residueDemand none) (i := 4) (keep := []) h0 rfl (by decide +kernel))
  have link : ∀ y, m.onlyLink residueLink residueCase.x y := by
    intro y q hq hne
    rw [k3, List.mem_singleton] at hq
    exact absurd hq hne
  refine ⟨m, lp, o, _, residueMore, residueLess, hd.demandSet, Case.inForce (i := 1) (keep := [.bids]) h0 rfl (by decide +kernel),
    Or.inr ⟨residuePoints, Case.inForce (i := 3) (keep := [.inters]) h0 rfl (by decide +kernel)⟩, ?_, h2, h1, h5, h4 ▸ k2, by rw [k3]; simp,
    ⟨⟨?_, ?_⟩, h3 ▸ butChecked_spec k1, link _⟩, ⟨⟨?_, ?_⟩, h3 ▸ butChecked_spec k1', link _⟩, k6, k7, k8, k9, by decide +kernel⟩
  · intro d hd f hf _ _
    rw [k3, List.mem_singleton] at hd
    subst hd
    decide
  · intro b hb; rw [k5 b hb]; decide +kernel
  · rw [k4]; intro d hd; cases hd
  · intro b hb; rw [k5 b hb]; decide +kernel
  · rw [k4]; intro d hd; cases hd

/-- instance of the reported flows -/
example : ∃ m lp o S, InForceKeeping [.inters] (.losses residueLoss residuePoints) m ∧ S.sorts ∧
    (∀ i l, Increasing (pointsOf residuePoints i l)) ∧ (∀ i l, EvenlySpaced ((pointsOf residuePoints i l).map BreakPt.bp)) ∧
    m.dispatch S none = .ok o ∧ m.assemble = .ok lp ∧ Optimal lp o.x ∧ ShadowPrices (m.linear S o.x lp) residueCase.x o.price ∧
    Feasible lp residueCase.x := by
  have h : residueCase.shadow residueDuals (fun _ => true) = true := by decide +kernel
  have h' : residueCase.best [-4000 / 37, 120 / 37, -800 / 37, 20, 860 / 37] (fun _ => true) = true := by decide +kernel
  obtain ⟨m, lp, o, h0, h1, h2, h3, -, h5, -⟩ := Case.shadow_spec h
  obtain ⟨m', lp', k0, k1, k2, -⟩ := Case.optimal h'
  rw [h0] at k0; cases k0
  rw [h1] at k1; cases k1
  have hpt : ∀ i l, pointsOf residuePoints i l = residuePoints ∨ pointsOf residuePoints i l = [] := by
    intro i l
    by_cases e : i = "I" ∧ l = "I"
    · left; obtain ⟨rfl, rfl⟩ := e; decide +kernel
    · right
      unfold pointsOf
      rw [List.filter_eq_nil_iff]
      intro b hb
      have : ∀ b ∈ residuePoints, b.inter = "I" ∧ b.link = "I" := by decide +kernel
      simp only [decide_eq_true_eq, (this b hb).1, (this b hb).2]
      exact fun hh => e ⟨hh.1.symm, hh.2.symm⟩
  refine ⟨m, lp, o, _, Case.inForce (i := 3) (keep := [.inters]) h0 rfl (by decide +kernel), Case.solver_sorts _ _, ?_, ?_, h2, h1,
    h3 ▸ k2, h5, k2.1⟩
  · intro i l
    rcases hpt i l with e | e <;> rw [e] <;> decide +kernel
  · intro i l
    rcases hpt i l with e | e <;> rw [e] <;> decide +kernel

end Verif
