import Verif.Spec.UnitInfo
import Verif.Proofs.BidScaling
import Verif.Proofs.Summary
import Verif.Props.Bids
import Verif.Props.Enabling
import Mathlib.Data.List.Induction

/-!
# Unit information, prices and trapeziums of historical units (C61, C62, C74, C75)
-/

namespace Verif.Units

/-! ### C62: unit information -/

theorem lossFactor_eq (t : String) (d : DType) (r : Details) : lossFactor t d r = LossFactorOf t d r := by
  unfold lossFactor LossFactorOf
  cases r.secondary with
  | none => simp
  | some s =>
    by_cases h1 : t = "BIDIRECTIONAL" <;> by_cases h2 : d = .generator <;> simp [h1, h2]

/-- `get_unit_info` lists a unit in a direction, with the region and the product of the distribution and transmission loss
factors, exactly if there are initial conditions, details and price bids in that direction. -/
theorem C62_rows {ps : List PriceBid} {cs : List InitCond} {ds : List Details} (r : Info) :
    r ∈ unitInfo ps cs ds ↔ ∃ c ∈ cs, ∃ p ∈ ps, ∃ d ∈ ds, p.duid = c.duid ∧ d.duid = c.duid ∧
      r = ⟨c.duid, p.dir, d.region, LossFactorOf c.traderType p.dir d⟩ := by
  unfold unitInfo
  simp only [List.mem_flatMap, List.mem_filterMap, List.mem_map, List.mem_filter, decide_eq_true_eq]
  constructor
  · rintro ⟨c, hc, x, ⟨q, hq, d, ⟨hd, hdq⟩, rfl⟩, hx⟩
    obtain ⟨p, hp, rfl⟩ := List.mem_map.1 (mem_of_mem_dropDup hq)
    dsimp only at hx hdq
    split at hx
    · rename_i h
      injection hx with hx
      refine ⟨c, hc, p, hp, d, hd, h, hdq.trans h, ?_⟩
      rw [← hx, lossFactor_eq]
    · cases hx
  · rintro ⟨c, hc, p, hp, d, hd, h1, h2, rfl⟩
    refine ⟨c, hc, ((p.duid, p.dir), d), ⟨(p.duid, p.dir), ?_, d, ⟨hd, h2.trans h1.symm⟩, rfl⟩, ?_⟩
    · obtain ⟨b, hb, e⟩ := exists_dropDup (key := id) (List.mem_map_of_mem (f := fun p : PriceBid => (p.duid, p.dir)) hp)
      have : b = (p.duid, p.dir) := e
      rw [← this]; exact hb
    · dsimp only
      rw [if_pos h1, lossFactor_eq]

/-- The unit information has one row per unit and direction if initial conditions and details have one row per unit. -/
theorem C62_one_row {ps : List PriceBid} {cs : List InitCond} {ds : List Details} (hc : (cs.map InitCond.duid).Nodup)
    (hd : (ds.map Details.duid).Nodup) : ((unitInfo ps cs ds).map (fun r => (r.unit, r.dtype))).Nodup := by
  have hdn : (dropDup id (ps.map (fun p => (p.duid, p.dir)))).Nodup := by
    have := dropDup_nodup (key := id) (ps.map (fun p : PriceBid => (p.duid, p.dir)))
    rwa [List.map_id] at this
  -- the directions with details
  have h1 : (((dropDup id (ps.map (fun p => (p.duid, p.dir)))).flatMap (fun q =>
      (ds.filter (fun d => decide (d.duid = q.1))).map (fun d => (q, d)))).map Prod.fst).Nodup := by
    have hs := flatMap_fst_sublist (l := dropDup id (ps.map (fun p : PriceBid => (p.duid, p.dir)))) (ds := ds) hd
    exact hs.nodup hdn
  unfold unitInfo
  generalize (dropDup id (ps.map (fun p => (p.duid, p.dir)))).flatMap (fun q =>
      (ds.filter (fun d => decide (d.duid = q.1))).map (fun d => (q, d))) = L at h1
  clear hdn hd
  induction cs with
  | nil => simp
  | cons c cs ih =>
    rw [List.map_cons, List.nodup_cons] at hc
    rw [List.flatMap_cons, List.map_append, List.nodup_append]
    have hunit : ∀ (c : InitCond) (r : Info), r ∈ L.filterMap (fun r =>
        if r.1.1 = c.duid then some (⟨c.duid, r.1.2, r.2.region, lossFactor c.traderType r.1.2 r.2⟩ : Info) else none) →
        r.unit = c.duid := by
      intro c r hr
      obtain ⟨x, _, hx⟩ := List.mem_filterMap.1 hr
      split at hx
      · injection hx with hx
        rw [← hx]
      · cases hx
    refine ⟨?_, ih hc.2, ?_⟩
    · have hsub : ((L.filterMap (fun r => if r.1.1 = c.duid then
          some (⟨c.duid, r.1.2, r.2.region, lossFactor c.traderType r.1.2 r.2⟩ : Info) else none)).map
          (fun r => (r.unit, r.dtype))).Sublist (L.map Prod.fst) := by
        clear h1 hunit ih
        induction L with
        | nil => simp
        | cons x L ihL =>
          by_cases h : x.1.1 = c.duid
          · rw [List.filterMap_cons_some (by rw [if_pos h]), List.map_cons, List.map_cons]
            have e : (c.duid, x.1.2) = x.1 := by rw [← h]
            dsimp only
            rw [e]
            exact ihL.cons₂ _
          · rw [List.filterMap_cons_none (by rw [if_neg h]), List.map_cons]
            exact ihL.cons _
      exact hsub.nodup h1
    · intro a ha b hb e
      obtain ⟨r, hr, rfl⟩ := List.mem_map.1 ha
      obtain ⟨r', hr', rfl⟩ := List.mem_map.1 hb
      obtain ⟨c', hc', hr'⟩ := List.mem_flatMap.1 hr'
      have e1 := hunit c r hr
      have e2 := hunit c' r' hr'
      simp only [Prod.mk.injEq] at e
      exact hc.1 (List.mem_map.2 ⟨c', hc', by rw [← e2, ← e.1, e1]⟩)

def infoPrices : List PriceBid :=
  [⟨"B", .energy, .generator, [50]⟩, ⟨"B", .energy, .load, [20]⟩, ⟨"B", .raiseReg, .load, [5]⟩,
   ⟨"G", .energy, .generator, [30]⟩, ⟨"X", .energy, .generator, [30]⟩]

def infoConds : List InitCond :=
  [⟨"G", "GENERATOR", some 0, none, none, none⟩, ⟨"B", "BIDIRECTIONAL", some 0, none, none, none⟩]

def infoDetails : List Details :=
  [⟨"G", "NSW", 99 / 100, some 7, 1⟩, ⟨"B", "VIC", 98 / 100, some (101 / 100), 1 / 2⟩, ⟨"X", "VIC", 1, none, 1⟩]

example : (infoConds.map InitCond.duid).Nodup ∧ (infoDetails.map Details.duid).Nodup ∧
    unitInfo infoPrices infoConds infoDetails =
      [⟨"G", .generator, "NSW", 99 / 100⟩, ⟨"B", .generator, "VIC", 101 / 200⟩, ⟨"B", .load, "VIC", 49 / 100⟩] := by
  decide +kernel

/-! ### C61: prices -/

theorem find_some_of {α : Type} {p : α → Bool} {l : List α} {a : α} (ha : a ∈ l) (hp : p a = true)
    (h : ∀ b ∈ l, p b = true → b = a) : l.find? p = some a := by
  cases hf : l.find? p with
  | none => exact absurd hp (List.find?_eq_none.1 hf a ha)
  | some b => rw [h b (List.mem_of_find?_eq_some hf) (List.find?_some hf)]

theorem zip_find {ns : List String} (hn : ns.Nodup) {vs : List ℚ} {k : Nat} {n : String} {v : ℚ} (h1 : ns[k]? = some n)
    (h2 : vs[k]? = some v) : (ns.zip vs).find? (fun b => decide (b.1 = n)) = some (n, v) := by
  induction ns generalizing vs k with
  | nil => simp at h1
  | cons a ns ih =>
    cases vs with
    | nil => simp at h2
    | cons w vs =>
      rw [List.nodup_cons] at hn
      rw [List.zip_cons_cons, List.find?_cons]
      cases k with
      | zero =>
        simp only [List.getElem?_cons_zero, Option.some.injEq] at h1 h2
        subst h1 h2
        simp
      | succ k =>
        simp only [List.getElem?_cons_succ] at h1 h2
        have hne : a ≠ n := by
          rintro rfl
          exact hn.1 (List.mem_of_getElem? h1)
        rw [show decide ((a, w).1 = n) = false from by simp [hne]]
        exact ih hn.2 h1 h2

/-- The price rows returned are the price bids that are left, unscaled. -/
theorem processed_price {i : Inputs} {vs ps : List BidRow} (h : i.processedBids = .ok (vs, ps)) {q : BidRow} (hq : q ∈ ps) :
    ∃ p ∈ i.price, ∃ u ∈ unitInfo i.price i.init i.details, u.unit = p.duid ∧ u.dtype = p.dir ∧
      q = ⟨p.duid, p.service, p.dir, if p.service = .energy then p.prices.map (· * u.lossFactor) else p.prices⟩ := by
  unfold Inputs.processedBids at h
  obtain ⟨r, hr, h⟩ := bind_ok h
  obtain ⟨w, _, h⟩ := bind_ok h
  injection h with h
  injection h with _ h
  subst h
  have hsub : ∀ p ∈ r.2, p ∈ i.price := by
    unfold Inputs.processed at hr
    obtain ⟨caps, _, hr⟩ := bind_ok hr
    obtain ⟨bs, _, hr⟩ := bind_ok hr
    injection hr with hr
    subst hr
    intro p hp
    unfold enforce at hp
    simp only [List.mem_append, List.mem_filter, List.mem_flatMap, List.mem_map] at hp
    rcases hp with hp | ⟨p', hp', _, _, rfl⟩
    · exact hp.1
    · exact hp'.1
  unfold unscale at hq
  simp only [List.mem_flatMap, List.mem_map, List.mem_filter, decide_eq_true_eq] at hq
  obtain ⟨b, ⟨⟨p, hp, rfl⟩, _⟩, u, ⟨hu, h1, h2⟩, rfl⟩ := hq
  refine ⟨p, hsub p hp, u, hu, h1, h2, ?_⟩
  dsimp only
  split <;> rfl

/-- **Round trip of prices.**  Take bids from `get_processed_bids` and units from `get_unit_info`, for tables with one row
per unit (initial conditions, details) and per unit, service and direction (price bids), and a market with these units in
which `set_unit_price_bids` has been called with these price bids.  Then the objective coefficient of a bid band is the
price in the NEMDE file, negative for energy of loads, as long as the loss factor is not zero. -/
theorem C61_prices_unchanged {i : Inputs} {vs ps : List BidRow} (h : i.processedBids = .ok (vs, ps))
    (hc : (i.init.map InitCond.duid).Nodup) (hd : (i.details.map Details.duid).Nodup)
    (hp : (i.price.map (fun p => (p.duid, p.service, p.dir))).Nodup)
    {m : Market} (hm : InForceKeeping [.bids] (.priceBids (ps.map BidRow.toMarket)) m)
    (hu : m.units = (unitInfo i.price i.init i.details).map Info.toMarket)
    {lp : Lp} (hl : m.assemble = .ok lp) {b : BidVar} (hb : b ∈ m.bids.getD [])
    {q : BidRow} (hq : q ∈ ps) (hqb : q.unit = b.unit ∧ q.service = b.service ∧ q.dtype = b.dtype)
    {p : PriceBid} (hpm : p ∈ i.price) (hpb : p.duid = b.unit ∧ p.service = b.service ∧ p.dir = b.dtype)
    {k : Nat} {v : ℚ} (hk : bandNames[k]? = some b.band) (hv : p.prices[k]? = some v)
    (hlf : ∀ u ∈ unitInfo i.price i.init i.details, u.unit = b.unit → u.dtype = b.dtype → u.lossFactor ≠ 0) :
    (b.vid, if b.service = .energy ∧ b.dtype = .load then -v else v) ∈ lp.obj := by
  obtain ⟨p', hp', u, hu', e1, e2, rfl⟩ := processed_price h hq
  dsimp only at hqb
  have uniq : ∀ x ∈ i.price, (x.duid, x.service, x.dir) = (b.unit, b.service, b.dtype) → x = p := by
    intro x hx e
    exact List.inj_on_of_nodup_map hp hx hpm (by rw [e, hpb.1, hpb.2.1, hpb.2.2])
  have hpp : p' = p := uniq p' hp' (by rw [hqb.1, hqb.2.1, hqb.2.2])
  subst hpp
  have hinfo := C62_one_row (ps := i.price) hc hd
  have uniqU : ∀ x ∈ unitInfo i.price i.init i.details, x.unit = b.unit → x.dtype = b.dtype → x = u := by
    intro x hx ex ey
    exact List.inj_on_of_nodup_map hinfo hx hu' (by rw [ex, ey, e1, e2, hqb.1, hqb.2.2])
  have hlf' : Verif.lossFactor m.units b.unit b.dtype = some u.lossFactor := by
    unfold Verif.lossFactor
    rw [hu, find_some_of (a := u.toMarket) (List.mem_map_of_mem hu')]
    · rfl
    · exact decide_eq_true ⟨e1.trans hqb.1, e2.trans hqb.2.2⟩
    · intro x hx hxp
      obtain ⟨y, hy, rfl⟩ := List.mem_map.1 hx
      have hxp : y.unit = b.unit ∧ y.dtype = b.dtype := of_decide_eq_true hxp
      rw [uniqU y hy hxp.1 hxp.2]
  have hne : u.lossFactor ≠ 0 := hlf u hu' (e1.trans hqb.1) (e2.trans hqb.2.2)
  have hprice : priceOf (ps.map BidRow.toMarket) b.unit b.service b.dtype b.band =
      some (if p'.service = .energy then v * u.lossFactor else v) := by
    unfold priceOf
    rw [find_some_of (a := BidRow.toMarket _) (List.mem_map_of_mem hq)]
    · show (((bandNames.zip _).find? _).map _) = _
      rw [zip_find (by decide) hk (v := if p'.service = .energy then v * u.lossFactor else v)]
      · rfl
      · by_cases he : p'.service = .energy
        · simp only [he, if_true, List.getElem?_map, hv, Option.map_some]
        · simp only [he, if_false, hv]
    · exact decide_eq_true hqb
    · intro x hx hxp
      obtain ⟨y, hy, rfl⟩ := List.mem_map.1 hx
      obtain ⟨p2, hp2, u2, hu2, f1, f2, rfl⟩ := processed_price h hy
      have hxp : p2.duid = b.unit ∧ p2.service = b.service ∧ p2.dir = b.dtype := of_decide_eq_true hxp
      have : p2 = p' := uniq p2 hp2 (by rw [hxp.1, hxp.2.1, hxp.2.2])
      subst this
      have : u2 = u := uniqU u2 hu2 (f1.trans hxp.1) (f2.trans hxp.2.2)
      subst this
      rfl
  have key := C39_priced_bid_has_its_cost_partial hm hl hb hprice hlf'
  rw [hpb.2.1] at key
  convert key using 2
  by_cases he : b.service = .energy
  · by_cases hlo : b.dtype = .load
    · simp only [he, hlo, if_true, and_self, mul_div_assoc, div_self hne, mul_one]
    · simp only [he, hlo, if_true, if_false, and_false, mul_div_assoc, div_self hne, mul_one]
  · simp only [he, if_false, false_and]

/-! ### C74: missing directions -/

/-- If a bid without a direction matches at most one price bid, one volume bid is kept per bid, a missing direction is the
one of the matching price bid, and nothing else changes. -/
theorem C74_fill_partial {vs : List VolBid} {ps : List PriceBid}
    (hn : ∀ v ∈ vs, v.dir = none → ∀ p ∈ ps, ∀ p' ∈ ps, p.duid = v.duid → p.service = v.service → p'.duid = v.duid →
      p'.service = v.service → p = p') (hpn : ps.Nodup) :
    ∃ f : VolBid → VolBid, (mapDirections vs ps).Perm (vs.map f) ∧
      (∀ v ∈ vs, v.dir ≠ none → f v = v) ∧
      (∀ v ∈ vs, v.dir = none → ∀ p ∈ ps, p.duid = v.duid → p.service = v.service → f v = { v with dir := some p.dir }) ∧
      (∀ v ∈ vs, v.dir = none → (∀ p ∈ ps, ¬(p.duid = v.duid ∧ p.service = v.service)) → f v = v) := by
  let f : VolBid → VolBid := fun v =>
    if v.dir = none then
      match ps.find? (fun p => decide (p.duid = v.duid ∧ p.service = v.service)) with
      | none => v
      | some p => { v with dir := some p.dir }
    else v
  have hf1 : ∀ v ∈ vs, v.dir = none → ∀ p ∈ ps, p.duid = v.duid → p.service = v.service →
      f v = { v with dir := some p.dir } ∧ ps.filter (fun p => decide (p.duid = v.duid ∧ p.service = v.service)) = [p] := by
    intro v hv hd p hp h1 h2
    have hfind : ps.find? (fun p => decide (p.duid = v.duid ∧ p.service = v.service)) = some p :=
      find_some_of hp (by simp [h1, h2]) (fun b hb h => by
        rw [decide_eq_true_eq] at h
        exact hn v hv hd b hb p hp h.1 h.2 h1 h2)
    constructor
    · show (if v.dir = none then _ else _) = _
      rw [if_pos hd, hfind]
    · have hnf : (ps.filter (fun p => decide (p.duid = v.duid ∧ p.service = v.service))).Nodup := hpn.filter _
      have hmem : ∀ b ∈ ps.filter (fun p => decide (p.duid = v.duid ∧ p.service = v.service)), b = p := by
        intro b hb
        obtain ⟨h3, h4⟩ := List.mem_filter.1 hb
        rw [decide_eq_true_eq] at h4
        exact hn v hv hd b h3 p hp h4.1 h4.2 h1 h2
      have hin : p ∈ ps.filter (fun p => decide (p.duid = v.duid ∧ p.service = v.service)) :=
        List.mem_filter.2 ⟨hp, by simp [h1, h2]⟩
      generalize ps.filter (fun p => decide (p.duid = v.duid ∧ p.service = v.service)) = L at *
      match L, hnf, hmem, hin with
      | [a], _, hmem, _ => rw [hmem a (by simp)]
      | a :: b :: _, hnf, hmem, _ =>
        have e1 := hmem a (by simp)
        have e2 := hmem b (by simp)
        rw [e1, e2] at hnf
        simp at hnf
  have hf2 : ∀ v ∈ vs, v.dir = none → (∀ p ∈ ps, ¬(p.duid = v.duid ∧ p.service = v.service)) →
      f v = v ∧ ps.filter (fun p => decide (p.duid = v.duid ∧ p.service = v.service)) = [] := by
    intro v hv hd hno
    constructor
    · show (if v.dir = none then _ else _) = _
      rw [if_pos hd]
      have : ps.find? (fun p => decide (p.duid = v.duid ∧ p.service = v.service)) = none :=
        List.find?_eq_none.2 (fun p hp => by simpa using hno p hp)
      rw [this]
    · rw [List.filter_eq_nil_iff]
      intro p hp
      simpa using hno p hp
  refine ⟨f, ?_, fun v _ hd => by show (if v.dir = none then _ else _) = _; rw [if_neg hd],
    fun v hv hd p hp h1 h2 => (hf1 v hv hd p hp h1 h2).1, fun v hv hd hno => (hf2 v hv hd hno).1⟩
  unfold mapDirections
  have e1 : (vs.filter (fun v => decide (v.dir = none))).flatMap (fun v =>
      match ps.filter (fun p => decide (p.duid = v.duid ∧ p.service = v.service)) with
      | [] => [v]
      | qs => qs.map (fun p => { v with dir := some p.dir })) = (vs.filter (fun v => decide (v.dir = none))).map f := by
    refine flatMap_single _ _ _ ?_
    intro v hv
    obtain ⟨hv, hd⟩ := List.mem_filter.1 hv
    rw [decide_eq_true_eq] at hd
    by_cases h : ∃ p ∈ ps, p.duid = v.duid ∧ p.service = v.service
    · obtain ⟨p, hp, h1, h2⟩ := h
      obtain ⟨g1, g2⟩ := hf1 v hv hd p hp h1 h2
      rw [g2, g1]
      rfl
    · push Not at h
      obtain ⟨g1, g2⟩ := hf2 v hv hd (fun p hp hx => h p hp hx.1 hx.2)
      rw [g2, g1]
  have e2 : vs.filter (fun v => !decide (v.dir = none)) = (vs.filter (fun v => !decide (v.dir = none))).map f := by
    conv_lhs => rw [← List.map_id (vs.filter (fun v => !decide (v.dir = none)))]
    apply List.map_congr_left
    intro v hv
    have := (List.mem_filter.1 hv).2
    simp only [Bool.not_eq_true', decide_eq_false_iff_not] at this
    show v = (if v.dir = none then _ else _)
    rw [if_neg this]
  refine (List.Perm.of_eq (congrArg₂ (· ++ ·) e1 e2)).trans ?_
  rw [← List.map_append]
  refine List.Perm.map f ?_
  have := split_perm (fun v : VolBid => !decide (v.dir = none)) vs
  simpa using this

def dirBids : List VolBid :=
  [⟨"G", .energy, some .generator, [100], 100, 0, 0, 0, 0, 0, 0⟩, ⟨"L", .energy, none, [70], 70, 0, 0, 0, 0, 0, 0⟩]

def dirPrices : List PriceBid := [⟨"G", .energy, .generator, [50]⟩, ⟨"L", .energy, .load, [20]⟩]

example : dirPrices.Nodup ∧ mapDirections dirBids dirPrices =
    [⟨"L", .energy, some .load, [70], 70, 0, 0, 0, 0, 0, 0⟩, ⟨"G", .energy, some .generator, [100], 100, 0, 0, 0, 0, 0, 0⟩] := by
  decide +kernel

/-- A bid without a direction that matches price bids for both directions is kept twice. -/
theorem C74_repeated_negation : ∃ (vs : List VolBid) (ps : List PriceBid),
    (ps.map (fun p => (p.duid, p.service, p.dir))).Nodup ∧ vs.length < (mapDirections vs ps).length :=
  ⟨[⟨"L", .energy, none, [70], 70, 0, 0, 0, 0, 0, 0⟩], [⟨"L", .energy, .load, [20]⟩, ⟨"L", .energy, .generator, [20]⟩],
    by decide +kernel, by decide +kernel⟩

/-! ### C75: order of calls -/

theorem runCalls_snoc (i : Inputs) (cs : List Call) (c : Call) : runCalls i (cs ++ [c]) = (c.run i (runCalls i cs)).1 := by
  unfold runCalls
  rw [List.foldl_append]
  rfl

theorem sublist_snoc {α : Type} {a b c : α} {l : List α} :
    [a, b].Sublist (l ++ [c]) ↔ [a, b].Sublist l ∨ (b = c ∧ a ∈ l) := by
  constructor
  · intro h
    obtain ⟨l1, l2, e, h1, h2⟩ := List.sublist_append_iff.1 h
    rcases l1 with _ | ⟨x, _ | ⟨y, _ | ⟨z, l1⟩⟩⟩
    · simp only [List.nil_append] at e
      subst e
      have := h2.length_le
      simp at this
    · simp only [List.cons_append, List.nil_append, List.cons.injEq] at e
      obtain ⟨rfl, rfl⟩ := e
      right
      rw [List.singleton_sublist, List.mem_singleton] at h2
      rw [List.singleton_sublist] at h1
      exact ⟨h2, h1⟩
    · simp only [List.cons_append, List.nil_append, List.cons.injEq, List.nil_eq] at e
      obtain ⟨rfl, rfl, _⟩ := e
      exact Or.inl h1
    · simp at e
  · rintro (h | ⟨rfl, h⟩)
    · exact h.trans (List.sublist_append_left _ _)
    · have : [a, b] = [a] ++ [b] := rfl
      rw [this]
      exact (List.singleton_sublist.2 h).append (List.Sublist.refl _)

/-- what the object knows after calls -/
theorem state_after (i : Inputs) {q : List VolBid × List PriceBid} (hq : i.processed = .ok q) {ts : List TrapRow}
    (ht : (q.1.filter (fun b => !decide (b.service = .energy))).mapM VolBid.trap = .ok ts) (cs : List Call) :
    (runCalls i cs).bids = (if Call.processedBids ∈ cs then some q.1 else none) ∧
    (runCalls i cs).traps = (if [Call.processedBids, Call.addTrapeziums].Sublist cs then some ts else none) := by
  induction cs using List.reverseRecOn with
  | nil => exact ⟨rfl, rfl⟩
  | append_singleton cs c ih =>
    obtain ⟨ih1, ih2⟩ := ih
    rw [runCalls_snoc]
    have hs := sublist_snoc (a := Call.processedBids) (b := Call.addTrapeziums) (c := c) (l := cs)
    simp only [List.mem_append, List.mem_singleton]
    cases c with
    | processedBids =>
      unfold Call.run
      dsimp only
      rw [hq]
      dsimp only
      refine ⟨by simp, ?_⟩
      rw [ih2]
      refine if_congr ?_ rfl rfl
      rw [hs]
      simp
    | addTrapeziums =>
      unfold Call.run
      dsimp only
      rw [ih1]
      by_cases hm : Call.processedBids ∈ cs
      · rw [if_pos hm]
        dsimp only
        rw [ht]
        dsimp only
        refine ⟨by rw [if_pos (Or.inl hm)], ?_⟩
        rw [if_pos (hs.2 (Or.inr ⟨rfl, hm⟩))]
      · rw [if_neg hm]
        dsimp only
        refine ⟨by rw [ih1, if_neg hm, if_neg (by simp [hm])], ?_⟩
        rw [ih2]
        refine if_congr ?_ rfl rfl
        rw [hs]
        simp [hm]
    | maxAvailability =>
      have e : (Call.run i .maxAvailability (runCalls i cs)).1 = runCalls i cs := by
        unfold Call.run; dsimp only; split <;> rfl
      rw [e, ih1, ih2]
      refine ⟨by simp, if_congr ?_ rfl rfl⟩
      rw [hs]; simp
    | regulation =>
      have e : (Call.run i .regulation (runCalls i cs)).1 = runCalls i cs := by
        unfold Call.run; dsimp only; split <;> rfl
      rw [e, ih1, ih2]
      refine ⟨by simp, if_congr ?_ rfl rfl⟩
      rw [hs]; simp
    | contingency =>
      have e : (Call.run i .contingency (runCalls i cs)).1 = runCalls i cs := by
        unfold Call.run; dsimp only; split <;> rfl
      rw [e, ih1, ih2]
      refine ⟨by simp, if_congr ?_ rfl rfl⟩
      rw [hs]; simp

/-- Before `get_processed_bids` has been called and after it `add_fcas_trapezium_constraints`, in this order, the
trapezium getters raise `MethodCallOrderError`; before `get_processed_bids`, so does `add_fcas_trapezium_constraints`. -/
theorem C75_call_order (i : Inputs) {q : List VolBid × List PriceBid} (hq : i.processed = .ok q)
    (hdir : ∀ b ∈ q.1, b.service ≠ .energy → b.dir ≠ none) (cs : List Call) :
    (Call.processedBids ∉ cs → (Call.run i .addTrapeziums (runCalls i cs)).2 = .error .callOrder) ∧
    (¬[Call.processedBids, Call.addTrapeziums].Sublist cs → ∀ c, c = .maxAvailability ∨ c = .regulation ∨ c = .contingency →
      (Call.run i c (runCalls i cs)).2 = .error .callOrder) := by
  obtain ⟨ts, ht⟩ : ∃ ts, (q.1.filter (fun b => !decide (b.service = .energy))).mapM VolBid.trap = .ok ts := by
    refine mapM_exists ?_
    intro b hb
    obtain ⟨hb, hs⟩ := List.mem_filter.1 hb
    unfold VolBid.trap
    cases hd : b.dir with
    | none => exact absurd hd (hdir b hb (by simpa using hs))
    | some d => exact ⟨_, rfl⟩
  obtain ⟨h1, h2⟩ := state_after i hq ht cs
  constructor
  · intro hn
    rw [if_neg hn] at h1
    unfold Call.run
    dsimp only
    rw [h1]
  · intro hn c hc
    rw [if_neg hn] at h2
    rcases hc with rfl | rfl | rfl <;> (unfold Call.run; dsimp only; rw [h2])

/-- After the two calls the getters return the trapeziums of the FCAS bids left by `get_processed_bids`: all of them, those
for regulation, and the others. -/
theorem C75_trapeziums (i : Inputs) {q : List VolBid × List PriceBid} (hq : i.processed = .ok q)
    (hdir : ∀ b ∈ q.1, b.service ≠ .energy → b.dir ≠ none) {cs : List Call}
    (hs : [Call.processedBids, Call.addTrapeziums].Sublist cs) :
    ∃ ts : List TrapRow,
      List.Forall₂ (fun b t => ∃ d, b.dir = some d ∧ t = VolBid.trapIn b d)
        (q.1.filter (fun b => !decide (b.service = .energy))) ts ∧
      (Call.run i .maxAvailability (runCalls i cs)).2 = .ok (.traps ts) ∧
      (Call.run i .regulation (runCalls i cs)).2 = .ok (.traps (ts.filter
        (fun t => decide (t.service = .raiseReg ∨ t.service = .lowerReg)))) ∧
      (Call.run i .contingency (runCalls i cs)).2 = .ok (.traps (ts.filter
        (fun t => decide (t.service ≠ .raiseReg ∧ t.service ≠ .lowerReg)))) := by
  obtain ⟨ts, ht⟩ : ∃ ts, (q.1.filter (fun b => !decide (b.service = .energy))).mapM VolBid.trap = .ok ts := by
    refine mapM_exists ?_
    intro b hb
    obtain ⟨hb, hs⟩ := List.mem_filter.1 hb
    unfold VolBid.trap
    cases hd : b.dir with
    | none => exact absurd hd (hdir b hb (by simpa using hs))
    | some d => exact ⟨_, rfl⟩
  obtain ⟨_, h2⟩ := state_after i hq ht cs
  rw [if_pos hs] at h2
  refine ⟨ts, ?_, ?_, ?_, ?_⟩
  · have := mapM_ok ht
    refine this.imp ?_
    intro b t hbt
    unfold VolBid.trap at hbt
    cases hd : b.dir with
    | none => rw [hd] at hbt; cases hbt
    | some d =>
      rw [hd] at hbt
      injection hbt with hbt
      exact ⟨d, rfl, hbt.symm⟩
  · unfold Call.run; dsimp only; rw [h2]
  · unfold Call.run; dsimp only; rw [h2]
    rfl
  · unfold Call.run; dsimp only; rw [h2]
    have : ∀ t : TrapRow, (!isReg t.service) = decide (t.service ≠ .raiseReg ∧ t.service ≠ .lowerReg) := by
      intro t
      unfold isReg
      cases t.service <;> rfl
    simp only [this]

/-- `get_processed_bids` returns the same two tables, volumes first and prices second, whatever was called before, and fails only
if the tables cannot be made.  What the tables hold is said by C57 to C61, C74 and C92. -/
theorem C75_bids (i : Inputs) (cs : List Call) (vs ps : List BidRow) :
    (Call.run i .processedBids (runCalls i cs)).2 = .ok (.bids vs ps) ↔ i.processedBids = .ok (vs, ps) := by
  unfold Call.run
  dsimp only
  cases hq : i.processed with
  | error e => simp [Inputs.processedBids, hq, Except.bind]
  | ok q =>
    dsimp only
    cases hp : i.processedBids with
    | error e => simp [Except.map]
    | ok r => obtain ⟨v, p⟩ := r; simp [Except.map]

/-! A battery and a generator (`enInputs`), from the tables to the market: the prices in the file are 50 and 20 for the
battery, so these are the coefficients in the objective although the loss factors are 1.01 and 0.98. -/

def enVolumes : List BidRow := (enInputs.processedBids.toOption.map (·.1)).getD []

def enPriceRows : List BidRow := (enInputs.processedBids.toOption.map (·.2)).getD []

example : enInputs.processedBids.toOption = some (enVolumes, enPriceRows) ∧ enPriceRows.length = 6 ∧
    (enInputs.init.map InitCond.duid).Nodup ∧ (enInputs.details.map Details.duid).Nodup ∧
    (enInputs.price.map (fun p => (p.duid, p.service, p.dir))).Nodup ∧
    (unitInfo enInputs.price enInputs.init enInputs.details).map (fun u => (u.unit, u.lossFactor)) =
      [("G", 99 / 100), ("B", 101 / 100), ("B", 98 / 100)] := by decide +kernel

def enScenario : Scenario where
  regions := ["NSW"]
  units := (unitInfo enInputs.price enInputs.init enInputs.details).map Info.toMarket
  before := [.volumeBids (enVolumes.map BidRow.toMarket)]
  op := .priceBids (enPriceRows.map BidRow.toMarket)
  after := [.demand [{ region := "NSW", demand := 100 }] none]
  sol := [0, 0, 0, 0, 100]

example : ∃ m lp, InForceKeeping [.bids] (.priceBids (enPriceRows.map BidRow.toMarket)) m ∧ m.assemble = .ok lp ∧
    Feasible lp enScenario.x ∧
    (match m.assemble with
      | .ok lp => decide (lp.obj = [(0, 50), (1, -20), (2, 5), (3, 5), (4, 50), (5, 5)])
      | _ => false) = true :=
  Scenario.witnessKeeping [.bids] (s := enScenario) (by decide +kernel)

example : (match (Call.run enInputs .processedBids (runCalls enInputs [.regulation, .processedBids, .addTrapeziums])).2 with
      | .ok (.bids vs ps) => decide (vs = enVolumes ∧ ps = enPriceRows ∧ vs ≠ ps)
      | _ => false) = true := by decide +kernel

example : (∃ q, enInputs.processed = .ok q ∧ (∀ b ∈ q.1, b.service ≠ .energy → b.dir ≠ none)) ∧
    (match (Call.run enInputs .regulation (runCalls enInputs [.contingency, .processedBids, .addTrapeziums])).2 with
      | .ok (.traps ts) => decide (ts.map (fun t => (t.unit, t.emin, t.emax)) = [("B", 0, 90), ("B", -100, 0)])
      | _ => false) = true := by
  refine ⟨?_, by decide +kernel⟩
  have h : (match enInputs.processed with
    | .ok q => decide (∀ b ∈ q.1, b.service ≠ .energy → b.dir ≠ none)
    | _ => false) = true := by decide +kernel
  cases hq : enInputs.processed with
  | error e => rw [hq] at h; cases h
  | ok q =>
    rw [hq] at h
    exact ⟨q, rfl, of_decide_eq_true h⟩

end Verif.Units
