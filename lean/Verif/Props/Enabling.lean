import Verif.Proofs.Enabling
import Verif.Props.BidScaling

/-!
# FCAS bids that can be enabled (C60)
-/

namespace Verif.Units

/-- The initial output is rounded to the nearest multiple of 0.00001; halfway between two of them it is the even one. -/
theorem C60_rounding (q : ℚ) : (∃ n : Int, round5 q * 100000 = n ∧ (|round5 q - q| = 1 / 200000 → n % 2 = 0)) ∧
    |round5 q - q| ≤ 1 / 200000 := by
  have h1 : round5 q * 100000 = (roundEven (q * 100000) : ℚ) := by
    unfold round5
    rw [div_mul_cancel₀ _ (by norm_num)]
  have hs : |round5 q - q| = |(roundEven (q * 100000) : ℚ) - q * 100000| / 100000 := by
    rw [← h1, ← sub_mul, abs_mul, abs_of_pos (by norm_num : (0 : ℚ) < 100000), mul_div_assoc, div_self (by norm_num), mul_one]
  have h2 : |(roundEven (q * 100000) : ℚ) - q * 100000| ≤ 1 / 2 ∧
      (|(roundEven (q * 100000) : ℚ) - q * 100000| = 1 / 2 → roundEven (q * 100000) % 2 = 0) := by
    generalize q * 100000 = x
    have hl : ((x.floor : Int) : ℚ) ≤ x := Rat.floor_le x
    have hu : x < ((x.floor : Int) : ℚ) + 1 := by linarith [Rat.lt_floor (x := x)]
    unfold roundEven
    by_cases c1 : x - (x.floor : ℚ) < 1 / 2
    · rw [if_pos c1, abs_of_nonpos (by linarith)]
      exact ⟨by linarith, fun e => by linarith⟩
    rw [if_neg c1]
    by_cases c2 : 1 / 2 < x - (x.floor : ℚ)
    · rw [if_pos c2, abs_of_nonneg (by push_cast; linarith)]
      push_cast
      exact ⟨by linarith, fun e => by linarith⟩
    rw [if_neg c2]
    by_cases c3 : x.floor % 2 = 0
    · rw [if_pos c3]
      exact ⟨by rw [abs_le]; constructor <;> linarith, fun _ => c3⟩
    · rw [if_neg c3]
      push_cast
      exact ⟨by rw [abs_le]; constructor <;> linarith, fun _ => by omega⟩
  rw [hs]
  refine ⟨⟨_, h1, fun e => h2.2 (by linarith)⟩, by linarith [h2.1]⟩

/-- instances: halves are rounded to the even neighbour -/
example : round5 (25 / 1000000) = 2 / 100000 ∧ round5 (35 / 1000000) = 4 / 100000 ∧ round5 (26 / 1000000) = 3 / 100000 := by decide +kernel

/-- Energy bids are kept, and exactly those FCAS bids that meet the enabling conditions, each once. -/
theorem C60_volume {bs : List VolBid} {ps : List PriceBid} {cs : List InitCond} {caps : List CapLimit}
    (hb : (bs.map VolBid.key).Nodup) (hc : (cs.map InitCond.duid).Nodup) (hk : (caps.map CapLimit.key).Nodup) :
    ((enforce bs ps cs caps).1.map VolBid.key).Nodup ∧
    ∀ b, b ∈ (enforce bs ps cs caps).1 ↔ b ∈ bs ∧ (b.service = .energy ∨ Enabled bs cs caps b) := by
  have hmem : ∀ b, b ∈ (enforce bs ps cs caps).1 ↔ b ∈ bs ∧ (b.service = .energy ∨ Enabled bs cs caps b) := by
    intro b
    show b ∈ bs.filter (fun b => decide (b.service = .energy)) ++ (enabledRows bs cs caps).map FcasRow.bid ↔ _
    rw [List.mem_append, mem_enabled hb hc hk, List.mem_filter, decide_eq_true_eq]
    constructor
    · rintro (⟨h1, h2⟩ | ⟨h1, h2⟩)
      · exact ⟨h1, Or.inl h2⟩
      · exact ⟨h1, Or.inr h2⟩
    · rintro ⟨h1, h2 | h2⟩
      · exact Or.inl ⟨h1, h2⟩
      · exact Or.inr ⟨h1, h2⟩
  refine ⟨?_, hmem⟩
  have hn : (enforce bs ps cs caps).1.Nodup := by
    show (bs.filter (fun b => decide (b.service = .energy)) ++ (enabledRows bs cs caps).map FcasRow.bid).Nodup
    rw [List.nodup_append]
    refine ⟨hb.of_map.filter _, enabled_nodup hb hc hk, ?_⟩
    intro a ha b hb' e
    have h1 := (List.mem_filter.1 ha).2
    rw [decide_eq_true_eq] at h1
    have h2 := ((mem_enabled hb hc hk).1 hb').2.1.1
    exact h2 (e ▸ h1)
  refine List.Nodup.map_on ?_ hn
  intro x hx y hy e
  have h1 := rowFor_mem hb ((hmem x).1 hx).1
  rw [e, rowFor_mem hb ((hmem y).1 hy).1] at h1
  injection h1 with h1
  exact h1.symm

/-- Energy price bids are kept, and exactly those FCAS price bids with a volume bid that is left, each once. -/
theorem C60_price {bs : List VolBid} {ps : List PriceBid} {cs : List InitCond} {caps : List CapLimit}
    (hb : (bs.map VolBid.key).Nodup) (hc : (cs.map InitCond.duid).Nodup) (hk : (caps.map CapLimit.key).Nodup)
    (hp : (ps.map PriceBid.key).Nodup) :
    ((enforce bs ps cs caps).2.map PriceBid.key).Nodup ∧
    ∀ p, p ∈ (enforce bs ps cs caps).2 ↔
      p ∈ ps ∧ (p.service = .energy ∨ ∃ b ∈ (enforce bs ps cs caps).1, b.key = p.key) := by
  have hkept : ∀ b, b ∈ (enabledRows bs cs caps).map FcasRow.bid ↔
      b ∈ (enforce bs ps cs caps).1 ∧ b.service ≠ .energy := by
    intro b
    rw [mem_enabled hb hc hk, (C60_volume hb hc hk).2]
    constructor
    · rintro ⟨h1, h2⟩; exact ⟨⟨h1, Or.inr h2⟩, h2.1.1⟩
    · rintro ⟨⟨h1, h2 | h2⟩, h3⟩
      · exact absurd h2 h3
      · exact ⟨h1, h2⟩
  have hmem : ∀ p, p ∈ (enforce bs ps cs caps).2 ↔
      p ∈ ps ∧ (p.service = .energy ∨ ∃ b ∈ (enforce bs ps cs caps).1, b.key = p.key) := by
    intro p
    show p ∈ ps.filter (fun p => decide (p.service = .energy)) ++
      (ps.filter (fun p => !decide (p.service = .energy))).flatMap (fun p =>
        (((enabledRows bs cs caps).map FcasRow.bid).filter
          (fun b => decide (b.duid = p.duid ∧ b.service = p.service ∧ b.dir = some p.dir))).map (fun _ => p)) ↔ _
    simp only [List.mem_append, List.mem_filter, List.mem_flatMap, decide_eq_true_eq, Bool.not_eq_true',
      decide_eq_false_iff_not]
    constructor
    · rintro (⟨h1, h2⟩ | ⟨q, ⟨h1, h2⟩, h3⟩)
      · exact ⟨h1, Or.inl h2⟩
      · obtain ⟨b, hb', rfl⟩ := List.mem_map.1 h3
        obtain ⟨h4, h5⟩ := List.mem_filter.1 hb'
        rw [decide_eq_true_eq] at h5
        refine ⟨h1, Or.inr ⟨b, ((hkept b).1 h4).1, ?_⟩⟩
        unfold VolBid.key PriceBid.key
        rw [h5.1, h5.2.1, h5.2.2]
    · rintro ⟨h1, h2⟩
      by_cases he : p.service = .energy
      · exact Or.inl ⟨h1, he⟩
      · rcases h2 with h2 | ⟨b, h2, h3⟩
        · exact absurd h2 he
        · unfold VolBid.key PriceBid.key at h3
          simp only [Prod.mk.injEq] at h3
          refine Or.inr ⟨p, ⟨h1, he⟩, List.mem_map.2 ⟨b, List.mem_filter.2 ⟨(hkept b).2 ⟨h2, h3.2.1 ▸ he⟩, ?_⟩, rfl⟩⟩
          rw [decide_eq_true_eq]
          exact h3
  refine ⟨?_, hmem⟩
  have hn : (enforce bs ps cs caps).2.Nodup := by
    show (ps.filter (fun p => decide (p.service = .energy)) ++
      (ps.filter (fun p => !decide (p.service = .energy))).flatMap (fun p =>
        (((enabledRows bs cs caps).map FcasRow.bid).filter
          (fun b => decide (b.duid = p.duid ∧ b.service = p.service ∧ b.dir = some p.dir))).map (fun _ => p))).Nodup
    rw [List.nodup_append]
    refine ⟨hp.of_map.filter _, ?_, ?_⟩
    · have hkn : (((enabledRows bs cs caps).map FcasRow.bid).map VolBid.key).Nodup := by
        refine List.Nodup.map_on ?_ (enabled_nodup hb hc hk)
        intro x hx y hy e
        have h1 := rowFor_mem hb ((mem_enabled hb hc hk).1 hx).1
        rw [e, rowFor_mem hb ((mem_enabled hb hc hk).1 hy).1] at h1
        injection h1 with h1
        exact h1.symm
      have hs := flatMap_sublist (l := ps.filter (fun p => !decide (p.service = .energy)))
        (f := fun p => (((enabledRows bs cs caps).map FcasRow.bid).filter
          (fun b => decide (b.duid = p.duid ∧ b.service = p.service ∧ b.dir = some p.dir))).map (fun _ => p))
        (h := id) (g := id) (by
          intro p _
          have hfil : ((enabledRows bs cs caps).map FcasRow.bid).filter
              (fun b => decide (b.duid = p.duid ∧ b.service = p.service ∧ b.dir = some p.dir)) =
              ((enabledRows bs cs caps).map FcasRow.bid).filter (fun b => decide (VolBid.key b = PriceBid.key p)) := by
            apply List.filter_congr
            intro b _
            unfold VolBid.key PriceBid.key
            simp only [Prod.mk.injEq]
          rw [hfil]
          by_cases h : PriceBid.key p ∈ ((enabledRows bs cs caps).map FcasRow.bid).map VolBid.key
          · obtain ⟨b, hb', e⟩ := List.mem_map.1 h
            rw [← e, filter_present hkn hb']
            simp
          · rw [filter_absent h]
            simp)
      rw [List.map_id, List.map_id] at hs
      exact hs.nodup (hp.of_map.filter _)
    · intro a ha b hb' e
      have h1 := (List.mem_filter.1 ha).2
      obtain ⟨q, hq, h2⟩ := List.mem_flatMap.1 hb'
      have h3 := (List.mem_filter.1 hq).2
      obtain ⟨_, _, rfl⟩ := List.mem_map.1 h2
      rw [e] at h1
      simp only [Bool.not_eq_true', decide_eq_false_iff_not, decide_eq_true_eq] at h1 h3
      exact h3 h1
  refine List.Nodup.map_on ?_ hn
  intro x hx y hy e
  have h1 := rowFor_mem hp ((hmem x).1 hx).1
  rw [e, rowFor_mem hp ((hmem y).1 hy).1] at h1
  injection h1 with h1
  exact h1.symm

/-- If every FCAS volume bid comes with a price bid, the FCAS volume and price bids that are left match one to one. -/
theorem C60_match {bs : List VolBid} {ps : List PriceBid} {cs : List InitCond} {caps : List CapLimit}
    (hb : (bs.map VolBid.key).Nodup) (hc : (cs.map InitCond.duid).Nodup) (hk : (caps.map CapLimit.key).Nodup)
    (hp : (ps.map PriceBid.key).Nodup)
    (hall : ∀ b ∈ bs, b.service ≠ .energy → ∃ p ∈ ps, p.key = b.key) :
    (((enforce bs ps cs caps).1.filter (fun b => !decide (b.service = .energy))).map VolBid.key).Perm
      (((enforce bs ps cs caps).2.filter (fun p => !decide (p.service = .energy))).map PriceBid.key) := by
  obtain ⟨v1, v2⟩ := C60_volume (ps := ps) hb hc hk
  obtain ⟨p1, p2⟩ := C60_price hb hc hk hp
  rw [List.perm_ext_iff_of_nodup ((List.filter_sublist.map _).nodup v1) ((List.filter_sublist.map _).nodup p1)]
  intro k
  simp only [List.mem_map, List.mem_filter, Bool.not_eq_true', decide_eq_false_iff_not]
  constructor
  · rintro ⟨b, ⟨h1, h2⟩, rfl⟩
    obtain ⟨p, h3, h4⟩ := hall b ((v2 b).1 h1).1 h2
    refine ⟨p, ⟨(p2 p).2 ⟨h3, Or.inr ⟨b, h1, h4.symm⟩⟩, ?_⟩, h4⟩
    unfold VolBid.key PriceBid.key at h4
    simp only [Prod.mk.injEq] at h4
    rw [h4.2.1]; exact h2
  · rintro ⟨p, ⟨h1, h2⟩, rfl⟩
    obtain ⟨_, h3 | ⟨b, h3, h4⟩⟩ := (p2 p).1 h1
    · exact absurd h3 h2
    · refine ⟨b, ⟨h3, ?_⟩, h4⟩
      unfold VolBid.key PriceBid.key at h4
      simp only [Prod.mk.injEq] at h4
      rw [h4.2.1]; exact h2

/-! A generator and a battery: the generator's raise bid cannot be enabled because it runs above the upper limit, the
battery charges and regulates between the limits of its load side and its generation side. -/

def enBids : List VolBid :=
  [⟨"G", .energy, some .generator, [100], 100, 0, 0, 0, 0, 0, 0⟩,
   ⟨"G", .raise6s, some .generator, [20], 20, 10, 30, 60, 100, 0, 0⟩,
   ⟨"G", .lower6s, some .generator, [20], 20, 10, 30, 60, 130, 0, 0⟩,
   ⟨"B", .energy, some .generator, [100], 100, 0, 0, 0, 0, 0, 0⟩,
   ⟨"B", .energy, some .load, [100], 100, 0, 0, 0, 0, 0, 0⟩,
   ⟨"B", .raiseReg, some .generator, [20], 20, 0, 0, 80, 100, 0, 0⟩,
   ⟨"B", .raiseReg, some .load, [20], 20, -100, -80, 0, 0, 0, 0⟩]

def enPrices : List PriceBid :=
  [⟨"G", .energy, .generator, [50]⟩, ⟨"G", .raise6s, .generator, [5]⟩, ⟨"G", .lower6s, .generator, [5]⟩,
   ⟨"B", .energy, .generator, [50]⟩, ⟨"B", .energy, .load, [20]⟩, ⟨"B", .raiseReg, .generator, [5]⟩,
   ⟨"B", .raiseReg, .load, [5]⟩]

def enConds : List InitCond :=
  [⟨"G", "GENERATOR", some (120 + 1 / 1000000), none, none, some 1⟩, ⟨"B", "BIDIRECTIONAL", some (-50), none, none, some 1⟩]

def enCaps : List CapLimit := [⟨"G", some .generator, 150⟩, ⟨"B", some .generator, 100⟩, ⟨"B", some .load, 100⟩]

example : (enBids.map VolBid.key).Nodup ∧ (enConds.map InitCond.duid).Nodup ∧ (enCaps.map CapLimit.key).Nodup ∧
    (enPrices.map PriceBid.key).Nodup ∧ (∀ b ∈ enBids, b.service ≠ .energy → b.key ∈ enPrices.map PriceBid.key) := by
  decide +kernel

example :
    ((enforce enBids enPrices enConds enCaps).1.map VolBid.key) =
      [("G", .energy, some .generator), ("B", .energy, some .generator), ("B", .energy, some .load),
       ("G", .lower6s, some .generator), ("B", .raiseReg, some .generator), ("B", .raiseReg, some .load)] ∧
    ((enforce enBids enPrices enConds enCaps).2.map PriceBid.key) =
      [("G", .energy, some .generator), ("B", .energy, some .generator), ("B", .energy, some .load),
       ("G", .lower6s, some .generator), ("B", .raiseReg, some .generator), ("B", .raiseReg, some .load)] := by
  decide +kernel

/-! ### From the tables to the bids -/

/-- Enabling conditions only depend on which bids there are. -/
theorem Enabled.congr {bs bs' : List VolBid} (h : ∀ b, b ∈ bs ↔ b ∈ bs') (cs : List InitCond) (caps : List CapLimit)
    (b : VolBid) : Enabled bs cs caps b ↔ Enabled bs' cs caps b := by
  unfold Enabled EnabledTwoWay
  simp only [h]

/-- the bid after all three scalings -/
def Inputs.scaled (i : Inputs) (b : VolBid) : VolBid := uigfOf i.uigf (rampOf i.init (agcOf i.agc b))

theorem SameBid.key {b b' : VolBid} (h : SameBid b b') : b'.key = b.key := by
  obtain ⟨h1, h2, h3, _⟩ := h
  unfold VolBid.key
  rw [h1, h2, h3]

theorem agcOf_same (ls : List AgcLimits) (b : VolBid) : SameBid b (agcOf ls b) := by
  unfold agcOf
  cases rowFor AgcLimits.duid ls b.duid with
  | none => exact ⟨rfl, rfl, rfl, rfl, rfl, rfl⟩
  | some l => exact (agcScaled _ _ _).1

theorem rampScale_same {r : Option ℚ} {b b' : VolBid} (h : b.rampScale r = .ok b') : SameBid b b' := by
  unfold VolBid.rampScale at h
  obtain ⟨x, _, h⟩ := bind_ok h
  obtain ⟨y, _, h⟩ := bind_ok h
  injection h with h
  subst h
  exact ⟨rfl, rfl, rfl, rfl, rfl, rfl⟩

theorem rampOf_same (cs : List InitCond) (b : VolBid) : SameBid b (rampOf cs b) := by
  unfold rampOf
  cases rowFor InitCond.duid cs b.duid with
  | none => exact ⟨rfl, rfl, rfl, rfl, rfl, rfl⟩
  | some c =>
    dsimp only
    split
    · cases h : b.rampScale (c.rate b.service) with
      | error e => exact ⟨rfl, rfl, rfl, rfl, rfl, rfl⟩
      | ok b' => exact rampScale_same h
    · exact ⟨rfl, rfl, rfl, rfl, rfl, rfl⟩

theorem uigfOf_same (us : List (String × ℚ)) (b : VolBid) : SameBid b (uigfOf us b) := by
  unfold uigfOf
  split
  · exact ⟨rfl, rfl, rfl, rfl, rfl, rfl⟩
  · cases rowFor Prod.fst us b.duid with
    | none => exact ⟨rfl, rfl, rfl, rfl, rfl, rfl⟩
    | some u => exact (uigfScaled _ _).1

theorem scaled_key (i : Inputs) (b : VolBid) : (i.scaled b).key = b.key := by
  unfold Inputs.scaled
  rw [(uigfOf_same _ _).key, (rampOf_same _ _).key, (agcOf_same _ _).key]

/-- `get_processed_bids` from the tables to the bids, for tables with one row per unit (AGC limits, initial conditions,
forecasts) and per unit, service and direction (bids) and with initial conditions for all units with AGC limits: the
result holds, each once, the bids that follow the chain of the scalings (C57, C58, C59) and are energy bids or meet the
enabling conditions (C60).  Capacities are the availabilities in energy bids, before July 2023 only those of units without
a forecast. -/
theorem C60_processed {i : Inputs} {vs : List VolBid} {ps : List PriceBid} (h : i.processed = .ok (vs, ps))
    (hb : (i.bids.map VolBid.key).Nodup) (ha : (i.agc.map AgcLimits.duid).Nodup) (hc : (i.init.map InitCond.duid).Nodup)
    (hu : (i.uigf.map Prod.fst).Nodup) (hin : ∀ d ∈ i.agc.map AgcLimits.duid, d ∈ i.init.map InitCond.duid) :
    ∃ (caps : List CapLimit) (f : VolBid → VolBid) (scaled : List VolBid),
      (∀ c, c ∈ caps ↔ (∃ b ∈ i.bids, b.service = .energy ∧ ¬(i.before = true ∧ b.duid ∈ i.uigf.map Prod.fst) ∧
          c = ⟨b.duid, b.dir, b.maxAvail⟩) ∨ ∃ u ∈ i.uigf, c = ⟨u.1, none, u.2⟩) ∧
      (∀ b', b' ∈ scaled ↔ ∃ b ∈ i.bids, (isReg b.service = true → b.duid ∈ i.agc.map AgcLimits.duid) ∧ b' = f b) ∧
      (∀ b ∈ i.bids, b.service = .energy → f b = b) ∧
      (∀ b ∈ i.bids, ∃ b1 b2,
        (isReg b.service = false → b1 = b ∧ b2 = b) ∧
        (∀ l ∈ i.agc, l.duid = b.duid → AgcScaled (l.low b.service) (l.high b.service) b b1) ∧
        (isReg b.service = true → ∀ l ∈ i.agc, l.duid = b.duid → ∀ c ∈ i.init, c.duid = b.duid →
          RampScaled (c.rate b.service) b1 b2) ∧
        (b.service ≠ .energy → ∀ u ∈ i.uigf, u.1 = b.duid → UigfScaled u.2 b2 (f b)) ∧
        (b.duid ∉ i.uigf.map Prod.fst → f b = b2)) ∧
      (vs.map VolBid.key).Nodup ∧
      (∀ b, b ∈ vs ↔ b ∈ scaled ∧ (b.service = .energy ∨ Enabled scaled i.init caps b)) := by
  unfold Inputs.processed at h
  obtain ⟨caps, hcaps, h⟩ := bind_ok h
  obtain ⟨bs, hbs, h⟩ := bind_ok h
  injection h with h
  have hAgc := agcEnablement_perm i.bids ha
  have hmem2 : ∀ b ∈ agcEnablement i.bids i.agc, isReg b.service = true → b.duid ∈ i.init.map InitCond.duid := by
    intro b hb' hr
    obtain ⟨b0, h0, rfl⟩ := List.mem_map.1 (hAgc.mem_iff.1 hb')
    have hs := agcOf_same i.agc b0
    obtain ⟨_, h0⟩ := List.mem_filter.1 h0
    rw [hs.2.1] at hr
    rw [hs.1]
    refine hin _ ?_
    simpa [hr] using h0
  have hRamp := agcRamp_perm hc hmem2 hbs
  have hScal := rampScaled_of hc hmem2 hbs
  have hU := uigf_perm bs hu
  -- the list of scaled bids
  have hperm : (uigfScaling bs i.uigf).Perm
      ((i.bids.filter (fun b => !isReg b.service || decide (b.duid ∈ i.agc.map AgcLimits.duid))).map i.scaled) := by
    refine hU.trans ((hRamp.map _).trans (((hAgc.map _).map _).trans ?_))
    rw [List.map_map, List.map_map]
    exact List.Perm.refl _
  have hkeys : ((uigfScaling bs i.uigf).map VolBid.key).Nodup := by
    have h1 := hperm.map VolBid.key
    rw [h1.nodup_iff, List.map_map]
    have h2 : (VolBid.key ∘ i.scaled) = VolBid.key := funext (scaled_key i)
    rw [h2]
    exact (List.filter_sublist.map _).nodup hb
  have hcapEq : ∃ av, ((i.bids.filter (fun b => decide (b.service = .energy))).filter
      (fun b => !(i.before && decide (b.duid ∈ i.uigf.map Prod.fst)))).map (fun b => (⟨b.duid, b.dir, b.maxAvail⟩ : CapLimit))
      = av ∧ caps = av ++ i.uigf.map (fun u => ⟨u.1, none, u.2⟩) ∧
      ∀ b ∈ i.bids, b.service = .energy → ¬(i.before = true ∧ b.duid ∈ i.uigf.map Prod.fst) → b.dir ≠ none := by
    unfold Inputs.availability at hcaps
    obtain ⟨rows, hrows, hcaps⟩ := bind_ok hcaps
    injection hcaps with hcaps
    unfold Inputs.bidAvailability at hrows
    have hf := mapM_ok hrows
    refine ⟨_, rfl, ?_, ?_⟩
    · rw [← hcaps]
      congr 1
      clear hrows hcaps
      generalize (i.bids.filter (fun b => decide (b.service = .energy))).filter
        (fun b => !(i.before && decide (b.duid ∈ i.uigf.map Prod.fst))) = L at hf
      induction hf with
      | nil => rfl
      | @cons a r l out h1 _ ih =>
        rw [List.map_cons, List.map_cons, ih]
        congr 1
        cases hd : a.dir with
        | none => rw [hd] at h1; cases h1
        | some d =>
          rw [hd] at h1
          injection h1 with h1
          rw [← h1]
    · intro b hb' he hnb hd
      have hin' : b ∈ (i.bids.filter (fun b => decide (b.service = .energy))).filter
          (fun b => !(i.before && decide (b.duid ∈ i.uigf.map Prod.fst))) := by
        simp only [List.mem_filter, decide_eq_true_eq, Bool.not_eq_true', Bool.and_eq_false_iff, decide_eq_false_iff_not]
        refine ⟨⟨hb', he⟩, ?_⟩
        cases hbe : i.before with
        | false => exact Or.inl rfl
        | true => exact Or.inr (fun hx => hnb ⟨hbe, hx⟩)
      clear hrows hcaps
      generalize (i.bids.filter (fun b => decide (b.service = .energy))).filter
        (fun b => !(i.before && decide (b.duid ∈ i.uigf.map Prod.fst))) = L at hf hin'
      induction hf with
      | nil => simp at hin'
      | @cons a r l out h1 _ ih =>
        rcases List.mem_cons.1 hin' with rfl | hin'
        · rw [hd] at h1; cases h1
        · exact ih hin'
  obtain ⟨av, hav, hcapsEq, hdirs⟩ := hcapEq
  have hcapMem : ∀ c, c ∈ caps ↔ (∃ b ∈ i.bids, b.service = .energy ∧
      ¬(i.before = true ∧ b.duid ∈ i.uigf.map Prod.fst) ∧ c = ⟨b.duid, b.dir, b.maxAvail⟩) ∨
      ∃ u ∈ i.uigf, c = ⟨u.1, none, u.2⟩ := by
    intro c
    rw [hcapsEq, ← hav, List.mem_append, List.mem_map, List.mem_map]
    refine or_congr ⟨?_, ?_⟩ ⟨?_, ?_⟩
    · rintro ⟨b, hb', rfl⟩
      simp only [List.mem_filter, decide_eq_true_eq, Bool.not_eq_true', Bool.and_eq_false_iff,
        decide_eq_false_iff_not] at hb'
      refine ⟨b, hb'.1.1, hb'.1.2, ?_, rfl⟩
      rintro ⟨g1, g2⟩
      rcases hb'.2 with g | g
      · rw [g1] at g; cases g
      · exact g g2
    · rintro ⟨b, hb', he, hnb, rfl⟩
      refine ⟨b, ?_, rfl⟩
      simp only [List.mem_filter, decide_eq_true_eq, Bool.not_eq_true', Bool.and_eq_false_iff, decide_eq_false_iff_not]
      refine ⟨⟨hb', he⟩, ?_⟩
      cases hbe : i.before with
      | false => exact Or.inl rfl
      | true => exact Or.inr (fun hx => hnb ⟨hbe, hx⟩)
    · rintro ⟨u, hu', rfl⟩; exact ⟨u, hu', rfl⟩
    · rintro ⟨u, hu', rfl⟩; exact ⟨u, hu', rfl⟩
  have hcapKeys : (caps.map CapLimit.key).Nodup := by
    rw [hcapsEq, List.map_append, List.nodup_append]
    refine ⟨?_, ?_, ?_⟩
    · rw [← hav, List.map_map]
      have hsub : ((i.bids.filter (fun b => decide (b.service = .energy))).filter
          (fun b => !(i.before && decide (b.duid ∈ i.uigf.map Prod.fst)))).Sublist i.bids :=
        List.filter_sublist.trans List.filter_sublist
      refine List.Nodup.map_on ?_ (hsub.nodup hb.of_map)
      intro x hx y hy e
      have hx' := (List.mem_filter.1 (List.mem_filter.1 hx).1)
      have hy' := (List.mem_filter.1 (List.mem_filter.1 hy).1)
      have ex := hx'.2
      have ey := hy'.2
      rw [decide_eq_true_eq] at ex ey
      have e' : x.duid = y.duid ∧ x.dir = y.dir := by
        have : CapLimit.key ⟨x.duid, x.dir, x.maxAvail⟩ = CapLimit.key ⟨y.duid, y.dir, y.maxAvail⟩ := e
        unfold CapLimit.key at this
        simpa using this
      have hkey : x.key = y.key := by
        unfold VolBid.key
        rw [e'.1, e'.2, ex, ey]
      have h1 := rowFor_mem hb hx'.1
      rw [hkey, rowFor_mem hb hy'.1] at h1
      injection h1 with h1
      exact h1.symm
    · rw [List.map_map]
      have : (CapLimit.key ∘ fun u : String × ℚ => (⟨u.1, none, u.2⟩ : CapLimit)) =
          (fun d : String => (d, (none : Option DType))) ∘ Prod.fst := rfl
      rw [this, ← List.map_map]
      exact hu.map (fun a b e => by simpa using e)
    · intro a ha' b hb' e
      obtain ⟨c, hc1, rfl⟩ := List.mem_map.1 ha'
      obtain ⟨c', hc2, rfl⟩ := List.mem_map.1 hb'
      rw [← hav] at hc1
      obtain ⟨x, hx, rfl⟩ := List.mem_map.1 hc1
      obtain ⟨u, hu', rfl⟩ := List.mem_map.1 hc2
      simp only [List.mem_filter, decide_eq_true_eq, Bool.not_eq_true', Bool.and_eq_false_iff,
        decide_eq_false_iff_not] at hx
      refine hdirs x hx.1.1 hx.1.2 ?_ ?_
      · rintro ⟨g1, g2⟩
        rcases hx.2 with g | g
        · rw [g1] at g; cases g
        · exact g g2
      · unfold CapLimit.key at e
        simp only [Prod.mk.injEq] at e
        exact e.2
  obtain ⟨v1, v2⟩ := C60_volume (ps := i.price) hkeys hc hcapKeys
  refine ⟨caps, i.scaled, uigfScaling bs i.uigf, hcapMem, ?_, ?_, ?_, ?_, ?_⟩
  · intro b'
    rw [hperm.mem_iff, List.mem_map]
    simp only [List.mem_filter, Bool.or_eq_true, Bool.not_eq_true', decide_eq_true_eq]
    constructor
    · rintro ⟨b, ⟨h1, h2⟩, rfl⟩
      refine ⟨b, h1, ?_, rfl⟩
      intro hr
      rcases h2 with h2 | h2
      · rw [hr] at h2; cases h2
      · exact h2
    · rintro ⟨b, h1, h2, rfl⟩
      refine ⟨b, ⟨h1, ?_⟩, rfl⟩
      cases hr : isReg b.service with
      | false => exact Or.inl rfl
      | true => exact Or.inr (h2 hr)
  · intro b _ he
    have hr : isReg b.service = false := by rw [he]; decide
    unfold Inputs.scaled
    rw [agcOf_other hr, rampOf_other hr]
    unfold uigfOf
    rw [if_pos he]
  · intro b hb'
    refine ⟨agcOf i.agc b, rampOf i.init (agcOf i.agc b), ?_, ?_, ?_, ?_, ?_⟩
    · intro hr
      rw [agcOf_other hr, rampOf_other hr]
      exact ⟨rfl, rfl⟩
    · intro l hl e
      rw [agcOf_row ha hl e]
      exact agcScaled _ _ _
    · intro hr l hl e c hc' e'
      have hs := agcOf_same i.agc b
      have hin2 : agcOf i.agc b ∈ agcEnablement i.bids i.agc := by
        refine hAgc.mem_iff.2 (List.mem_map_of_mem (List.mem_filter.2 ⟨hb', ?_⟩))
        simp only [hr, Bool.not_true, Bool.false_or, decide_eq_true_eq]
        exact e ▸ List.mem_map_of_mem hl
      have := hScal _ hin2 (by rw [hs.2.1]; exact hr) c hc' (by rw [hs.1]; exact e')
      rw [hs.2.1] at this
      exact this
    · intro hne u hu' e
      have hs1 := agcOf_same i.agc b
      have hs2 := rampOf_same i.init (agcOf i.agc b)
      unfold Inputs.scaled uigfOf
      rw [if_neg (by rw [hs2.2.1, hs1.2.1]; exact hne), hs2.1, hs1.1, ← e, rowFor_mem hu hu']
      exact uigfScaled _ _
    · intro hno
      have hs1 := agcOf_same i.agc b
      have hs2 := rampOf_same i.init (agcOf i.agc b)
      unfold Inputs.scaled uigfOf
      rw [hs2.1, hs1.1]
      cases hr : rowFor Prod.fst i.uigf b.duid with
      | none => simp
      | some u =>
        obtain ⟨hu', e⟩ := rowFor_some hr
        exact absurd (e ▸ List.mem_map_of_mem hu') hno
  · have e1 : vs = (enforce (uigfScaling bs i.uigf) i.price i.init caps).1 := by rw [h]
    rw [e1]; exact v1
  · have e1 : vs = (enforce (uigfScaling bs i.uigf) i.price i.init caps).1 := by rw [h]
    rw [e1]; exact v2

def enInputs : Inputs where
  before := true
  volume := enBids
  price := enPrices
  init := enConds
  uigf := []
  details := [⟨"G", "NSW", 99 / 100, none, 1⟩, ⟨"B", "NSW", 98 / 100, some (101 / 100), 1⟩]
  agc := [⟨"B", some 90, some (-90), some 0, some 0⟩]

example : (enInputs.bids.map VolBid.key).Nodup ∧ (enInputs.agc.map AgcLimits.duid).Nodup ∧
    (enInputs.init.map InitCond.duid).Nodup ∧ (enInputs.uigf.map Prod.fst).Nodup ∧
    (∀ d ∈ enInputs.agc.map AgcLimits.duid, d ∈ enInputs.init.map InitCond.duid) ∧
    (enInputs.processed.toOption.map (fun q => q.1.map (fun b => (b.key, b.emin, b.hbp, b.emax)))) = some
      [(("G", .energy, some .generator), 0, 0, 0), (("B", .energy, some .generator), 0, 0, 0),
       (("B", .energy, some .load), 0, 0, 0), (("G", .lower6s, some .generator), 10, 60, 130),
       (("B", .raiseReg, some .generator), 0, 70, 90), (("B", .raiseReg, some .load), -100, 0, 0)] := by decide +kernel

end Verif.Units
