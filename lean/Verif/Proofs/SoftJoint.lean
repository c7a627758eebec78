import Verif.Proofs.SoftFast

/-! Joint ramping with a violation cost. -/

namespace Verif

theorem sum_single_of {α : Type} [DecidableEq α] {l : List α} (hn : l.Nodup) (a : α) [Decidable (a ∈ l)] (v : ℚ) :
    (l.map (fun b => if b = a then v else 0)).sum = if a ∈ l then v else 0 := by
  have key : ∀ l : List α, l.Nodup → (a ∈ l → (l.map (fun b => if b = a then v else 0)).sum = v) ∧
      (a ∉ l → (l.map (fun b => if b = a then v else 0)).sum = 0) := by
    intro l hn
    induction l with
    | nil => simp
    | cons b l ih =>
      rw [List.nodup_cons] at hn
      rw [List.map_cons, List.sum_cons]
      by_cases e : b = a
      · subst e
        have := (ih hn.2).2 hn.1
        simp [this]
      · have e' : ¬ a = b := fun h => e h.symm
        obtain ⟨i1, i2⟩ := ih hn.2
        simp only [e, if_false, zero_add, List.mem_cons, e', false_or]
        exact ⟨i1, i2⟩
  by_cases h : a ∈ l
  · rw [if_pos h]; exact (key l hn).1 h
  · rw [if_neg h]; exact (key l hn).2 h

theorem regRates_sum {m : Market} (s : Service) (rs : List RampRow) (rate : RampRow → ℚ) (F : RegRate → ℚ) :
    ((regRates (m.bids.getD []) s rs rate).map F).sum = (rs.map (fun r =>
      (if m.bidding r.unit s .generator then F ⟨r.unit, .generator, s, r.init, rate r⟩ else 0) +
      (if m.bidding r.unit s .load then F ⟨r.unit, .load, s, r.init, rate r⟩ else 0))).sum := by
  have hmem : ∀ (u : String) (d : DType), m.bidding u s d = true ↔
      (u, d, s) ∈ ((((m.bids.getD []).filter (fun v => decide (v.service = s))).map (fun v => (v.unit, v.dtype, v.service))).dedup) := by
    intro u d
    simp only [Market.bidding, List.any_eq_true, decide_eq_true_eq, List.mem_dedup, List.mem_map, List.mem_filter, Prod.mk.injEq]
    constructor
    · rintro ⟨b, hb, h1, h2, h3⟩; exact ⟨b, ⟨hb, h2⟩, h1, h3, h2⟩
    · rintro ⟨b, ⟨hb, h2⟩, h1, h3, _⟩; exact ⟨b, hb, h1, h2, h3⟩
  have hsv : ∀ k ∈ ((((m.bids.getD []).filter (fun v => decide (v.service = s))).map (fun v => (v.unit, v.dtype, v.service))).dedup), k.2.2 = s := by
    intro k hk
    simp only [List.mem_dedup, List.mem_map, List.mem_filter, decide_eq_true_eq] at hk
    obtain ⟨b, ⟨_, h⟩, rfl⟩ := hk
    exact h
  have hnd := List.nodup_dedup (((m.bids.getD []).filter (fun v => decide (v.service = s))).map (fun v => (v.unit, v.dtype, v.service)))
  unfold regRates
  simp only [hmem]
  generalize (((m.bids.getD []).filter (fun v => decide (v.service = s))).map (fun v => (v.unit, v.dtype, v.service))).dedup = K at *
  rw [sum_map_flatMap]
  simp only [List.map_map, Function.comp_def, sum_filter_eq_ite]
  rw [sum_comm]
  apply sum_map_congr
  intro r _
  rw [← sum_single_of hnd, ← sum_single_of hnd, ← sum_map_add]
  apply sum_map_congr
  intro k hk
  obtain ⟨u, d, s'⟩ := k
  have := hsv _ hk
  dsimp only at this
  subst this
  by_cases hu : r.unit = u
  · subst hu
    cases d <;> simp
  · have : ¬ u = r.unit := fun h => hu h.symm
    simp [hu, this]

theorem jr_sum {m : Market} (hw : WF m) {rs : List RegRate} (hb : ∀ r ∈ rs, r.unit ∉ m.bidi) (di : ℚ) (n : Nat) (g l : JrSettings) (hs : l.service = g.service) (x : Nat → ℚ) :
    ((((saveIndex rs n (fun i r => (i, r))).filter (fun c => decide (c.2.dtype = .generator))).map (jrEntry g di) ++
       ((saveIndex rs n (fun i r => (i, r))).filter (fun c => decide (c.2.dtype = .load))).map (jrEntry l di)).map
        (fun e => e.1.ctype.violation (m.entryVal x e.2) e.1.rhs)).sum =
    (rs.map (fun r => if r.dtype = .generator then
        g.ctype.violation (m.output x r.unit .energy r.dtype + g.regCoef * m.output x r.unit g.service r.dtype) (r.init + g.dir * (r.rate * di / 60))
      else l.ctype.violation (m.output x r.unit .energy r.dtype + l.regCoef * m.output x r.unit g.service r.dtype)
        (r.init + l.dir * (r.rate * di / 60)))).sum := by
  simp only [List.map_append, List.sum_append, List.map_map, Function.comp_def, sum_filter_eq_ite, ← sum_map_add]
  apply sum_indexed_mem
  intro i r hr
  simp only [jrEntry, Market.entryVal, List.map_cons, List.map_nil, List.sum_cons, List.sum_nil, mapVal_output hw x (hb r hr), hs]
  cases r.dtype
  · simp; ring_nf
  · simp; ring_nf

/-- the rows of bidirectional units, one for each unit with a rate and a bid -/
theorem jrBdu_sum {m : Market} (hw : WF m) {x : Nat → ℚ} {s : Service} (hs : s ≠ .energy) {ord : List RampRow} {rate : RampRow → ℚ}
    (hn : (ord.map (·.unit)).Nodup) {di : ℚ} {ct : CType} {sgn : ℚ} (n : Nat) :
    (((saveIndex (dropDup (·.unit) (bidirectional m.bidi (regRates (m.bids.getD []) s ord rate))) n (fun i r => (i, r))).map
      (jrBduEntry (bidirectional m.bidi (regRates (m.bids.getD []) s ord rate)) di ct sgn)).map
        (fun e => e.1.ctype.violation (m.entryVal x e.2) e.1.rhs)).sum =
    (ord.map (fun r => if r.unit ∈ m.bidi ∧ (m.bidding r.unit s .generator || m.bidding r.unit s .load) = true then
      ct.violation (m.regEnergy x r.unit s + sgn * (m.dispatched x r.unit s .generator + m.dispatched x r.unit s .load))
        (r.init + sgn * (rate r * di / 60)) else 0)).sum := by
  let V : RampRow → ℚ := fun r => ct.violation (m.regEnergy x r.unit s + sgn * (m.dispatched x r.unit s .generator + m.dispatched x r.unit s .load))
        (r.init + sgn * (rate r * di / 60))
  let G : String → ℚ := fun u => ((ord.filter (fun r => decide (r.unit = u))).map V).sum
  have hG : ∀ r ∈ ord, G r.unit = V r := by
    intro r hr
    show ((ord.filter (fun q => decide (q.unit = r.unit))).map V).sum = V r
    rw [filter_key_unique (key := RampRow.unit) hn hr]
    simp
  have hmem : ∀ q ∈ bidirectional m.bidi (regRates (m.bids.getD []) s ord rate), ∃ r ∈ ord, r.unit = q.unit ∧ q.init = r.init ∧ q.rate = rate r ∧
      r.unit ∈ m.bidi ∧ (m.bidding r.unit s .generator || m.bidding r.unit s .load) = true := by
    intro q hq
    simp only [bidirectional, List.mem_filter, decide_eq_true_eq, mem_regRates] at hq
    obtain ⟨⟨v, hv, hvs, r, hr, hu, rfl⟩, hb⟩ := hq
    refine ⟨r, hr, hu, rfl, rfl, by rw [hu]; exact hb, ?_⟩
    rw [Bool.or_eq_true, bidding_iff, bidding_iff]
    cases hd : v.dtype with
    | generator => exact Or.inl ⟨v, hv, hu.symm, hvs, hd⟩
    | load => exact Or.inr ⟨v, hv, hu.symm, hvs, hd⟩
  rw [List.map_map]
  rw [sum_indexed_mem _ _ _ _ (fun q => G q.unit) (by
    intro i q hq
    obtain ⟨r, hr, hu, h1, h2, hb, _⟩ := hmem q (mem_of_mem_dropDup hq)
    rw [← hu, hG r hr]
    show ct.violation (m.entryVal x (jrBduEntry _ di ct sgn (i, q)).2) (q.init + sgn * (q.rate * di / 60)) = V r
    rw [jrBdu_val hw hs hn hr hb hu.symm, regEnergy_eq, h1, h2])]
  have hperm : ((dropDup (·.unit) (bidirectional m.bidi (regRates (m.bids.getD []) s ord rate))).map (·.unit)).Perm
      ((ord.filter (fun r => decide (r.unit ∈ m.bidi ∧ (m.bidding r.unit s .generator || m.bidding r.unit s .load) = true))).map (·.unit)) := by
    refine (List.perm_ext_iff_of_nodup (dropDup_nodup _ _) (hn.sublist (List.filter_sublist.map _))).2 (fun u => ?_)
    simp only [List.mem_map, List.mem_filter, decide_eq_true_eq]
    constructor
    · rintro ⟨q, hq, rfl⟩
      obtain ⟨r, hr, hu, _, _, hb, hd⟩ := hmem q (mem_of_mem_dropDup hq)
      exact ⟨r, ⟨hr, hb, hd⟩, hu⟩
    · rintro ⟨r, ⟨hr, hb, hd⟩, rfl⟩
      rw [Bool.or_eq_true, bidding_iff, bidding_iff] at hd
      have : ∃ q ∈ bidirectional m.bidi (regRates (m.bids.getD []) s ord rate), q.unit = r.unit := by
        rcases hd with ⟨v, hv, hvu, hvs, hvd⟩ | ⟨v, hv, hvu, hvs, hvd⟩
        all_goals
          refine ⟨⟨r.unit, v.dtype, s, r.init, rate r⟩, ?_, rfl⟩
          simp only [bidirectional, List.mem_filter, decide_eq_true_eq, mem_regRates]
          exact ⟨⟨v, hv, hvs, r, hr, hvu.symm, by rw [hvu]⟩, hb⟩
      obtain ⟨q, hq, hqu⟩ := this
      obtain ⟨q', hq', hqu'⟩ := exists_dropDup (key := RegRate.unit) hq
      exact ⟨q', hq', hqu'.trans hqu⟩
  have e := sum_perm hperm G
  rw [List.map_map, List.map_map] at e
  refine e.trans ?_
  rw [sum_filter_list]
  apply sum_map_congr
  intro r hr
  by_cases hc : r.unit ∈ m.bidi ∧ (m.bidding r.unit s .generator || m.bidding r.unit s .load) = true
  · rw [if_pos hc, if_pos (by simpa using hc)]
    exact hG r hr
  · rw [if_neg hc, if_neg (by simpa using hc)]

theorem setIf_has (a : Market) (k k' : CKey) (v : Bool) (t : List Row × List ConUnit) :
    (a.addUnitSetIf k v t).1.unitCon.has k' = if k = k' then (v || a.unitCon.has k') else a.unitCon.has k' := by
  cases v with
  | false => simp [Market.addUnitSetIf]
  | true =>
    unfold Market.addUnitSetIf
    rw [if_pos rfl]
    unfold Dict.has
    rw [(addUnitSet_get a k t).1]
    by_cases e : k = k'
    · subst e; rw [Dict.get?_set_self]; simp
    · rw [Dict.get?_set_ne _ _ e]; simp [e]

/-- the sets that joint ramping makes elastic -/
def jrKeys (v2 v4 : Bool) : List CKey := [.jrRaise, .jrLower] ++ ((if v2 then [.jrRaiseBdu] else []) ++ (if v4 then [.jrLowerBdu] else []))

theorem jrKeys_parts {v2 v4 : Bool} {k : CKey} (hk : k ∈ jrKeys v2 v4) (rs : List RampRow) (ps : Option (List FsRamp)) (rt : RunType)
    (vc : Option VCost) : Part.set k ∈ (Op.jointRamping rs ps rt vc).parts := by
  cases v2 <;> cases v4 <;> simp [jrKeys] at hk <;> simp [Op.parts] <;> tauto

theorem jrKeys_nodup (v2 v4 : Bool) : (jrKeys v2 v4).Nodup := by
  cases v2 <;> cases v4 <;> decide

/-- the sets of joint ramping, then made elastic -/
theorem jr_chain {a : Market} (hn : a.nanCon = false) (hno : Blank .jrRaiseBdu a ∧ Blank .jrLowerBdu a) (v1 v2 v3 v4 : Bool)
    (t1 : List Row × List ConUnit) (t2 t3 t4 : Market → List Row × List ConUnit) (vc : VCost) {R : Option VCost → Res}
    (hR : R = fun o => (a.addUnitSetIf .jrRaise v1 t1).andThen (fun m => (m.addUnitSetIf .jrRaiseBdu v2 (t2 m)).andThen (fun m =>
      (m.addUnitSetIf .jrLower v3 (t3 m)).andThen (fun m => (m.addUnitSetIf .jrLowerBdu v4 (t4 m)).andThen (fun m => m.elasticJr o)))))
    (hok : (R (some vc)).2 = none) :
    (R none).2 = none ∧ Accepted (R none).1 ((jrKeys v2 v4).map (fun k => Op.elastic k vc)) ∧
    (R (some vc)).1 = (R none).1.run ((jrKeys v2 v4).map (fun k => Op.elastic k vc)) ∧
    (v2 = false → Blank .jrRaiseBdu (R (some vc)).1) ∧ (v4 = false → Blank .jrLowerBdu (R (some vc)).1) := by
  have nif : ∀ (b : Market) (k k' : CKey) v t, (k ≠ k' ∨ v = false) → Blank k' b → Blank k' (b.addUnitSetIf k v t).1 := by
    intro b k k' v t hk hb
    cases v with
    | false => exact hb
    | true => exact hb.unitSet (hk.resolve_right (by simp)) t
  have nan : ∀ (b : Market) (k : CKey) v t, (b.addUnitSetIf k v t).1.nanCon = b.nanCon := by
    intro b k v t
    cases v with
    | false => rfl
    | true => exact nanCon_unitSet b k t
  have has0 : a.unitCon.has .jrRaiseBdu = false ∧ a.unitCon.has .jrLowerBdu = false := by simp [Dict.has, hno.1.1, hno.2.1]
  subst hR
  dsimp only at hok ⊢
  have step : ∀ {b : Res} {F : Market → Res}, (b.andThen F).2 = none → ∀ G : Market → Res, b.andThen G = G b.1 := by
    intro b F h G
    obtain ⟨o, _⟩ := andThen_ok h
    unfold Res.andThen; rw [o]
  have q1 := nan a .jrRaise v1 t1
  have u1 : ∀ k', _ := fun k' => setIf_has a .jrRaise k' v1 t1
  have x1 : ∀ k', CKey.jrRaise ≠ k' → Blank k' a → _ := fun k' h => nif a .jrRaise k' v1 t1 (Or.inl h)
  generalize (a.addUnitSetIf .jrRaise v1 t1) = b1 at *
  simp only [step hok] at hok ⊢
  have q2 := nan b1.1 .jrRaiseBdu v2 (t2 b1.1)
  have u2 : ∀ k', _ := fun k' => setIf_has b1.1 .jrRaiseBdu k' v2 (t2 b1.1)
  have x2 : ∀ k', (CKey.jrRaiseBdu ≠ k' ∨ v2 = false) → Blank k' b1.1 → _ := fun k' h => nif b1.1 .jrRaiseBdu k' v2 (t2 b1.1) h
  generalize (b1.1.addUnitSetIf .jrRaiseBdu v2 (t2 b1.1)) = b2 at *
  simp only [step hok] at hok ⊢
  have q3 := nan b2.1 .jrLower v3 (t3 b2.1)
  have u3 : ∀ k', _ := fun k' => setIf_has b2.1 .jrLower k' v3 (t3 b2.1)
  have x3 : ∀ k', CKey.jrLower ≠ k' → Blank k' b2.1 → _ := fun k' h => nif b2.1 .jrLower k' v3 (t3 b2.1) (Or.inl h)
  generalize (b2.1.addUnitSetIf .jrLower v3 (t3 b2.1)) = b3 at *
  simp only [step hok] at hok ⊢
  have q4 := nan b3.1 .jrLowerBdu v4 (t4 b3.1)
  have u4 : ∀ k', _ := fun k' => setIf_has b3.1 .jrLowerBdu k' v4 (t4 b3.1)
  have x4 : ∀ k', (CKey.jrLowerBdu ≠ k' ∨ v4 = false) → Blank k' b3.1 → _ := fun k' h => nif b3.1 .jrLowerBdu k' v4 (t4 b3.1) h
  generalize (b3.1.addUnitSetIf .jrLowerBdu v4 (t4 b3.1)) = b4 at *
  simp only [step hok] at hok ⊢
  have hasR : b4.1.unitCon.has .jrRaiseBdu = v2 := by
    rw [u4, if_neg (by simp), u3, if_neg (by simp), u2, if_pos rfl, u1, if_neg (by simp), has0.1, Bool.or_false]
  have hasL : b4.1.unitCon.has .jrLowerBdu = v4 := by
    rw [u4, if_pos rfl, u3, if_neg (by simp), u2, if_neg (by simp), u1, if_neg (by simp), has0.2, Bool.or_false]
  obtain ⟨p1, p2⟩ := elastic_present (by rw [q4, q3, q2, q1, hn]) (k1 := .jrRaise) (k2 := .jrLower) hok (K := jrKeys v2 v4)
    (by rw [hasR, hasL]; rfl)
  have p2' : (b4.1.elasticJr (some vc)).1 = _ := p2
  refine ⟨rfl, p1, p2, ?_, ?_⟩
  · rintro rfl
    rw [p2']
    refine Blank.elastics (x4 _ (Or.inl (by simp)) (x3 _ (by simp) (x2 _ (Or.inr rfl) (x1 _ (by simp) hno.1)))) ?_ vc
    cases v4 <;> simp [jrKeys]
  · rintro rfl
    rw [p2']
    refine Blank.elastics (x4 _ (Or.inr rfl) (x3 _ (by simp) (x2 _ (Or.inl (by simp)) (x1 _ (by simp) hno.2)))) ?_ vc
    cases v2 <;> simp [jrKeys]

/-- whether there are rows for bidirectional units -/
def bduRows (m : Market) (rs : List RampRow) (s : Service) (rate : RampRow → ℚ) : Bool :=
  !(bidirectional m.bidi (regRates (m.bids.getD []) s rs rate)).isEmpty

theorem jr_several (m : Market) (rs : List RampRow) (ps : Option (List FsRamp)) (vc : VCost) :
    Several [.bids] m (.jointRamping rs ps .noFastStart (some vc)) (.jointRamping rs ps .noFastStart none)
      (jrKeys (bduRows m rs .raiseReg (·.up)) (bduRows m rs .lowerReg (·.down))) vc := by
  intro a hu _ hbids hno hok
  have hn := step_ok hok
  have hbi : a.bidi = m.bidi := by unfold Market.bidi; rw [hu]
  have hbids := hbids (by simp) (by simp [Op.parts])
  simp only [Market.step, hn, Market.setJointRamping, Bool.false_eq_true, if_false, adjustForFastStart] at hok ⊢
  split at hok
  · simp at hok
  rename_i c1
  split at hok
  · simp at hok
  rename_i c2
  split at hok
  · simp at hok
  rename_i vars hv
  simp only [c1, c2, Bool.false_eq_true, if_false]
  have k2 : bduRows m rs .raiseReg (·.up) = !((regRates vars .raiseReg rs (·.up)).filter (fun r => decide (r.unit ∈ a.bidi))).isEmpty := by
    unfold bduRows bidirectional; rw [← hbids, hv, hbi]; rfl
  have k4 : bduRows m rs .lowerReg (·.down) = !((regRates vars .lowerReg rs (·.down)).filter (fun r => decide (r.unit ∈ a.bidi))).isEmpty := by
    unfold bduRows bidirectional; rw [← hbids, hv, hbi]; rfl
  rw [k2, k4]
  obtain ⟨p1, p2, p3, p4, p5⟩ := jr_chain hn ⟨hno .jrRaiseBdu (by simp [Op.parts]), hno .jrLowerBdu (by simp [Op.parts])⟩ _ _ _ _ _
    (fun m => jrRaiseRegBdu ((regRates vars .raiseReg rs (·.up)).filter (fun r => decide (r.unit ∈ a.bidi))) m.di m.nextCon)
    (fun m => jrLowerReg ((regRates vars .lowerReg rs (·.down)).filter (fun r => decide (r.unit ∉ a.bidi))) m.di m.nextCon)
    (fun m => jrLowerRegBdu ((regRates vars .lowerReg rs (·.down)).filter (fun r => decide (r.unit ∈ a.bidi))) m.di m.nextCon) vc rfl hok
  refine ⟨p1, p2, p3, ?_⟩
  intro k hk hnk
  simp only [Op.parts, List.mem_cons, Part.set.injEq, List.not_mem_nil, or_false] at hk
  rcases hk with rfl | rfl | rfl | rfl
  · simp [jrKeys] at hnk
  · refine p4 ?_
    by_contra hc
    rw [Bool.not_eq_false] at hc
    rw [hc] at hnk
    simp [jrKeys] at hnk
  · simp [jrKeys] at hnk
  · refine p5 ?_
    by_contra hc
    rw [Bool.not_eq_false] at hc
    rw [hc] at hnk
    simp [jrKeys] at hnk

theorem jr_rows_ne {rs : List RegRate} {di : ℚ} {n : Nat} {g l : JrSettings} (hg : g.ctype ≠ .other) (hl : l.ctype ≠ .other) (h : rs ≠ []) :
    (jrConstructor rs di n g l).1 ≠ [] := by
  obtain ⟨r, hr⟩ := List.exists_mem_of_ne_nil _ h
  obtain ⟨i, _, hm⟩ := mem_saveIndex' hr n (fun i r => (i, r))
  intro hc
  have := (jr_entries rs di n g l hg hl).rows
  rw [hc] at this
  have hnil := this.symm.eq_nil
  rw [List.map_eq_nil_iff, List.append_eq_nil_iff, List.map_eq_nil_iff, List.map_eq_nil_iff] at hnil
  cases hd : r.dtype with
  | generator => exact List.filter_eq_nil_iff.1 hnil.1 _ hm (by simp [hd])
  | load => exact List.filter_eq_nil_iff.1 hnil.2 _ hm (by simp [hd])

theorem MadeBy.jr_absent {ops : List Op} {m : Market} (h : MadeBy ops m) {rs : List RampRow} {ps : Option (List FsRamp)} {vc : VCost}
    (ho : Op.jointRamping rs ps .noFastStart (some vc) ∈ ops) {k : CKey} (hk : k = .jrRaise ∨ k = .jrLower)
    (he : ordinary m.bidi (regRates (m.bids.getD []) (if k = .jrRaise then .raiseReg else .lowerReg) rs (if k = .jrRaise then (·.up) else (·.down))) = []) :
    m.conRhs.get? k = none := by
  refine h.absent ho (by rcases hk with rfl | rfl <;> simp [Op.parts]) (fun a hok hu hk' hsame => ?_)
  have hbids : a.bids = m.bids := by
    have := hsame .bids (by simp [Op.parts]) (fun r u d m0 a' h0 hs hok => jr_needs_bids h0 hs hok)
    simp only [SamePart] at this
    exact this.1.symm
  have hbi : a.bidi = m.bidi := by unfold Market.bidi; rw [hu]
  refine jr_notStored hk' (step_ok hok) ?_ (fun e => by rcases hk with rfl | rfl <;> cases e) ?_ (fun e => by rcases hk with rfl | rfl <;> cases e)
  · rintro rfl
    rw [hbids, hbi]
    simpa [ordinary] using he
  · rintro rfl
    rw [hbids, hbi]
    simpa [ordinary] using he

theorem ordinary_apart (bidi : List String) (rs : List RegRate) : ∀ q ∈ ordinary bidi rs, q.unit ∉ bidi := by
  intro q hq
  simpa using (List.mem_filter.1 hq).2

/-- what the set of bidirectional units adds to the objective, if it is there -/
theorem bduPieces {m : Market} (hw : WF m) {rs : List RampRow} (hn : (rs.map (·.unit)).Nodup) {s : Service} (hs : s ≠ .energy)
    {rate : RampRow → ℚ} {k : CKey} (hk : k.isUnit = true) {c : ℚ} (hc : 0 ≤ c) {ct : CType} (hct : ct ≠ .other) {sgn : ℚ}
    (hi : bduRows m rs s rate = true → InForce (.elastic k (.num c)) m)
    (hst : bidirectional m.bidi (regRates (m.bids.getD []) s rs rate) ≠ [] → ∃ n,
      m.conRhs.get? k = some (jrBdu (bidirectional m.bidi (regRates (m.bids.getD []) s rs rate)) m.di n ct sgn).1 ∧
      m.unitCon.get? k = some (jrBdu (bidirectional m.bidi (regRates (m.bids.getD []) s rs rate)) m.di n ct sgn).2) :
    ∃ L : List Piece, (∀ p ∈ L, SoftPiece m p) ∧ L.map Piece.key = (if bduRows m rs s rate then [k] else []) ∧
      ∀ x, (L.map (fun p => m.violationCost p.key p.vc x)).sum =
        c * (rs.map (fun r => if r.unit ∈ m.bidi ∧ (m.bidding r.unit s .generator || m.bidding r.unit s .load) = true then
          ct.violation (m.regEnergy x r.unit s + sgn * (m.dispatched x r.unit s .generator + m.dispatched x r.unit s .load))
            (r.init + sgn * (rate r * m.di / 60)) else 0)).sum := by
  by_cases he : bidirectional m.bidi (regRates (m.bids.getD []) s rs rate) = []
  · refine ⟨[], by simp, by simp [bduRows, he], fun x => ?_⟩
    rw [← jrBdu_sum hw hs hn 0, he]
    simp [dropDup, saveIndex]
  · have hr : bduRows m rs s rate = true := by simp [bduRows, he]
    obtain ⟨n, h1, h2⟩ := hst he
    have hne : (jrBdu (bidirectional m.bidi (regRates (m.bids.getD []) s rs rate)) m.di n ct sgn).1 ≠ [] := by
      obtain ⟨q, hq⟩ := List.exists_mem_of_ne_nil _ he
      obtain ⟨q', hq', _⟩ := exists_dropDup (key := RegRate.unit) hq
      obtain ⟨i, _, hm⟩ := mem_saveIndex' hq' n (fun i r => (i, r))
      intro hc
      simp only [jrBdu, List.map_eq_nil_iff] at hc
      rw [hc] at hm
      simp at hm
    obtain ⟨kk, p1, q1⟩ := unitPiece hw hk (hi hr) hc (jrBdu_entries _ _ _ _ _ hct) h1 h2 hne
    refine ⟨[⟨k, .num c, kk⟩], by simpa using p1, by simp [hr], fun x => ?_⟩
    simp only [List.map_cons, List.map_nil, List.sum_cons, List.sum_nil, add_zero, q1]
    rw [jrBdu_sum hw hs hn n]

theorem MadeBy.jr_priced_plain {ops : List Op} {m : Market} (h : MadeBy ops m) {rs : List RampRow}
    {ps : Option (List FsRamp)} {c : ℚ} (ho : Op.jointRamping rs ps .noFastStart (some (.num c)) ∈ ops) (hc : 0 ≤ c) :
    ∃ L, PricedBy m ops (.jointRamping rs ps .noFastStart (some (.num c))) L := by
  obtain ⟨⟨m1, i1, i2, i3, i3', i4, a, a1, _, a2, a3⟩, hk, hno⟩ := several_before h ho [.bids] (by
      intro p hp r u d m0 a h0 hs hok
      rw [List.mem_singleton] at hp
      subst hp
      exact jr_needs_bids h0 hs hok)
    (jr_several m rs ps (.num c)) rfl (fun k hk => jrKeys_parts hk _ _ _ _) (jrKeys_nodup _ _) (fun a ha => ha)
  obtain ⟨_, hnd, _, ord, ho', hr, hrb, hl, hlb⟩ := jr_imposed i1
  have hb1 : m1.bidi = m.bidi := by unfold Market.bidi; rw [i2]
  have hbids := i3' (by simp) (by simp [Op.parts])
  simp only [adjustForFastStart, Except.ok.injEq] at ho'
  subst ho'
  rw [hb1, hbids, i3] at hr hl hrb hlb
  have stored : ∀ k, InForce (.elastic k (.num c)) m → k.isUnit = true → m.conRhs.get? k ≠ none := by
    intro k hi hu hc
    obtain ⟨b, hb, hm, hok, hsb, hs⟩ := hi.unpack
    have hn := step_ok hok
    have hs := hs (.set k) (by simp [Op.parts])
    have e1 := (elastic_tables' b k (.num c)).1
    rw [show m.conRhs.get? k = ((b.step (.elastic k (.num c))).1).conRhs.get? k from (show SameSet k _ m from hs).conRhs, e1] at hc
    have e2 : b.rowsOf k = none := by unfold Market.rowsOf; rw [noMkt hb (isUnit_not_market hu), hc]
    simp [Market.step, hn, Market.makeElastic, e2] at hok
  have nr : ordinary m.bidi (regRates (m.bids.getD []) .raiseReg rs (·.up)) ≠ [] := fun e =>
    stored _ (hk .jrRaise (by simp [jrKeys])) rfl (h.jr_absent ho (Or.inl rfl) (by simpa using e))
  have nl : ordinary m.bidi (regRates (m.bids.getD []) .lowerReg rs (·.down)) ≠ [] := fun e =>
    stored _ (hk .jrLower (by simp [jrKeys])) rfl (h.jr_absent ho (Or.inr rfl) (by simpa using e))
  obtain ⟨n1, hr⟩ := hr nr
  obtain ⟨n2, hl⟩ := hl nl
  obtain ⟨u1, u2, _⟩ := i4 .jrRaise (by simp [Op.parts])
  obtain ⟨d1, d2, _⟩ := i4 .jrLower (by simp [Op.parts])
  obtain ⟨ub1, ub2, _⟩ := i4 .jrRaiseBdu (by simp [Op.parts])
  obtain ⟨db1, db2, _⟩ := i4 .jrLowerBdu (by simp [Op.parts])
  obtain ⟨k1, p1, q1⟩ := unitPiece h.wf (k := .jrRaise) rfl (hk _ (by simp [jrKeys])) hc (jr_entries _ _ _ _ _ (by simp) (by simp)) (u1.trans hr.rhs)
    (u2.trans hr.map) (jr_rows_ne (by simp) (by simp) nr)
  obtain ⟨k2, p2, q2⟩ := unitPiece h.wf (k := .jrLower) rfl (hk _ (by simp [jrKeys])) hc (jr_entries _ _ _ _ _ (by simp) (by simp)) (d1.trans hl.rhs)
    (d2.trans hl.map) (jr_rows_ne (by simp) (by simp) nl)
  obtain ⟨L3, s3, e3, c3⟩ := bduPieces h.wf hnd (s := .raiseReg) (by simp) (rate := (·.up)) (k := .jrRaiseBdu) rfl hc (ct := .le) (by simp) (sgn := 1)
    (fun hv => hk _ (by rw [hv]; simp [jrKeys]))
    (fun hne => by obtain ⟨n, hi⟩ := hrb hne; exact ⟨n, ub1.trans hi.rhs, ub2.trans hi.map⟩)
  obtain ⟨L4, s4, e4, c4⟩ := bduPieces h.wf hnd (s := .lowerReg) (by simp) (rate := (·.down)) (k := .jrLowerBdu) rfl hc (ct := .ge) (by simp) (sgn := -1)
    (fun hv => hk _ (by rw [hv]; cases bduRows m rs .raiseReg (·.up) <;> simp [jrKeys]))
    (fun hne => by obtain ⟨n, hi⟩ := hlb hne; exact ⟨n, db1.trans hi.rhs, db2.trans hi.map⟩)
  have hkeys : (([⟨.jrRaise, .num c, k1⟩, ⟨.jrLower, .num c, k2⟩] : List Piece) ++ (L3 ++ L4)).map Piece.key =
      jrKeys (bduRows m rs .raiseReg (·.up)) (bduRows m rs .lowerReg (·.down)) := by
    rw [List.map_append, List.map_append, e3, e4]; rfl
  refine ⟨[⟨.jrRaise, .num c, k1⟩, ⟨.jrLower, .num c, k2⟩] ++ (L3 ++ L4), ?_, ?_, ?_, ?_, ?_⟩
  · intro p hp
    simp only [List.mem_append, List.mem_cons, List.not_mem_nil, or_false] at hp
    rcases hp with (rfl | rfl) | hp | hp
    · exact p1
    · exact p2
    · exact s3 p hp
    · exact s4 p hp
  · intro p hp
    refine jrKeys_parts (v2 := bduRows m rs .raiseReg (·.up)) (v4 := bduRows m rs .lowerReg (·.down)) ?_ _ _ _ _
    rw [← hkeys]
    exact List.mem_map_of_mem hp
  · rw [hkeys]
    exact jrKeys_nodup _ _
  · intro k hk hn
    rw [hkeys] at hn
    obtain ⟨_, b, c, d⟩ := hno k hk hn
    exact ⟨b, d, c⟩
  · intro x
    rw [List.map_append, List.map_append, List.sum_append, List.sum_append, c3, c4]
    simp only [List.map_cons, List.map_nil, List.sum_cons, List.sum_nil, q1, q2]
    rw [jr_sum h.wf (ordinary_apart _ _) _ _ ⟨.le, 1, 1, .raiseReg⟩ ⟨.ge, -1, -1, .raiseReg⟩ rfl,
      jr_sum h.wf (ordinary_apart _ _) _ _ ⟨.ge, -1, -1, .lowerReg⟩ ⟨.le, 1, 1, .lowerReg⟩ rfl]
    unfold ordinary
    rw [sum_filter_list, sum_filter_list, regRates_sum, regRates_sum, add_zero, ← mul_add, ← mul_add, ← mul_add, ← sum_map_add, ← sum_map_add, ← sum_map_add,
      ← sum_map_mul_left]
    simp only [Op.misses, sum_map_flatMap, upLimit, downLimit, Option.toList_some, List.map_cons, List.map_nil]
    apply sum_map_congr
    intro r _
    have one : ∀ (b : Bool) (w : ℚ), ((if b = true then [(c, w)] else []).map (fun a : ℚ × ℚ => a.1 * a.2)).sum = if b = true then c * w else 0 := by
      intro b w
      cases b <;> simp
    have hd : ¬ DType.load = DType.generator := by decide
    by_cases hb : r.unit ∈ m.bidi
    · rw [if_pos hb, List.map_append, List.sum_append, one, one]
      simp only [hb, not_true_eq_false, decide_false, Bool.false_eq_true, if_false, ite_self, add_zero, zero_add, true_and, CType.violation]
      rw [mul_add, mul_ite, mul_ite, mul_zero]
      congr 3
      · congr 1; ring
      · congr 1; ring
    · rw [if_neg hb, List.map_append, List.map_append, List.map_append, List.sum_append, List.sum_append, List.sum_append, one, one, one, one]
      simp only [hb, not_false_eq_true, decide_true, if_true, if_neg hd, false_and, if_false, add_zero, CType.violation]
      rw [mul_add, mul_add, mul_add, ← add_assoc]
      simp only [mul_ite, mul_zero]
      congr 1
      · congr 1
        · congr 1
          · congr 3; ring
          · congr 3; ring
        · congr 3; ring
      · congr 3; ring

/-- what the adjustment leaves alone -/
theorem ord_sum_plain {rs ord : List RampRow} {rt : RunType} {ps : Option (List FsRamp)} {di : ℚ}
    (hn : ∀ p, rt ≠ .noFastStart → ps = some p → (p.map (·.unit)).Nodup)
    (h : adjustForFastStart rs rt ps di = .ok ord) (G : RampRow → ℚ)
    (hG : ∀ r ∈ rs, ∀ v w, rt = .noFastStart ∨ (∀ p ∈ ps.getD [], p.unit ≠ r.unit) ∨ G { r with up := v, down := w } = 0) :
    (ord.map G).sum = (rs.map G).sum := by
  cases rt with
  | other => simp [adjustForFastStart] at h
  | noFastStart =>
    simp only [adjustForFastStart, Except.ok.injEq] at h
    subst h
    rfl
  | first =>
    cases ps with
    | none => simp [adjustForFastStart] at h
    | some ps =>
      have hn := hn ps (by simp) rfl
      simp only [adjustForFastStart, Except.ok.injEq] at h
      subst h
      simp only [removeStarting012, sum_filter_list, removed_iff hn FsRamp.curMode]
      apply sum_map_congr
      intro r hr
      rcases hG r hr r.up r.down with h | h | h
      · cases h
      · have : ps.find? (fun p => decide (p.unit = r.unit)) = none := by
          rw [List.find?_eq_none]; intro p hp; simpa using h p hp
        rw [this]; simp
      · have h : G r = 0 := h
        simp [h]
  | second =>
    cases ps with
    | none => simp [adjustForFastStart] at h
    | some ps =>
      have hn := hn ps (by simp) rfl
      simp only [adjustForFastStart, Except.ok.injEq] at h
      subst h
      rw [sum_perm (modeThreeFour_perm (rs := removeEnding012 rs ps) hn di)]
      simp only [List.map_map, removeEnding012, sum_filter_list, removed_iff hn FsRamp.endMode]
      apply sum_map_congr
      intro r hr
      simp only [Function.comp, startedRow]
      rcases hG r hr r.up r.down with h | h | h
      · cases h
      · have : ps.find? (fun p => decide (p.unit = r.unit)) = none := by
          rw [List.find?_eq_none]; intro p hp; simpa using h p hp
        rw [this]; simp
      · have h : G r = 0 := h
        rw [h]
        cases hf : ps.find? (fun p => decide (p.unit = r.unit)) with
        | none => simp [h]
        | some p =>
          cases hs : p.since with
          | none => simp [hs, h]
          | some s =>
            rcases hG r hr (adjustedUp di r p.minLoading s) r.down with h' | h' | h'
            · cases h'
            · exact absurd (by simpa using List.find?_some hf) (h' p (List.mem_of_find?_eq_some hf))
            · simp [hs]; intro _; exact h'

theorem MadeBy.jr_priced {ops : List Op} {m : Market} (h : MadeBy ops m) {rs : List RampRow} {rt : RunType}
    {ps : Option (List FsRamp)} {c : ℚ} (ho : Op.jointRamping rs ps rt (some (.num c)) ∈ ops) (hc : 0 ≤ c) :
    ∃ L, PricedBy m ops (.jointRamping rs ps rt (some (.num c))) L := by
  have hdi : m.di ≠ 0 := h.di ho (fun a ha => ha)
  have hs := h.oneWay _ ho
  obtain ⟨ord, ops', o1, o2, h', ho', _⟩ := h.jrPlain ho
  obtain ⟨L, p1, p2, p3, p4, p5⟩ := h'.jr_priced_plain ho' hc
  refine ⟨L, p1, p2, p3, p4, fun x => ?_⟩
  rw [p5]
  have hload : ∀ r ∈ rs, r.unit ∉ m.bidi → ∀ s, (rt = .noFastStart ∨ (∀ p ∈ ps.getD [], p.unit ≠ r.unit)) ∨ m.bidding r.unit s .load = false := by
    intro r hr hb s
    by_cases hc : ∀ p ∈ ps.getD [], p.unit ≠ r.unit
    · exact Or.inl (Or.inr hc)
    rcases hs r hr hb with e | e
    · exact Or.inl (Or.inl e)
    · right
      push Not at hc
      obtain ⟨p, hp, hpu⟩ := hc
      unfold Market.bidding
      rw [List.any_eq_false]
      intro b hb
      simp only [decide_eq_true_eq]
      rintro ⟨h1, _, h3⟩
      have := e p hp hpu b hb h1
      rw [h3] at this
      cases this
  have fold : ∀ (b : Bool) (l : List ℚ) (f : ℚ → ℚ), ((if b = true then l.map (fun L => (c, f L)) else []).map (fun a : ℚ × ℚ => a.1 * a.2)).sum =
      (l.map (fun L => if b = true then c * f L else 0)).sum := by
    intro b l f
    cases b
    · simp
    · simp [Function.comp_def]
  have one : ∀ (b : Bool) (v : ℚ), ((if b = true then [(c, v)] else []).map (fun a : ℚ × ℚ => a.1 * a.2)).sum = if b = true then c * v else 0 := by
    intro b v; cases b <;> simp
  have split : ∀ (u : String) (A B : List (ℚ × ℚ)), ((if u ∈ m.bidi then A else B).map (fun a : ℚ × ℚ => a.1 * a.2)).sum =
      (if u ∈ m.bidi then (A.map (fun a : ℚ × ℚ => a.1 * a.2)).sum else 0) + (if ¬ u ∈ m.bidi then (B.map (fun a : ℚ × ℚ => a.1 * a.2)).sum else 0) := by
    intro u A B
    by_cases h : u ∈ m.bidi <;> simp [h]
  have iteAdd : ∀ (P : Prop) [Decidable P] (A B : ℚ), (if P then A + B else 0) = (if P then A else 0) + (if P then B else 0) := by
    intro P _ A B
    by_cases h : P <;> simp [h]
  have iteSum : ∀ (P : Prop) [Decidable P] (l : List ℚ) (f : ℚ → ℚ), (if P then (l.map f).sum else 0) = (l.map (fun L => if P then f L else 0)).sum := by
    intro P _ l f
    by_cases h : P <;> simp [h]
  simp only [Op.misses, sum_map_flatMap, split, List.map_append, List.sum_append, iteAdd, fold, one, iteSum, sum_map_add]
  have u1 := (ord_sum o2 hdi o1 (fun u _ L => if ¬ u ∈ m.bidi then (if m.bidding u .raiseReg .generator = true then
      c * max 0 (m.output x u .energy .generator + m.output x u .raiseReg .generator - L) else 0) else 0)).1
  have u2 := (ord_sum o2 hdi o1 (fun u _ L => if ¬ u ∈ m.bidi then (if m.bidding u .lowerReg .generator = true then
      c * max 0 (L - (m.output x u .energy .generator - m.output x u .lowerReg .generator)) else 0) else 0)).2
  have u3 := (ord_sum o2 hdi o1 (fun u _ L => if u ∈ m.bidi then (if (m.bidding u .raiseReg .generator || m.bidding u .raiseReg .load) = true then
      c * max 0 (m.regEnergy x u .raiseReg + (m.dispatched x u .raiseReg .generator + m.dispatched x u .raiseReg .load) - L) else 0) else 0)).1
  have u4 := (ord_sum o2 hdi o1 (fun u _ L => if u ∈ m.bidi then (if (m.bidding u .lowerReg .generator || m.bidding u .lowerReg .load) = true then
      c * max 0 (L - (m.regEnergy x u .lowerReg - (m.dispatched x u .lowerReg .generator + m.dispatched x u .lowerReg .load))) else 0) else 0)).2
  have v1 := ord_sum_plain o2 o1 (fun r => if ¬ r.unit ∈ m.bidi then (if m.bidding r.unit .raiseReg .load = true then
      c * max 0 (r.init - r.up * (m.di / 60) - (m.output x r.unit .energy .load - m.output x r.unit .raiseReg .load)) else 0) else 0) (by
    intro r hr v w
    by_cases hb : r.unit ∈ m.bidi
    · right; right; simp [hb]
    rcases hload r hr hb .raiseReg with (e | e) | e
    · exact Or.inl e
    · exact Or.inr (Or.inl e)
    · right; right; simp [e])
  have v2 := ord_sum_plain o2 o1 (fun r => if ¬ r.unit ∈ m.bidi then (if m.bidding r.unit .lowerReg .load = true then
      c * max 0 (m.output x r.unit .energy .load + m.output x r.unit .lowerReg .load - (r.init + r.down * (m.di / 60))) else 0) else 0) (by
    intro r hr v w
    by_cases hb : r.unit ∈ m.bidi
    · right; right; simp [hb]
    rcases hload r hr hb .lowerReg with (e | e) | e
    · exact Or.inl e
    · exact Or.inr (Or.inl e)
    · right; right; simp [e])
  rw [← u1, ← u2, ← u3, ← u4, ← v1, ← v2]
  simp [upLimit, downLimit]

end Verif
