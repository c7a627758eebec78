import Verif.Spec.Tie
import Verif.Proofs.Reads
import Verif.Proofs.Bids
import Verif.Proofs.Demo
import Mathlib.Tactic.NormNum

/-!
# C27: tie break constraints
-/

namespace Verif

theorem tieBreak_set {c : ℚ} {m : Market} (h : InForceKeeping [.bids, .prices] (.tieBreak c) m) :
    ∃ n, m.tieLhs = some (tieConstraints (tiePairs (tieBids (m.bidCost.getD []) (m.bids.getD []) m.units)) n).1 ∧
      m.conRhs.get? .tieBreak = some (tieConstraints (tiePairs (tieBids (m.bidCost.getD []) (m.bids.getD []) m.units)) n).2 := by
  obtain ⟨a, ha, hm, hok, hb, hs, hk⟩ := h.unpack
  have hn := step_ok hok
  have hs := hs (.set .tieBreak) (by simp [Op.parts])
  have hk1 := hk .bids (by simp) (by simp [Op.parts])
  have hk2 := hk .prices (by simp) (by simp [Op.parts])
  simp only [SamePart] at hs hk1 hk2
  have h1 := hs.tie rfl
  have h2 := hs.conRhs
  simp only [Market.step, hn, Market.setTieBreak, Bool.false_eq_true, if_false] at hok h1 h2
  cases hc : a.bidCost with
  | none => simp [hc] at hok
  | some costs =>
  cases hv : a.bids with
  | none => simp [hc, hv] at hok
  | some vars =>
    simp only [hc, hv] at hok h1 h2
    by_cases c1 : (tiePairs (tieBids costs vars a.units)).isEmpty = true
    · rw [if_pos c1] at hok; simp at hok
    rw [if_neg c1] at h1 h2
    refine ⟨a.nextCon, ?_, ?_⟩
    · rw [h1, hk2, hk1.1, hc, hv, hb.2.1]
      simp only [Option.getD_some]
      unfold Market.makeElastic
      split
      · rfl
      split
      · rfl
      split
      · rfl
      dsimp only
      split <;> rfl
    · rw [h2, hk2, hk1.1, hc, hv, hb.2.1]
      simp only [Option.getD_some]
      unfold Market.makeElastic
      split
      · exact Dict.get?_set_self _ _ _
      split
      · exact Dict.get?_set_self _ _ _
      split
      · exact Dict.get?_set_self _ _ _
      dsimp only
      split <;> exact Dict.get?_set_self _ _ _

/-- with a reported violation of zero all violation variables of the set are zero -/
theorem deficits_zero {m : Market} {k : CKey} {lp : Lp} (hl : m.assemble = .ok lp) {x : Nat → ℚ} (hx : Feasible lp x)
    (hz : m.violationDegree x k = 0) : ∀ v ∈ m.deficitVids k, x v = 0 := by
  intro v hv
  unfold Market.violationDegree at hz
  unfold Market.deficitVids at hv
  cases hd : m.deficits.get? k with
  | none => rw [hd] at hv; simp at hv
  | some d =>
    rw [hd] at hz hv
    simp only [Option.elim] at hz hv
    have hnn : ∀ w ∈ d.1, 0 ≤ x w.vid := by
      intro w hw
      have : LVar.mk w.vid 0 none ∈ lp.vars := by
        rw [(assemble_parts hl).1]
        simp only [Market.allVars, List.mem_append, List.mem_flatMap, List.mem_map]
        exact Or.inr ⟨_, Dict.mem_of_get? hd, w, hw, rfl⟩
      exact (hx.vars _ this).1
    obtain ⟨w, hw, rfl⟩ := List.mem_map.1 hv
    have hle : x w.vid ≤ (d.1.map (fun v => x v.vid)).sum := by
      have : ∀ l : List DefVar, w ∈ l → (∀ u ∈ l, 0 ≤ x u.vid) → x w.vid ≤ (l.map (fun v => x v.vid)).sum := by
        intro l
        induction l with
        | nil => intro h; simp at h
        | cons a l ih =>
          intro hw h0
          have h1 : 0 ≤ (l.map (fun v => x v.vid)).sum := sum_map_nonneg _ _ (fun u hu => h0 u (List.mem_cons_of_mem _ hu))
          simp only [List.map_cons, List.sum_cons]
          rcases List.mem_cons.1 hw with rfl | hw
          · linarith
          · have := ih hw (fun u hu => h0 u (List.mem_cons_of_mem _ hu))
            have := h0 a (List.mem_cons_self ..)
            linarith
      exact this d.1 hw hnn
    have := hnn w hw
    linarith

theorem mem_bidCosts {m : Market} {ps : List BidRow} {a : BidVar} (ha : a ∈ m.bids.getD []) {pa fa : ℚ}
    (hp : priceOf ps a.unit a.service a.dtype a.band = some pa) (hf : lossFactor m.units a.unit a.dtype = some fa)
    (he : a.service = .energy) :
    (⟨a.vid, a.unit, .energy, a.dtype, a.band, (if a.dtype = .load then -1 * pa else pa) / fa⟩ : BidCost) ∈
      scaleByLossFactors (bidCosts (m.bids.getD []) ps) m.units := by
  unfold priceOf at hp
  unfold lossFactor at hf
  cases h1 : ps.find? (fun p => decide (p.unit = a.unit ∧ p.service = a.service ∧ p.dtype = a.dtype)) with
  | none => rw [h1] at hp; simp at hp
  | some p =>
  rw [h1] at hp
  simp only [Option.bind_some, Option.map_eq_some_iff] at hp
  obtain ⟨b, hb, rfl⟩ := hp
  simp only [Option.map_eq_some_iff] at hf
  obtain ⟨u, hu, rfl⟩ := hf
  have q1 := List.mem_of_find?_eq_some h1
  have q2 := List.find?_some h1
  have q3 := List.mem_of_find?_eq_some hb
  have q4 := List.find?_some hb
  have q5 := List.mem_of_find?_eq_some hu
  have q6 := List.find?_some hu
  unfold scaleByLossFactors
  refine List.mem_flatMap.2 ⟨⟨a.vid, a.unit, a.service, a.dtype, a.band, if a.dtype = .load ∧ a.service = .energy then -1 * b.2 else b.2⟩,
    ?_, List.mem_map.2 ⟨u, List.mem_filter.2 ⟨q5, q6⟩, ?_⟩⟩
  · unfold bidCosts
    exact List.mem_flatMap.2 ⟨a, ha, List.mem_flatMap.2 ⟨p, List.mem_filter.2 ⟨q1, q2⟩, List.mem_map.2 ⟨b, List.mem_filter.2 ⟨q3, q4⟩, rfl⟩⟩⟩
  · simp [he]

/-- entries of the cost table belong to bids -/
theorem of_mem_bidCosts {vars : List BidVar} {ps : List BidRow} {units : List UnitInfo} {c : BidCost}
    (h : c ∈ scaleByLossFactors (bidCosts vars ps) units) :
    ∃ v ∈ vars, c.vid = v.vid ∧ c.unit = v.unit ∧ c.service = v.service ∧ c.dtype = v.dtype ∧ c.band = v.band := by
  unfold scaleByLossFactors at h
  obtain ⟨c0, h0, h⟩ := List.mem_flatMap.1 h
  obtain ⟨u, _, rfl⟩ := List.mem_map.1 h
  unfold bidCosts at h0
  obtain ⟨v, hv, h0⟩ := List.mem_flatMap.1 h0
  obtain ⟨p, _, h0⟩ := List.mem_flatMap.1 h0
  obtain ⟨b, _, rfl⟩ := List.mem_map.1 h0
  exact ⟨v, hv, rfl, rfl, rfl, rfl, rfl⟩

theorem bids_vid_inj {m : Market} (hw : VarWF m) {a b : BidVar} (ha : a ∈ m.bids.getD []) (hb : b ∈ m.bids.getD [])
    (h : a.vid = b.vid) : a = b := by
  have hn : ((m.bids.getD []).map BidVar.vid).Nodup := by
    rw [List.nodup_iff_count_le_one]
    intro i
    have := (hw i).1
    rw [← vcount_eq] at this
    simp only [Market.allVars, List.map_append, List.count_append, List.map_map, Function.comp_def] at this
    have e : (m.bids.getD []).map BidVar.vid = (m.bids.getD []).map (fun v => v.vid) := rfl
    rw [e]
    omega
  exact List.inj_on_of_nodup_map hn ha hb h

/-- the row of a pair of tied bids -/
theorem tie_rowVal (l : List (TieBid × TieBid)) (n : Nat) (x : Nat → ℚ) {i : Nat} {p : TieBid × TieBid} (h : l[i]? = some p) :
    rowVal (tieConstraints l n).1 x (n + i) = x p.1.vid / p.1.ub - x p.2.vid / p.2.ub := by
  have key : ∀ (l : List (TieBid × TieBid)) (n i : Nat) (f : TieBid × TieBid → Nat × ℚ), l[i]? = some p →
      rowVal (saveIndex l n (fun i p => ({ cid := i, vid := (f p).1, coef := (f p).2 } : Term))) x (n + i) = (f p).2 * x (f p).1 := by
    intro l
    induction l with
    | nil => intro n i f h; simp at h
    | cons a l ih =>
      intro n i f h
      simp only [saveIndex]
      have e : ∀ (t : Term) (ts : List Term) (c : Nat), rowVal (t :: ts) x c = (if t.cid = c then t.coef * x t.vid else 0) + rowVal ts x c := by
        intro t ts c
        unfold rowVal
        by_cases hc : t.cid = c <;> simp [hc]
      rw [e]
      cases i with
      | zero =>
        simp only [List.getElem?_cons_zero, Option.some.injEq] at h
        subst h
        simp only [Nat.add_zero, if_true]
        rw [rowVal_zero, add_zero]
        intro t ht
        obtain ⟨j, q, _, rfl⟩ := mem_saveIndex.1 ht
        simp only; omega
      | succ i =>
        simp only [List.getElem?_cons_succ] at h
        have := ih (n + 1) i f h
        rw [show n + (i + 1) = n + 1 + i by omega, this, if_neg (by show n ≠ n + 1 + i; omega), zero_add]
  unfold tieConstraints
  rw [rowVal_append, key l n i (fun p => (p.1.vid, 1 / p.1.ub)) h, key l n i (fun p => (p.2.vid, -1 / p.2.ub)) h]
  simp only
  ring

/-- **C27** With tie break constraints and no violation of them, two tied bands are dispatched to the same fraction of their
volume.  What is missing: pairs whose name clashes with another pair (see `C27_negation`). -/
theorem C27_tied_bids_share_pro_rata_partial {ps : List BidRow} {c : ℚ} {m : Market} (hp : InForceKeeping [.bids] (.priceBids ps) m)
    (h : InForceKeeping [.bids, .prices] (.tieBreak c) m) {lp : Lp} (hl : m.assemble = .ok lp) {x : Nat → ℚ}
    (hx : Feasible lp x) (hz : m.violationDegree x .tieBreak = 0) {a b : BidVar} (ht : Tied m ps a b)
    (hn : NameUnique m a b) : x a.vid / a.ub = x b.vid / b.ub := by
  obtain ⟨hcost, _, hw⟩ := priceBids_cost hp
  obtain ⟨n, h1, h2⟩ := tieBreak_set h
  rw [hcost, Option.getD_some] at h1 h2
  obtain ⟨pa, pb, fa, fb, e1, e2, e3, e4, e5⟩ := ht.price
  obtain ⟨u, hu, w, hw', e6, e7, e8⟩ := ht.region
  have ma := mem_bidCosts ht.left (by rw [ht.energy.1]; exact e1) e3 ht.energy.1
  have mb := mem_bidCosts ht.right (by rw [ht.energy.2]; exact e2) e4 ht.energy.2
  generalize hcs : scaleByLossFactors (bidCosts (m.bids.getD []) ps) m.units = costs at *
  have ta : (⟨a.vid, a.unit, a.dtype, a.band, (if a.dtype = .load then -1 * pa else pa) / fa, a.ub, u.region⟩ : TieBid) ∈
      tieBids costs (m.bids.getD []) m.units := by
    unfold tieBids
    exact List.mem_flatMap.2 ⟨(_, a), List.mem_flatMap.2 ⟨_, List.mem_filter.2 ⟨ma, by simp⟩, List.mem_map.2
      ⟨a, List.mem_filter.2 ⟨ht.left, by simp⟩, rfl⟩⟩, List.mem_map.2 ⟨u, List.mem_filter.2 ⟨hu, by simpa using e6⟩, rfl⟩⟩
  have tb : (⟨b.vid, b.unit, b.dtype, b.band, (if b.dtype = .load then -1 * pb else pb) / fb, b.ub, w.region⟩ : TieBid) ∈
      tieBids costs (m.bids.getD []) m.units := by
    unfold tieBids
    exact List.mem_flatMap.2 ⟨(_, b), List.mem_flatMap.2 ⟨_, List.mem_filter.2 ⟨mb, by simp⟩, List.mem_map.2
      ⟨b, List.mem_filter.2 ⟨ht.right, by simp⟩, rfl⟩⟩, List.mem_map.2 ⟨w, List.mem_filter.2 ⟨hw', by simpa using e7⟩, rfl⟩⟩
  -- the pair is among the tied pairs before names are compared
  have hpair : ((⟨a.vid, a.unit, a.dtype, a.band, (if a.dtype = .load then -1 * pa else pa) / fa, a.ub, u.region⟩,
      ⟨b.vid, b.unit, b.dtype, b.band, (if b.dtype = .load then -1 * pb else pb) / fb, b.ub, w.region⟩) : TieBid × TieBid) ∈
      (tieBids costs (m.bids.getD []) m.units).flatMap (fun a => ((tieBids costs (m.bids.getD []) m.units).filter (fun b =>
        decide (b.cost = a.cost ∧ b.region = a.region ∧ b.dtype = a.dtype ∧ a.unit ≠ b.unit))).map (fun b => (a, b))) := by
    refine List.mem_flatMap.2 ⟨_, ta, List.mem_map.2 ⟨_, List.mem_filter.2 ⟨tb, decide_eq_true ?_⟩, rfl⟩⟩
    refine ⟨?_, e8.symm, ht.side.symm, ht.units⟩
    dsimp only
    rw [ht.side]
    split
    · rw [mul_div_assoc, mul_div_assoc, e5]
    · exact e5.symm
  obtain ⟨q, hq, hqn⟩ := exists_dropDup (key := fun p : TieBid × TieBid => tieName p.1 p.2) hpair
  -- every kept pair comes from bids
  have hbid : ∀ t ∈ tieBids costs (m.bids.getD []) m.units, ∃ v ∈ m.bids.getD [], t.vid = v.vid ∧ t.unit = v.unit ∧
      v.service = .energy ∧ t.dtype = v.dtype ∧ t.band = v.band ∧ t.ub = v.ub := by
    intro t ht
    unfold tieBids at ht
    obtain ⟨cv, hcv, ht⟩ := List.mem_flatMap.1 ht
    obtain ⟨c0, hc0, hcv⟩ := List.mem_flatMap.1 hcv
    obtain ⟨v, hv, rfl⟩ := List.mem_map.1 hcv
    obtain ⟨w, _, rfl⟩ := List.mem_map.1 ht
    have hc1 := List.mem_filter.1 hc0
    have hv1 := List.mem_filter.1 hv
    rw [← hcs] at hc1
    obtain ⟨v', hv', g1, g2, g3, g4, g5⟩ := of_mem_bidCosts hc1.1
    have : v = v' := bids_vid_inj hw.var hv1.1 hv' (by have := of_decide_eq_true hv1.2; rw [this, g1])
    subst this
    exact ⟨v, hv1.1, g1, g2, g3 ▸ of_decide_eq_true hc1.2, g4, g5, rfl⟩
  have hq' := mem_of_mem_dropDup hq
  obtain ⟨qa, hqa, hq2⟩ := List.mem_flatMap.1 hq'
  obtain ⟨qb, hqb, rfl⟩ := List.mem_map.1 hq2
  have hqb' := List.mem_filter.1 hqb
  obtain ⟨va, hva, k1, k2, k3, k4, k5, k6⟩ := hbid qa hqa
  obtain ⟨vb, hvb, l1, l2, l3, l4, l5, l6⟩ := hbid qb hqb'.1
  have hcond := of_decide_eq_true hqb'.2
  have hname := hn va hva vb hvb k3 l3 (by rw [← k4, ← l4]; exact hcond.2.2.1.symm) (by rw [← k2, ← l2]; exact hcond.2.2.2)
    (by unfold pairName; rw [← k2, ← k5, ← l2, ← l5]; exact hqn)
  -- its row
  obtain ⟨i, hi⟩ := List.mem_iff_getElem?.1 hq
  change (tiePairs (tieBids costs (m.bids.getD []) m.units))[i]? = some (qa, qb) at hi
  have hrow : ({ cid := n + i, ctype := .eq, rhs := 0 } : Row) ∈
      (tieConstraints (tiePairs (tieBids costs (m.bids.getD []) m.units)) n).2 := by
    unfold tieConstraints
    exact mem_saveIndex.2 ⟨i, _, hi, rfl⟩
  have hin : InTab m .tieBreak (n + i) := inTab_of_rowOf (Or.inl ⟨_, h2, _, hrow, rfl⟩)
  have hterm : ∃ t ∈ m.terms, t.cid = n + i := by
    rw [mem_terms_own hw.con hin]
    refine ⟨{ cid := n + i, vid := qa.vid, coef := 1 / qa.ub }, ?_, rfl⟩
    unfold Market.ownTerms
    simp only [List.mem_append, h1, Option.getD_some, if_true]
    refine Or.inl (Or.inl (Or.inl (Or.inl (Or.inr ?_))))
    unfold tieConstraints
    exact List.mem_append_left _ (mem_saveIndex.2 ⟨i, _, hi, rfl⟩)
  have hobs := (obeys_con hw.con hl (k := .tieBreak) rfl (by simp) h2).1 (hx.obeys m _) _ hrow hterm
  simp only [CType.holds] at hobs
  rw [rowVal_own hw.con hin] at hobs
  have hval : rowVal (m.ownTerms .tieBreak) x (n + i) = x qa.vid / qa.ub - x qb.vid / qb.ub := by
    unfold Market.ownTerms Market.genericRows
    rw [unitCon_none hw.key rfl, regCon_none hw.key rfl]
    simp only [reduceCtorEq, if_false, if_true, Option.getD_none, createLhsUnit_nil, createLhsReg_nil, setIds, List.filterMap_nil,
      genericTermsFor_nil, List.append_nil, List.nil_append, h1, Option.getD_some]
    rw [rowVal_append, tie_rowVal _ n x hi]
    have : rowVal ((m.deficits.get? .tieBreak).elim [] (·.2)) x (n + i) = 0 := by
      unfold rowVal
      apply sum_map_zero
      intro t ht
      have ht := List.mem_of_mem_filter ht
      cases hd : m.deficits.get? .tieBreak with
      | none => rw [hd] at ht; simp at ht
      | some d =>
        rw [hd] at ht
        have hv := (h.inForce.reached.refs).own _ (Dict.mem_of_get? hd) t ht
        rw [deficits_zero hl hx hz t.vid (by unfold Market.deficitVids; rw [hd]; exact hv), mul_zero]
    rw [this, add_zero]
  rw [hval] at hobs
  have hfin : x va.vid / va.ub = x vb.vid / vb.ub := by
    rw [← k1, ← l1, ← k6, ← l6]; linarith
  rcases hname with ⟨g1, g2⟩ | ⟨g1, g2⟩
  · rw [← bids_vid_inj hw.var hva ht.left g1, ← bids_vid_inj hw.var hvb ht.right g2]; exact hfin
  · rw [← bids_vid_inj hw.var hvb ht.left g2, ← bids_vid_inj hw.var hva ht.right g1]; exact hfin.symm

/-- two units with a band of 20 and of 60 MW at the same price (after loss factors), demand 40 MW -/
def tieCase : Case where
  regions := ["NSW"]
  units := [{ unit := "A", region := "NSW" }, { unit := "B", region := "NSW", lf := 1 / 2 }]
  hist := [.volumeBids [{ unit := "A", bands := [("1", 20)] }, { unit := "B", bands := [("1", 60)] }],
    .priceBids [{ unit := "A", bands := [("1", 30)] }, { unit := "B", bands := [("1", 15)] }],
    .tieBreak 1, .demand [{ region := "NSW", demand := 40 }] none]
  sol := [10, 30, 0, 0]

/-- instance of C27 -/
example : ∃ m lp a b, InForceKeeping [.bids] (.priceBids [{ unit := "A", bands := [("1", 30)] }, { unit := "B", bands := [("1", 15)] }]) m ∧
    InForceKeeping [.bids, .prices] (.tieBreak 1) m ∧ m.assemble = .ok lp ∧ Feasible lp tieCase.x ∧
    m.violationDegree tieCase.x .tieBreak = 0 ∧
    Tied m [{ unit := "A", bands := [("1", 30)] }, { unit := "B", bands := [("1", 15)] }] a b ∧ NameUnique m a b := by
  have hb : (tieCase.ok (fun m => decide (m.violationDegree tieCase.x .tieBreak = 0 ∧
    m.bids = some [⟨"A", "1", .energy, .generator, 0, 20⟩, ⟨"B", "1", .energy, .generator, 1, 60⟩] ∧ m.units = tieCase.units)) &&
      tieCase.holds 1 [.bids] && tieCase.holds 2 [.bids, .prices]) = true := by
    decide +kernel
  obtain ⟨m, lp, h1, h2, h3, h4, h5⟩ := Case.witness2 (op := .priceBids _) (op' := .tieBreak 1) rfl rfl hb
  obtain ⟨h6, h7, h8⟩ := of_decide_eq_true h5
  refine ⟨m, lp, ⟨"A", "1", .energy, .generator, 0, 20⟩, ⟨"B", "1", .energy, .generator, 1, 60⟩, h1, h2, h3, h4, h6, ?_, ?_⟩
  · refine ⟨by simp [h7], by simp [h7], ⟨rfl, rfl⟩, rfl, by simp, ?_, ⟨30, 15, 1, 1 / 2, ?_⟩⟩
    · rw [h8]
      exact ⟨_, List.mem_cons_self .., _, List.mem_cons_of_mem _ (List.mem_cons_self ..), rfl, rfl, rfl⟩
    · rw [h8]; decide +kernel
  · unfold NameUnique
    rw [h7]
    simp

/-- prices of the bands of two units in opposite order -/
def clashCase : Case where
  regions := ["NSW"]
  units := [{ unit := "A", region := "NSW" }, { unit := "B", region := "NSW" }]
  hist := [.volumeBids [{ unit := "A", bands := [("1", 10), ("2", 10)] }, { unit := "B", bands := [("1", 10), ("2", 10)] }],
    .priceBids [{ unit := "A", bands := [("1", 10), ("2", 20)] }, { unit := "B", bands := [("1", 20), ("2", 10)] }],
    .tieBreak 1, .demand [{ region := "NSW", demand := 30 }] none]
  sol := [10, 10, 0, 10, 0, 0]

/-- **C27** As stated the property fails: the bands `A 2` and `B 1` have the same price, but their pair has the name of the pair
`A 1`, `B 2`, and no constraint ties them.  One is dispatched in full, the other not at all. -/
theorem C27_negation : ∃ m lp, Reached m ∧ m.assemble = .ok lp ∧ Feasible lp clashCase.x ∧
    m.violationDegree clashCase.x .tieBreak = 0 ∧
    m.bids = some [⟨"A", "1", .energy, .generator, 0, 10⟩, ⟨"A", "2", .energy, .generator, 1, 10⟩,
      ⟨"B", "1", .energy, .generator, 2, 10⟩, ⟨"B", "2", .energy, .generator, 3, 10⟩] ∧
    clashCase.x 1 = 10 ∧ clashCase.x 2 = 0 ∧ lp.cost clashCase.x = 10 * 10 + 20 * 10 + 10 * 10 := by
  have hb : clashCase.ok (fun m => decide (m.violationDegree clashCase.x .tieBreak = 0 ∧
    m.bids = some [⟨"A", "1", .energy, .generator, 0, 10⟩, ⟨"A", "2", .energy, .generator, 1, 10⟩,
      ⟨"B", "1", .energy, .generator, 2, 10⟩, ⟨"B", "2", .energy, .generator, 3, 10⟩] ∧
    linVal clashCase.x m.objective = 400)) = true := by decide +kernel
  obtain ⟨m, lp, h0, h1, h2, h3⟩ := Case.witness hb
  obtain ⟨h4, h5, h6⟩ := of_decide_eq_true h3
  refine ⟨m, lp, Case.reached h0, h1, h2, h4, h5, by decide +kernel, by decide +kernel, ?_⟩
  unfold Lp.cost
  rw [(assemble_parts h1).2.1, h6]
  norm_num

end Verif
