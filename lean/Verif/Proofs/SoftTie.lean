import Verif.Proofs.SoftSets
import Verif.Props.Tie
import Mathlib.Data.List.Perm.Lattice

/-! Tie-break constraints as an elastic set. -/

namespace Verif

/-! ### Pairs of tied bands, taken once -/

theorem sort_swap (a b c d : String) : [a, b, c, d].insertionSort (· ≤ ·) = [c, d, a, b].insertionSort (· ≤ ·) := by
  have : Std.Total (fun a b : String => a ≤ b) := ⟨String.le_total⟩
  have : IsTrans String (fun a b => a ≤ b) := ⟨fun _ _ _ => String.le_trans⟩
  refine List.Perm.eq_of_pairwise (le := fun a b : String => a ≤ b) (fun _ _ _ _ => String.le_antisymm) (List.pairwise_insertionSort _ _)
    (List.pairwise_insertionSort _ _) ?_
  refine ((List.perm_insertionSort _ _).trans ?_).trans (List.perm_insertionSort _ _).symm
  exact List.perm_append_comm (l₁ := [a, b]) (l₂ := [c, d])

theorem tieName_swap (a b : TieBid) : tieName a b = tieName b a := by
  unfold tieName
  rw [sort_swap]

/-- the numbers of two variables, in order -/
def inOrder (i j : Nat) : Nat × Nat := if i < j then (i, j) else (j, i)

theorem Tied.symm {m : Market} {ps : List BidRow} {a b : BidVar} (h : Tied m ps a b) : Tied m ps b a := by
  obtain ⟨h1, h2, h3, h4, h5, ⟨u, hu, w, hw, e1, e2, e3⟩, pa, pb, fa, fb, g1, g2, g3, g4, g5⟩ := h
  exact ⟨h2, h1, h3.symm, h4.symm, h5.symm, ⟨w, hw, u, hu, e2, e1, e3.symm⟩, pb, pa, fb, fa, g2, g1, g4, g3, g5.symm⟩

/-- the cost table entry of a band gives its price -/
theorem cost_price {vars : List BidVar} {ps : List BidRow} {units : List UnitInfo} (hp : (ps.map (fun b => (b.unit, b.service, b.dtype))).Nodup)
    (hu : (units.map (fun u => (u.unit, u.dtype))).Nodup) (hb : BandsUnique ps) {c : BidCost} (h : c ∈ scaleByLossFactors (bidCosts vars ps) units)
    (he : c.service = .energy) : ∃ v ∈ vars, c.vid = v.vid ∧ c.unit = v.unit ∧ v.service = .energy ∧ c.dtype = v.dtype ∧ c.band = v.band ∧
      ∃ p f, priceOf ps v.unit .energy v.dtype v.band = some p ∧ lossFactor units v.unit v.dtype = some f ∧
        c.cost = (if v.dtype = .load then -1 * p else p) / f := by
  unfold scaleByLossFactors at h
  obtain ⟨c0, h0, h⟩ := List.mem_flatMap.1 h
  obtain ⟨u, hu', rfl⟩ := List.mem_map.1 h
  unfold bidCosts at h0
  obtain ⟨v, hv, h0⟩ := List.mem_flatMap.1 h0
  obtain ⟨p, hp', h0⟩ := List.mem_flatMap.1 h0
  obtain ⟨b, hb', rfl⟩ := List.mem_map.1 h0
  have he : v.service = .energy := he
  refine ⟨v, hv, rfl, rfl, he, rfl, rfl, b.2, u.lf, ?_, ?_, ?_⟩
  · have e1 := filter_eq_find hp (p := fun p => decide (p.unit = v.unit ∧ p.service = v.service ∧ p.dtype = v.dtype))
      (k := (v.unit, v.service, v.dtype)) (by intro a; simp only [Prod.mk.injEq])
    have e3 := filter_eq_find (hb p (List.mem_of_mem_filter hp')) (p := fun b => decide (b.1 = v.band)) (k := v.band) (by intro a; rfl)
    unfold priceOf
    rw [e1] at hp'
    rw [e3] at hb'
    simp only [Option.mem_toList] at hp' hb'
    rw [he] at hp'
    rw [hp', Option.bind_some, hb']
    rfl
  · have e2 := filter_eq_find hu (p := fun u => decide (u.unit = v.unit ∧ u.dtype = v.dtype))
      (k := (v.unit, v.dtype)) (by intro a; simp only [Prod.mk.injEq])
    unfold lossFactor
    have hu' : u ∈ units.filter (fun u => decide (u.unit = v.unit ∧ u.dtype = v.dtype)) := hu'
    rw [e2] at hu'
    simp only [Option.mem_toList] at hu'
    rw [hu']
    rfl
  · simp [he]

variable {m : Market} {ps : List BidRow}

/-- the tie bids of a market -/
abbrev Market.tieTable (m : Market) (ps : List BidRow) : List TieBid :=
  tieBids (scaleByLossFactors (bidCosts (m.bids.getD []) ps) m.units) (m.bids.getD []) m.units

/-- the band behind a tie bid -/
theorem tieTable_bid (hw : VarWF m) (hp : (ps.map (fun b => (b.unit, b.service, b.dtype))).Nodup)
    (hu : (m.units.map (fun u => (u.unit, u.dtype))).Nodup) (hb : BandsUnique ps) {t : TieBid} (ht : t ∈ m.tieTable ps) :
    ∃ v ∈ m.bids.getD [], t.vid = v.vid ∧ t.unit = v.unit ∧ v.service = .energy ∧ t.dtype = v.dtype ∧ t.band = v.band ∧ t.ub = v.ub ∧
      (∃ u ∈ m.units, u.unit = v.unit ∧ u.region = t.region) ∧
      ∃ p f, priceOf ps v.unit .energy v.dtype v.band = some p ∧ lossFactor m.units v.unit v.dtype = some f ∧
        t.cost = (if v.dtype = .load then -1 * p else p) / f := by
  unfold Market.tieTable tieBids at ht
  obtain ⟨cv, hcv, ht⟩ := List.mem_flatMap.1 ht
  obtain ⟨c0, hc0, hcv⟩ := List.mem_flatMap.1 hcv
  obtain ⟨v, hv, rfl⟩ := List.mem_map.1 hcv
  obtain ⟨w, hw', rfl⟩ := List.mem_map.1 ht
  have hc1 := List.mem_filter.1 hc0
  have hv1 := List.mem_filter.1 hv
  have hw1 := List.mem_filter.1 hw'
  obtain ⟨v', hv', g1, g2, g3, g4, g5, g6⟩ := cost_price hp hu hb hc1.1 (of_decide_eq_true hc1.2)
  have : v = v' := bids_vid_inj hw hv1.1 hv' (by have := of_decide_eq_true hv1.2; rw [this, g1])
  subst this
  exact ⟨v, hv1.1, g1, g2, g3, g4, g5, rfl, ⟨w, hw1.1, (of_decide_eq_true hw1.2).trans g2, rfl⟩, g6⟩

/-- the pairs before names are compared -/
def rawPairs (T : List TieBid) : List (TieBid × TieBid) :=
  T.flatMap (fun a => (T.filter (fun b => decide (b.cost = a.cost ∧ b.region = a.region ∧ b.dtype = a.dtype ∧ a.unit ≠ b.unit))).map
    (fun b => (a, b)))

theorem mem_rawPairs {T : List TieBid} {q : TieBid × TieBid} : q ∈ rawPairs T ↔
    q.1 ∈ T ∧ q.2 ∈ T ∧ q.2.cost = q.1.cost ∧ q.2.region = q.1.region ∧ q.2.dtype = q.1.dtype ∧ q.1.unit ≠ q.2.unit := by
  unfold rawPairs
  constructor
  · intro h
    obtain ⟨a, ha, h⟩ := List.mem_flatMap.1 h
    obtain ⟨b, hb, rfl⟩ := List.mem_map.1 h
    have hb := List.mem_filter.1 hb
    exact ⟨ha, hb.1, of_decide_eq_true hb.2⟩
  · rintro ⟨h1, h2, h3⟩
    exact List.mem_flatMap.2 ⟨_, h1, List.mem_map.2 ⟨_, List.mem_filter.2 ⟨h2, decide_eq_true h3⟩, rfl⟩⟩

theorem tied_raw {a b : BidVar} (ht : Tied m ps a b) :
    ∃ q ∈ rawPairs (m.tieTable ps), q.1.unit = a.unit ∧ q.1.band = a.band ∧ q.2.unit = b.unit ∧ q.2.band = b.band := by
  obtain ⟨pa, pb, fa, fb, e1, e2, e3, e4, e5⟩ := ht.price
  obtain ⟨u, hu, w, hw', e6, e7, e8⟩ := ht.region
  have ma := mem_bidCosts ht.left (by rw [ht.energy.1]; exact e1) e3 ht.energy.1
  have mb := mem_bidCosts ht.right (by rw [ht.energy.2]; exact e2) e4 ht.energy.2
  refine ⟨(⟨a.vid, a.unit, a.dtype, a.band, (if a.dtype = .load then -1 * pa else pa) / fa, a.ub, u.region⟩,
    ⟨b.vid, b.unit, b.dtype, b.band, (if b.dtype = .load then -1 * pb else pb) / fb, b.ub, w.region⟩), ?_, rfl, rfl, rfl, rfl⟩
  rw [mem_rawPairs]
  refine ⟨?_, ?_, ?_, e8.symm, ht.side.symm, ht.units⟩
  · unfold Market.tieTable tieBids
    exact List.mem_flatMap.2 ⟨(_, a), List.mem_flatMap.2 ⟨_, List.mem_filter.2 ⟨ma, by simp⟩, List.mem_map.2
      ⟨a, List.mem_filter.2 ⟨ht.left, by simp⟩, rfl⟩⟩, List.mem_map.2 ⟨u, List.mem_filter.2 ⟨hu, by simpa using e6⟩, rfl⟩⟩
  · unfold Market.tieTable tieBids
    exact List.mem_flatMap.2 ⟨(_, b), List.mem_flatMap.2 ⟨_, List.mem_filter.2 ⟨mb, by simp⟩, List.mem_map.2
      ⟨b, List.mem_filter.2 ⟨ht.right, by simp⟩, rfl⟩⟩, List.mem_map.2 ⟨w, List.mem_filter.2 ⟨hw', by simpa using e7⟩, rfl⟩⟩
  · dsimp only
    rw [ht.side]
    split
    · rw [mul_div_assoc, mul_div_assoc, e5]
    · exact e5.symm

/-- a pair that is kept is tied -/
theorem raw_tied (hw : VarWF m) (hp : (ps.map (fun b => (b.unit, b.service, b.dtype))).Nodup)
    (hu : (m.units.map (fun u => (u.unit, u.dtype))).Nodup) (hb : BandsUnique ps) {q : TieBid × TieBid} (hq : q ∈ rawPairs (m.tieTable ps)) :
    ∃ a b, Tied m ps a b ∧ q.1.vid = a.vid ∧ q.2.vid = b.vid ∧ q.1.ub = a.ub ∧ q.2.ub = b.ub ∧ q.1.unit = a.unit ∧ q.1.band = a.band ∧
      q.2.unit = b.unit ∧ q.2.band = b.band := by
  rw [mem_rawPairs] at hq
  obtain ⟨h1, h2, h3, h4, h5, h6⟩ := hq
  obtain ⟨a, ha, a1, a2, a3, a4, a5, a6, ⟨u, hu', a7, a8⟩, p, f, a9, a10, a11⟩ := tieTable_bid hw hp hu hb h1
  obtain ⟨b, hb', b1, b2, b3, b4, b5, b6, ⟨w, hw', b7, b8⟩, p', f', b9, b10, b11⟩ := tieTable_bid hw hp hu hb h2
  have hd : a.dtype = b.dtype := by rw [← a4, ← b4, h5]
  refine ⟨a, b, ⟨ha, hb', ⟨a3, b3⟩, hd, by rw [← a2, ← b2]; exact h6, ⟨u, hu', w, hw', a7, b7, by rw [a8, b8, h4]⟩,
    p, p', f, f', a9, b9, a10, b10, ?_⟩, a1, b1, a6, b6, a2, a5, b2, b5⟩
  rw [a11, b11, ← hd] at h3
  split at h3
  · rw [mul_div_assoc, mul_div_assoc] at h3
    linarith
  · exact h3.symm

theorem inOrder_eq {i j k l : Nat} (h : inOrder i j = inOrder k l) : (i = k ∧ j = l) ∨ (i = l ∧ j = k) := by
  unfold inOrder at h
  split at h <;> split at h <;> simp only [Prod.mk.injEq] at h <;> omega

/-- the pairs of tied bands, each once -/
def Market.tiedPairs (m : Market) (ps : List BidRow) : List (BidVar × BidVar) :=
  (m.bids.getD []).flatMap (fun a => ((m.bids.getD []).filter (fun b => decide (a.vid < b.vid ∧ Tied m ps a b))).map (fun b => (a, b)))

theorem mem_tiedPairs {q : BidVar × BidVar} : q ∈ m.tiedPairs ps ↔ q.1.vid < q.2.vid ∧ Tied m ps q.1 q.2 := by
  unfold Market.tiedPairs
  constructor
  · intro h
    obtain ⟨a, ha, h⟩ := List.mem_flatMap.1 h
    obtain ⟨b, hb, rfl⟩ := List.mem_map.1 h
    exact of_decide_eq_true (List.mem_filter.1 hb).2
  · intro h
    exact List.mem_flatMap.2 ⟨_, h.2.left, List.mem_map.2 ⟨_, List.mem_filter.2 ⟨h.2.right, decide_eq_true h⟩, rfl⟩⟩

theorem tiedPairs_nodup (hw : VarWF m) : ((m.tiedPairs ps).map (fun q => (q.1.vid, q.2.vid))).Nodup := by
  have hn := bids_nodup hw
  unfold Market.tiedPairs
  rw [List.map_flatMap, List.nodup_flatMap]
  constructor
  · intro a _
    rw [List.map_map]
    refine List.Nodup.map_on ?_ ((List.Nodup.of_map _ hn).filter _)
    intro b hb c hc e
    simp only [Function.comp_apply, Prod.mk.injEq, true_and] at e
    exact bids_vid_inj hw (List.mem_of_mem_filter hb) (List.mem_of_mem_filter hc) e
  · rw [List.Nodup, List.pairwise_map] at hn
    refine hn.imp (fun {a b} hab => ?_)
    intro q h1 h2
    simp only [List.map_map, List.mem_map, Function.comp_apply] at h1 h2
    obtain ⟨_, _, rfl⟩ := h1
    obtain ⟨_, _, e⟩ := h2
    simp only [Prod.mk.injEq] at e
    exact hab e.1.symm

theorem tiePairs_perm (hw : VarWF m) (hp : (ps.map (fun b => (b.unit, b.service, b.dtype))).Nodup)
    (hu : (m.units.map (fun u => (u.unit, u.dtype))).Nodup) (hb : BandsUnique ps) (hn : ∀ a b, Tied m ps a b → NameUnique m a b) :
    ((tiePairs (m.tieTable ps)).map (fun q => inOrder q.1.vid q.2.vid)).Perm ((m.tiedPairs ps).map (fun q => (q.1.vid, q.2.vid))) := by
  have e : tiePairs (m.tieTable ps) = dropDup (fun p => tieName p.1 p.2) (rawPairs (m.tieTable ps)) := rfl
  rw [List.perm_ext_iff_of_nodup _ (tiedPairs_nodup hw)]
  · intro k
    constructor
    · intro h
      obtain ⟨q, hq, rfl⟩ := List.mem_map.1 h
      rw [e] at hq
      obtain ⟨a, b, ht, a1, b1, _⟩ := raw_tied hw hp hu hb (mem_of_mem_dropDup hq)
      rw [a1, b1]
      rcases Nat.lt_trichotomy a.vid b.vid with hl | hl | hl
      · exact List.mem_map.2 ⟨(a, b), mem_tiedPairs.2 ⟨hl, ht⟩, by simp [inOrder, hl]⟩
      · exact absurd (congrArg BidVar.unit (bids_vid_inj hw ht.left ht.right hl)) ht.units
      · exact List.mem_map.2 ⟨(b, a), mem_tiedPairs.2 ⟨hl, ht.symm⟩, by simp [inOrder, Nat.lt_asymm hl]⟩
    · intro h
      obtain ⟨⟨a, b⟩, hq, rfl⟩ := List.mem_map.1 h
      obtain ⟨hl, ht⟩ := mem_tiedPairs.1 hq
      obtain ⟨r, hr, r1, r2, r3, r4⟩ := tied_raw ht
      obtain ⟨q, hq, hqn⟩ := exists_dropDup (key := fun p : TieBid × TieBid => tieName p.1 p.2) hr
      obtain ⟨c, d, ht', c1, d1, _, _, c2, c3, d2, d3⟩ := raw_tied hw hp hu hb (mem_of_mem_dropDup hq)
      have := hn a b ht c ht'.left d ht'.right ht'.energy.1 ht'.energy.2 ht'.side ht'.units (by
        unfold pairName
        unfold tieName at hqn
        rw [← c2, ← c3, ← d2, ← d3, ← r1, ← r2, ← r3, ← r4]
        exact hqn)
      refine List.mem_map.2 ⟨q, hq, ?_⟩
      rw [c1, d1]
      rcases this with ⟨g1, g2⟩ | ⟨g1, g2⟩
      · simp only [g1, g2, inOrder]
        rw [if_pos hl]
      · simp only [g1, g2, inOrder]
        rw [if_neg (Nat.lt_asymm hl)]
  · have hd := dropDup_nodup (fun p : TieBid × TieBid => tieName p.1 p.2) (rawPairs (m.tieTable ps))
    rw [e]
    refine List.Nodup.map_on ?_ (List.Nodup.of_map _ hd)
    intro q hq r hr hqr
    refine List.inj_on_of_nodup_map hd hq hr ?_
    obtain ⟨a, b, ht, a1, b1, _, _, a2, a3, b2, b3⟩ := raw_tied hw hp hu hb (mem_of_mem_dropDup hq)
    obtain ⟨c, d, ht', c1, d1, _, _, c2, c3, d2, d3⟩ := raw_tied hw hp hu hb (mem_of_mem_dropDup hr)
    rw [a1, b1, c1, d1] at hqr
    rcases inOrder_eq hqr with ⟨g1, g2⟩ | ⟨g1, g2⟩
    · have h1 := bids_vid_inj hw ht.left ht'.left g1
      have h2 := bids_vid_inj hw ht.right ht'.right g2
      subst h1 h2
      unfold tieName
      rw [a2, a3, b2, b3, c2, c3, d2, d3]
    · have h1 := bids_vid_inj hw ht.left ht'.right g1
      have h2 := bids_vid_inj hw ht.right ht'.left g2
      subst h1 h2
      show tieName q.1 q.2 = tieName r.1 r.2
      rw [tieName_swap r.1]
      unfold tieName
      rw [a2, a3, b2, b3, c2, c3, d2, d3]

/-- the violation of all tie-break constraints -/
theorem sum_tiePairs (hw : VarWF m) (hp : (ps.map (fun b => (b.unit, b.service, b.dtype))).Nodup)
    (hu : (m.units.map (fun u => (u.unit, u.dtype))).Nodup) (hb : BandsUnique ps) (hn : ∀ a b, Tied m ps a b → NameUnique m a b)
    (x : Nat → ℚ) :
    ((tiePairs (m.tieTable ps)).map (fun q => |x q.1.vid / q.1.ub - x q.2.vid / q.2.ub|)).sum =
      ((m.tiedPairs ps).map (fun q => |x q.1.vid / q.1.ub - x q.2.vid / q.2.ub|)).sum := by
  let ub : Nat → ℚ := fun i => (((m.bids.getD []).find? (fun b => decide (b.vid = i))).map BidVar.ub).getD 1
  have hub : ∀ b ∈ m.bids.getD [], ub b.vid = b.ub := by
    intro b hb
    show (((m.bids.getD []).find? (fun c => decide (c.vid = b.vid))).map BidVar.ub).getD 1 = b.ub
    cases hf : (m.bids.getD []).find? (fun c => decide (c.vid = b.vid)) with
    | none => exact absurd (List.find?_eq_none.1 hf b hb) (by simp)
    | some c =>
      rw [bids_vid_inj hw (List.mem_of_find?_eq_some hf) hb (of_decide_eq_true (List.find?_some hf :))]
      rfl
  have h := sum_perm (tiePairs_perm hw hp hu hb hn) (fun k : Nat × Nat => |x k.1 / ub k.1 - x k.2 / ub k.2|)
  rw [List.map_map, List.map_map] at h
  refine Eq.trans ?_ (h.trans ?_)
  · apply congrArg
    apply List.map_congr_left
    intro q hq
    obtain ⟨a, b, ht, a1, b1, a2, b2, _⟩ := raw_tied hw hp hu hb (mem_of_mem_dropDup hq)
    rw [Function.comp_apply, a1, b1, a2, b2, ← hub a ht.left, ← hub b ht.right]
    unfold inOrder
    split
    · rfl
    · exact abs_sub_comm _ _
  · apply congrArg
    apply List.map_congr_left
    intro q hq
    have ht := (mem_tiedPairs.1 hq).2
    rw [Function.comp_apply, hub _ ht.left, hub _ ht.right]

/-! ### The elastic set -/

theorem elasticSet_core {a m : Market} {k : CKey} {vc : VCost} (hm : WF m) (hR : RefWF m) (hok : (a.makeElastic k vc).2 = none)
    (hset : SameSet k (a.makeElastic k vc).1 m) (hp : vc.proper) (hne : m.elasticRows k vc ≠ []) : ∃ n, ElasticSet m k vc n := by
  unfold Market.makeElastic at hok hset
  cases hrows : a.rowsOf k with
  | none => simp [hrows] at hok
  | some rows =>
    cases hcr : costRows k rows vc with
    | error e => simp [hrows, hcr] at hok
    | ok rs =>
      simp only [hrows, hcr] at hok hset
      have hrs := costRows_proper hp hcr
      have hrm : ∀ b : Market, SameSet k b m → b.conRhs = a.conRhs → b.mktRhs = a.mktRhs → m.rowsOf k = some rows := by
        intro b hb h1 h2
        rw [← hrows]
        unfold Market.rowsOf
        rw [hb.mktRhs, hb.conRhs, h1, h2]
      split at hset
      · rename_i hemp
        exfalso
        apply hne
        unfold Market.elasticRows
        rw [hrm _ hset rfl rfl]
        rw [List.isEmpty_iff] at hemp
        rw [hemp] at hrs
        simpa using hrs.symm
      · split at hset
        · rename_i h1 h2
          simp [h1, h2] at hok
        · refine ⟨a.nextVar, hm, hR, ⟨rows, hrm _ hset rfl rfl⟩, ?_⟩
          rw [hset.deficits]
          show (a.deficits.set k _).get? k = _
          rw [Dict.get?_set_self]
          unfold Market.elasticRows
          rw [hrm _ hset rfl rfl, hrs]
          rfl

/-- what a tie-break call leaves behind -/
theorem tieBreak_elastic {c : ℚ} (h : InForceKeeping [.bids, .prices] (.tieBreak c) m) :
    ∃ rows, rows ≠ [] ∧ m.conRhs.get? .tieBreak = some rows ∧ ∃ n, ElasticSet m .tieBreak (.num c) n := by
  have hR := h.inForce.reached.refs
  obtain ⟨a, ha, hm, hok, hb, hs, hk⟩ := h.unpack
  have hn := step_ok hok
  have hs : SameSet .tieBreak (a.step (.tieBreak c)).1 m := hs (.set .tieBreak) (by simp [Op.parts])
  simp only [Market.step, hn, Market.setTieBreak, Bool.false_eq_true, if_false] at hok hs
  cases hc : a.bidCost with
  | none => simp [hc] at hok
  | some costs =>
  cases hv : a.bids with
  | none => simp [hc, hv] at hok
  | some vars =>
    simp only [hc, hv] at hok hs
    by_cases c1 : (tiePairs (tieBids costs vars a.units)).isEmpty = true
    · rw [if_pos c1] at hok; simp at hok
    rw [if_neg c1] at hok hs
    generalize hps : tiePairs (tieBids costs vars a.units) = pairs at *
    have e1 : m.conRhs.get? .tieBreak = some (tieConstraints pairs a.nextCon).2 := by
      rw [hs.conRhs]
      unfold Market.makeElastic
      dsimp only
      repeat' split
      all_goals exact Dict.get?_set_self _ _ _
    have e2 : (tieConstraints pairs a.nextCon).2 ≠ [] := by
      intro hc
      have := congrArg List.length hc
      simp only [tieConstraints, length_saveIndex, List.length_nil] at this
      exact c1 (by rw [List.length_eq_zero_iff.1 this]; rfl)
    refine ⟨_, e2, e1, elasticSet_core hm hR hok hs trivial ?_⟩
    have hr : m.rowsOf .tieBreak = some (tieConstraints pairs a.nextCon).2 := by
      unfold Market.rowsOf; rw [noMkt hm (k := .tieBreak) rfl, e1]
    have hel : m.elasticRows .tieBreak (.num c) = (tieConstraints pairs a.nextCon).2 := by
      unfold Market.elasticRows
      rw [hr, Option.getD_some, List.filter_eq_self]
      intro r _; rfl
    rw [hel]
    exact e2

/-- the left hand side of a tie-break constraint -/
theorem originalLhs_tie (hw : WF m) {pairs : List (TieBid × TieBid)} {n : Nat} (h1 : m.tieLhs = some (tieConstraints pairs n).1)
    (h2 : m.conRhs.get? .tieBreak = some (tieConstraints pairs n).2) (x : Nat → ℚ) {i : Nat} {p : TieBid × TieBid} (hi : pairs[i]? = some p) :
    m.originalLhs .tieBreak x (n + i) = x p.1.vid / p.1.ub - x p.2.vid / p.2.ub := by
  have hrow : ({ cid := n + i, ctype := .eq, rhs := 0 } : Row) ∈ (tieConstraints pairs n).2 := by
    unfold tieConstraints
    exact mem_saveIndex.2 ⟨i, _, hi, rfl⟩
  have hin : InTab m .tieBreak (n + i) := inTab_of_rowOf (Or.inl ⟨_, h2, _, hrow, rfl⟩)
  have h := rowVal_own hw.con hin x
  have hval : rowVal (m.ownTerms .tieBreak) x (n + i) =
      x p.1.vid / p.1.ub - x p.2.vid / p.2.ub + rowVal ((m.deficits.get? .tieBreak).elim [] (·.2)) x (n + i) := by
    unfold Market.ownTerms Market.genericRows
    rw [unitCon_none hw.key rfl, regCon_none hw.key rfl]
    simp only [reduceCtorEq, if_false, if_true, Option.getD_none, createLhsUnit_nil, createLhsReg_nil, setIds, List.filterMap_nil,
      genericTermsFor_nil, List.append_nil, List.nil_append, h1, Option.getD_some]
    rw [rowVal_append, tie_rowVal _ n x hi]
  rw [hval] at h
  rw [originalLhs_eq]
  cases hd : m.deficits.get? .tieBreak with
  | none =>
    have e : m.inelastic .tieBreak = m := by
      unfold Market.inelastic
      rw [Dict.erase_none hd]
    rw [e, h, hd]
    simp [rowVal_nil]
  | some d =>
    rw [rowVal_split hw hd, hd] at h
    simp only [Option.elim_some] at h
    linarith

variable {ops : List Op}

theorem MadeBy.tieKeeping (h : MadeBy ops m) {c : ℚ} (ho : Op.tieBreak c ∈ ops) : InForceKeeping [.bids, .prices] (.tieBreak c) m := by
  obtain ⟨r, u, d, m0, before, after, h1, h2, h3, rfl, rfl⟩ := h.at ho
  obtain ⟨o1, o2, o3⟩ := once_split h.once
  have e0 := (init_fresh h1).1
  have hn := step_ok h3
  refine ⟨r, u, d, m0, before, after, h1, h2, h3, ?_, rfl⟩
  intro o hoa q hq
  rcases List.mem_append.1 hq with hq | hq
  · intro hin
    have hs := part_run (m := m0) (p := q) (fun o' ho' => o3 o' ho' o hoa q hin)
    simp only [List.mem_cons, List.not_mem_nil, or_false] at hq
    simp only [Market.step, hn, Market.setTieBreak, Bool.false_eq_true, if_false] at h3
    rcases hq with rfl | rfl
    · simp only [SamePart] at hs
      have hd : (m0.run before).bids = none := by rw [hs.1, e0]
      simp only [hd] at h3
      split at h3 <;> simp_all
    · simp only [SamePart] at hs
      have hd : (m0.run before).bidCost = none := by rw [hs, e0]
      simp [hd] at h3
  · exact o1 o hoa q hq

theorem pricesOf_nil (h : ∀ o ∈ ops, Part.prices ∉ o.parts) : pricesOf ops = [] := by
  unfold pricesOf
  rw [List.flatMap_eq_nil_iff]
  intro o ho
  have := h o ho
  cases o <;> first | rfl | simp [Op.parts] at this

theorem MadeBy.pricesOf_eq (h : MadeBy ops m) {ps : List BidRow} (ho : Op.priceBids ps ∈ ops) : pricesOf ops = ps := by
  obtain ⟨before, after, rfl⟩ := List.append_of_mem ho
  obtain ⟨o1, o2, _⟩ := once_split h.once
  have e1 := pricesOf_nil (ops := before) (fun o ho => o2 o ho _ (by simp [Op.parts]))
  have e2 := pricesOf_nil (ops := after) (fun o ho => o1 o ho _ (by simp [Op.parts]))
  unfold pricesOf at e1 e2 ⊢
  rw [List.flatMap_append, List.flatMap_cons, e1, e2]
  simp

/-- tie-break constraints need prices -/
theorem MadeBy.tiePrices (h : MadeBy ops m) {c : ℚ} (ho : Op.tieBreak c ∈ ops) : ∃ ps, Op.priceBids ps ∈ ops := by
  by_contra hc
  obtain ⟨r, u, d, m0, before, after, h1, h2, h3, rfl, rfl⟩ := h.at ho
  have e0 := (init_fresh h1).1
  have hn := step_ok h3
  have hs : SamePart m0 (m0.run before) .prices := part_run (p := .prices) (fun o hob hin => by
    rcases h.kinds o (by simp [hob]) with hk | hk <;>
    · cases o <;> first | exact hc ⟨_, List.mem_append_left _ hob⟩ | exact hk | simp [Op.parts] at hin)
  simp only [SamePart] at hs
  have hd : (m0.run before).bidCost = none := by rw [hs, e0]
  simp [Market.step, hn, Market.setTieBreak, hd] at h3

theorem MadeBy.tie_priced (h : MadeBy ops m) {c : ℚ} (ho : Op.tieBreak c ∈ ops) (hc : 0 ≤ c) : ∃ L, PricedBy m ops (.tieBreak c) L := by
  obtain ⟨ps, hps⟩ := h.tiePrices ho
  obtain ⟨hcost, hpn, _⟩ := priceBids_cost (h.priceKeeping hps)
  have hw := h.wf
  have hk := h.tieKeeping ho
  obtain ⟨s, h1, h2⟩ := tieBreak_set hk
  rw [hcost, Option.getD_some] at h1 h2
  obtain ⟨rows, hne, h3, n, S⟩ := tieBreak_elastic hk
  rw [h2, Option.some.injEq] at h3
  obtain ⟨hb, hnm⟩ := h.ties c ho
  have hpr := h.pricesOf_eq hps
  rw [hpr] at hnm
  have hr : m.rowsOf .tieBreak = some rows := by unfold Market.rowsOf; rw [noMkt hw (k := .tieBreak) rfl, h2, h3]
  have hel : m.elasticRows .tieBreak (.num c) = rows := by
    unfold Market.elasticRows
    rw [hr, Option.getD_some, List.filter_eq_self]
    intro r _; rfl
  have hrow : ∀ r ∈ rows, ∃ p : TieBid × TieBid, p ∈ tiePairs (m.tieTable ps) ∧ ∀ x, m.rowViolation .tieBreak x r = |x p.1.vid / p.1.ub - x p.2.vid / p.2.ub| := by
    intro r hr
    rw [← h3] at hr
    unfold tieConstraints at hr
    obtain ⟨i, p, hp, rfl⟩ := mem_saveIndex.1 hr
    refine ⟨p, List.mem_of_getElem? hp, fun x => ?_⟩
    unfold Market.rowViolation
    dsimp only
    rw [originalLhs_tie hw h1 h2 x hp]
    simp [CType.violation]
  refine ⟨[⟨.tieBreak, .num c, n⟩], ?_, ?_, ?_, ?_, ?_⟩
  · intro p hp
    rw [List.mem_singleton] at hp
    subst hp
    refine ⟨S, fun r _ => rfl, fun r _ => hc, ?_⟩
    intro x y hs e he
    rw [hel] at he
    obtain ⟨p, hp, hv⟩ := hrow e he
    obtain ⟨a, b, ht, a1, b1, _⟩ := raw_tied hw.var hpn hw.units (hb ps hps) (mem_of_mem_dropDup hp)
    show m.rowViolation .tieBreak y e = m.rowViolation .tieBreak x e
    rw [hv, hv, a1, b1, hs.1 a ht.left, hs.1 b ht.right]
  · intro p hp
    rw [List.mem_singleton] at hp
    subst hp
    simp [Op.parts]
  · simp
  · intro k hk hn
    simp [Op.parts] at hk hn
    exact absurd hk hn
  · intro x
    simp only [List.map_cons, List.map_nil, List.sum_cons, List.sum_nil, add_zero, Market.violationCost, hel]
    have e1 : (rows.map (fun r => ((VCost.num c).of r).getD 0 * m.rowViolation .tieBreak x r)).sum =
        c * ((tiePairs (m.tieTable ps)).map (fun q => |x q.1.vid / q.1.ub - x q.2.vid / q.2.ub|)).sum := by
      rw [← sum_map_mul_left, ← h3]
      unfold tieConstraints
      dsimp only
      have hF : ∀ {l : List Row} {L : List ℚ}, List.Forall₂ (fun r v => ((VCost.num c).of r).getD 0 * m.rowViolation .tieBreak x r = v) l L →
          l.map (fun r => ((VCost.num c).of r).getD 0 * m.rowViolation .tieBreak x r) = L := by
        intro l L hl
        induction hl with
        | nil => rfl
        | cons hab _ ih => rw [List.map_cons, hab, ih]
      refine congrArg _ (hF (forall₂_index (fun i p hp => ?_)))
      unfold Market.rowViolation
      dsimp only
      rw [originalLhs_tie hw h1 h2 x hp]
      simp [CType.violation, VCost.of]
    rw [e1, sum_tiePairs hw.var hpn hw.units (hb ps hps) hnm]
    have e2 : (Op.tieBreak c).misses m ops x = (m.tiedPairs ps).map (fun q => (c, |x q.1.vid / q.1.ub - x q.2.vid / q.2.ub|)) := by
      simp only [Op.misses, hpr, Market.tiedPairs, List.map_flatMap, List.map_map, Function.comp_def]
    rw [e2, List.map_map, ← sum_map_mul_left]
    rfl

end Verif
