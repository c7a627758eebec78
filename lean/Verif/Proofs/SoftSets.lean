import Verif.Proofs.SoftOps
import Verif.Proofs.SimClose
import Verif.Proofs.Replace
import Verif.Proofs.FastStart
import Verif.Proofs.JointRamp

/-! Calls with a violation cost that set several constraint sets, or none. -/

namespace Verif

/-- the sets of a call with a violation cost as elastic sets -/
structure PricedBy (m : Market) (os : List Op) (op : Op) (L : List Piece) : Prop where
  soft : ∀ p ∈ L, SoftPiece m p
  keys : ∀ p ∈ L, Part.set p.key ∈ op.parts
  nodup : (L.map Piece.key).Nodup
  rest : ∀ k, Part.set k ∈ op.parts → k ∉ L.map Piece.key → m.conRhs.get? k = none ∧ m.mktRhs.get? k = none ∧ m.deficits.get? k = none
  cost : ∀ x, (L.map (fun p => m.violationCost p.key p.vc x)).sum = ((op.misses m os x).map (fun a => a.1 * a.2)).sum

theorem Priced.by {m : Market} {os : List Op} {op : Op} {p : Piece} (h : Priced m os op p) : PricedBy m os op [p] := by
  obtain ⟨h1, h2⟩ := h.soft
  refine ⟨by simpa using h1, by simp [h.parts], by simp, ?_, ?_⟩
  · intro k hk hn
    rw [h.parts] at hk
    simp at hk hn
    exact absurd hk hn
  · intro x
    simp [h2 x]

/-- a unit level set that was made elastic -/
theorem unitPiece {m : Market} (hw : WF m) {k : CKey} {c : ℚ} (hk : k.isUnit = true) (hi : InForce (.elastic k (.num c)) m)
    (hc : 0 ≤ c) {t : List Row × List ConUnit} {es : List (Row × List ConUnit)} (he : Entries t es) (h1 : m.conRhs.get? k = some t.1)
    (h2 : m.unitCon.get? k = some t.2) (hne : t.1 ≠ []) :
    ∃ n, SoftPiece m ⟨k, .num c, n⟩ ∧ ∀ x, m.violationCost k (.num c) x =
      c * (es.map (fun e => e.1.ctype.violation (m.entryVal x e.2) e.1.rhs)).sum := by
  have hr : m.rowsOf k = some t.1 := by unfold Market.rowsOf; rw [noMkt hw (isUnit_not_market hk), h1]
  have hel : m.elasticRows k (.num c) = t.1 := by
    unfold Market.elasticRows
    rw [hr, Option.getD_some, List.filter_eq_self]
    intro r _; rfl
  have hv : ∀ x, ∀ r ∈ t.1, m.rowViolation k x r = r.ctype.violation (m.unitLhs x t.2 r.cid) r.rhs := by
    intro x r hr
    unfold Market.rowViolation
    rw [originalLhs_unit hw hk h1 h2 hr]
  obtain ⟨n, S⟩ := elasticSet_of hi trivial (by rw [hel]; exact hne)
  refine ⟨n, ⟨S, ?_, ?_, ?_⟩, ?_⟩
  · intro r _; rfl
  · intro r _; exact hc
  · intro x y hs r hr
    dsimp only at hr ⊢
    rw [hel] at hr
    rw [hv x r hr, hv y r hr]
    have ho : m.output y = m.output x := by funext u s d; unfold Market.output; rw [hs.dispatched]
    unfold Market.unitLhs
    simp only [mapVal_side hw, ho]
  · intro x
    unfold Market.violationCost
    rw [hel]
    rw [sum_perm he.rows, List.map_map, ← sum_map_mul_left]
    apply sum_map_congr
    intro e hem
    have hmem : e.1 ∈ t.1 := he.rows.mem_iff.2 (List.mem_map_of_mem hem)
    show c * m.rowViolation k x e.1 = _
    rw [hv x _ hmem]
    unfold Market.unitLhs Market.entryVal
    rw [sum_perm (he.lhs hem)]

/-- nothing is stored for a set -/
def Blank (k : CKey) (a : Market) : Prop :=
  a.unitCon.get? k = none ∧ a.conRhs.get? k = none ∧ a.deficits.get? k = none ∧ a.mktRhs.get? k = none

theorem Blank.same {k : CKey} {a b : Market} (h : Blank k a) (hs : SameSet k a b) : Blank k b := by
  obtain ⟨h1, h2, h3, h4⟩ := h
  exact ⟨by rw [hs.unitCon, h1], by rw [hs.conRhs, h2], by rw [hs.deficits, h3], by rw [hs.mktRhs, h4]⟩

theorem Blank.unitSet {k k' : CKey} {a : Market} (h : Blank k a) (e : k' ≠ k) (t : List Row × List ConUnit) : Blank k (a.addUnitSet k' t).1 := by
  obtain ⟨h1, h2, h3, h4⟩ := h
  obtain ⟨a1, a2, _, a4, a5⟩ := addUnitSet_get a k' t
  unfold Blank
  rw [a1, a2, a4, a5, Dict.get?_set_ne _ _ e, Dict.get?_set_ne _ _ e]
  exact ⟨h1, h2, h3, h4⟩

theorem Blank.elastic {k k' : CKey} {a : Market} (h : Blank k a) (e : k' ≠ k) (c : VCost) : Blank k (a.makeElastic k' c).1 :=
  h.same (sameSet_elastic a c e)

theorem Blank.elasticIf {k : CKey} {a : Market} (h : Blank k a) (c : VCost) : a.elasticIfPresent k c = (a, none) := by
  unfold Market.elasticIfPresent
  rw [if_neg]
  simp [Dict.has, h.1]

/-- the call is one without violation cost followed by making sets elastic -/
def Several (keep : List Part) (m : Market) (op op1 : Op) (K : List CKey) (vc : VCost) : Prop :=
  ∀ a : Market, a.units = m.units → a.di = m.di → (Part.bids ∈ keep → Part.bids ∉ op.parts → a.bids = m.bids) → (∀ k, Part.set k ∈ op.parts → Blank k a) → (a.step op).2 = none →
    (a.step op1).2 = none ∧ Accepted (a.step op1).1 (K.map (fun k => Op.elastic k vc)) ∧
    (a.step op).1 = (a.step op1).1.run (K.map (fun k => Op.elastic k vc)) ∧
    ∀ k, Part.set k ∈ op.parts → k ∉ K → Blank k (a.step op).1

theorem accepted_at {m : Market} {pre post : List Op} {op : Op} (h : Accepted m (pre ++ op :: post)) : ((m.run pre).step op).2 = none := by
  induction pre generalizing m with
  | nil => exact h.1
  | cons o pre ih => exact ih h.2

theorem elastics_tables (vc : VCost) (K : List CKey) (a : Market) :
    (a.run (K.map (fun k => Op.elastic k vc))).conRhs = a.conRhs ∧ (a.run (K.map (fun k => Op.elastic k vc))).unitCon = a.unitCon ∧
    (a.run (K.map (fun k => Op.elastic k vc))).mktRhs = a.mktRhs := by
  induction K generalizing a with
  | nil => exact ⟨rfl, rfl, rfl⟩
  | cons k K ih =>
    rw [List.map_cons, run_cons]
    obtain ⟨e1, e2, e3⟩ := ih (a.step (.elastic k vc)).1
    obtain ⟨f1, f2, f3, _⟩ := elastic_tables' a k vc
    exact ⟨e1.trans f1, e2.trans f2, e3.trans f3⟩

theorem several_before {ops : List Op} {m : Market} (h : MadeBy ops m) {op op1 : Op} (ho : op ∈ ops) (keep : List Part)
    (hkeep : ∀ p ∈ keep, ∀ (r : List String) (u : List UnitInfo) (d : ℚ) (m0 a : Market), Market.init r u d = .ok m0 → SamePart m0 a p →
      (a.step op).2 ≠ none) {K : List CKey} {vc : VCost} (hs : Several keep m op op1 K vc)
    (hp : op1.parts = op.parts) (hK : ∀ k ∈ K, Part.set k ∈ op.parts) (hn : K.Nodup) (hbn : ∀ a, op.benign a → op1.benign a) :
    (∃ m1, InForceKeeping keep op1 m1 ∧ m1.units = m.units ∧ m1.di = m.di ∧ (Part.bids ∈ keep → Part.bids ∉ op.parts → m1.bids = m.bids) ∧
      (∀ k, Part.set k ∈ op.parts → m.conRhs.get? k = m1.conRhs.get? k ∧ m.unitCon.get? k = m1.unitCon.get? k ∧
        m.mktRhs.get? k = m1.mktRhs.get? k) ∧
      ∃ a : Market, a.units = m.units ∧ a.di = m.di ∧ (a.step op1).2 = none ∧ m1 = (a.step op1).1) ∧
    (∀ k ∈ K, InForce (.elastic k vc) m) ∧ ∀ k, Part.set k ∈ op.parts → k ∉ K → Blank k m := by
  obtain ⟨r, u, d, m0, before, after, h0, hben, hok, e, e'⟩ := h.at ho
  have hon := h.once
  rw [e] at hon
  obtain ⟨o1, o2, o3⟩ := once_split hon
  subst e'
  have hpa : ∀ o ∈ after, ∀ p ∈ keep ++ op.parts, p ∉ o.parts := by
    intro o hoa q hq
    rcases List.mem_append.1 hq with hq | hq
    · intro hin
      exact hkeep q hq r u d m0 _ h0 (part_run (fun o' ho' => o3 o' ho' o hoa q hin)) hok
    · exact o1 o hoa q hq
  have hbl : ∀ k, Part.set k ∈ op.parts → Blank k (m0.run before) := by
    intro k hk
    have hs : SameSet k m0 (m0.run before) := part_run (p := .set k) (fun o ho => o2 o ho _ hk)
    refine Blank.same ?_ hs
    rw [(init_fresh h0).1]
    exact ⟨rfl, rfl, rfl, rfl⟩
  obtain ⟨s1, s2, s3, s4⟩ := hs (m0.run before) (by rw [(sameBase_run m0 before).2.1, (sameBase_run m0 _).2.1])
    (by rw [(sameBase_run m0 before).2.2, (sameBase_run m0 _).2.2])
    (fun hkb hnb => by
      have t : SamePart (m0.run before) (m0.run (before ++ op :: after)) .bids := by
        rw [run_append]
        refine part_run (p := .bids) (fun o ho => ?_)
        rcases List.mem_cons.1 ho with rfl | ho
        · exact hnb
        · exact hpa o ho _ (by simp [hkb])
      simp only [SamePart] at t
      exact t.1.symm) hbl hok
  have hben' := benign_append.1 hben
  have e : m0.run (before ++ [op1]) = ((m0.run before).step op1).1 := by rw [run_append]; rfl
  refine ⟨⟨m0.run (before ++ [op1]), ⟨r, u, d, m0, before, [], h0, ?_, s1, by simp, rfl⟩, ?_, ?_, ?_, ?_,
    m0.run before, by rw [(sameBase_run m0 before).2.1, (sameBase_run m0 _).2.1],
    by rw [(sameBase_run m0 before).2.2, (sameBase_run m0 _).2.2], s1, e⟩, ?_, fun k hk hnk => (s4 k hk hnk).same ?_⟩
  · rw [benign_append]
    exact ⟨hben'.1, hbn _ hben'.2.1, trivial⟩
  · rw [(sameBase_run m0 (before ++ [op1])).2.1, (sameBase_run m0 _).2.1]
  · rw [(sameBase_run m0 (before ++ [op1])).2.2, (sameBase_run m0 _).2.2]
  · intro hkb hnb
    have t1 : SamePart (m0.run before) (m0.run (before ++ op :: after)) .bids := by
      rw [run_append]
      refine part_run (p := .bids) (fun o ho => ?_)
      rcases List.mem_cons.1 ho with rfl | ho
      · exact hnb
      · exact hpa o ho _ (by simp [hkb])
    have t2 : SamePart (m0.run before) (m0.run (before ++ [op1])) .bids := by
      rw [run_append]
      refine part_run (p := .bids) (fun o ho => ?_)
      rw [List.mem_singleton] at ho
      rw [ho, hp]
      exact hnb
    simp only [SamePart] at t1 t2
    rw [t1.1, t2.1]
  · intro k hk
    have hss : SameSet k ((m0.run before).step op).1 (m0.run (before ++ op :: after)) := by
      rw [run_append, run_cons]
      exact part_run (p := .set k) (fun o ho => hpa o ho _ (by simp [hk]))
    obtain ⟨e1, e2, e3⟩ := elastics_tables vc K ((m0.run before).step op1).1
    rw [← s3] at e1 e2 e3
    rw [e]
    exact ⟨by rw [hss.conRhs, e1], by rw [hss.unitCon, e2], by rw [hss.mktRhs, e3]⟩
  · intro k hk
    obtain ⟨K1, K2, rfl⟩ := List.append_of_mem hk
    have hk2 : k ∉ K2 := by
      rw [List.nodup_append, List.nodup_cons] at hn
      exact hn.2.1.1
    rw [List.map_append, List.map_cons] at s2 s3
    have hrun : m0.run (before ++ op :: after) = m0.run ((before ++ op1 :: K1.map (fun k => Op.elastic k vc)) ++ Op.elastic k vc ::
        (K2.map (fun k => Op.elastic k vc) ++ after)) := by
      simp only [run_append, run_cons]
      rw [s3]
      simp only [run_append, run_cons]
    refine ⟨r, u, d, m0, before ++ op1 :: K1.map (fun k => Op.elastic k vc), K2.map (fun k => Op.elastic k vc) ++ after, h0, ?_, ?_, ?_, hrun⟩
    · have tr : ∀ (l : List CKey) (a : Market), Benign a (l.map (fun k => Op.elastic k vc)) := by
        intro l
        induction l with
        | nil => intro a; trivial
        | cons k l ih => intro a; exact ⟨trivial, ih _⟩
      have h3 := hben'.2.2
      rw [s3] at h3
      rw [List.append_assoc, benign_append]
      refine ⟨hben'.1, hbn _ hben'.2.1, ?_⟩
      have := benign_append.2 ⟨tr (K1 ++ k :: K2) ((m0.run before).step op1).1, by rw [List.map_append, List.map_cons]; exact h3⟩
      simpa using this
    · rw [run_append, run_cons]
      exact accepted_at s2
    · intro o ho p hp'
      simp only [Op.parts, List.mem_singleton] at hp'
      subst hp'
      rcases List.mem_append.1 ho with ho | ho
      · obtain ⟨j, hj, rfl⟩ := List.mem_map.1 ho
        simp only [Op.parts, List.mem_singleton, Part.set.injEq]
        rintro rfl
        exact hk2 hj
      · exact hpa o ho _ (by simp [hK k hk])
  · rw [run_append, run_cons]
    exact part_run (p := .set k) (fun o ho => hpa o ho _ (by simp [hk]))

theorem makeElastic_nan (a : Market) (k : CKey) (c : VCost) : (a.makeElastic k c).1.nanCon = a.nanCon := by
  unfold Market.makeElastic
  dsimp only
  repeat' split
  all_goals rfl

/-- two sets made elastic where there are none for bidirectional units -/
theorem elastic_pair {a : Market} {k1 k2 b1 b2 : CKey} {c : VCost} (hn : a.nanCon = false) (hb1 : Blank b1 a) (hb2 : Blank b2 a)
    (h1 : k1 ≠ b1 ∧ k2 ≠ b1) (h2 : k1 ≠ b2 ∧ k2 ≠ b2)
    (hok : ((a.makeElastic k1 c).andThen (fun m => (m.makeElastic k2 c).andThen (fun m =>
      (m.elasticIfPresent b1 c).andThen (fun m => m.elasticIfPresent b2 c)))).2 = none) :
    Accepted a ([k1, k2].map (fun k => Op.elastic k c)) ∧
    ((a.makeElastic k1 c).andThen (fun m => (m.makeElastic k2 c).andThen (fun m =>
      (m.elasticIfPresent b1 c).andThen (fun m => m.elasticIfPresent b2 c)))).1 = a.run ([k1, k2].map (fun k => Op.elastic k c)) ∧
    Blank b1 (a.run ([k1, k2].map (fun k => Op.elastic k c))) ∧ Blank b2 (a.run ([k1, k2].map (fun k => Op.elastic k c))) := by
  obtain ⟨o1, e1⟩ := andThen_ok hok
  rw [e1] at hok ⊢
  obtain ⟨o2, e2⟩ := andThen_ok hok
  rw [e2] at hok ⊢
  have n1 := (hb1.elastic h1.1 c).elastic h1.2 c
  have n2 := (hb2.elastic h2.1 c).elastic h2.2 c
  rw [n1.elasticIf] at hok ⊢
  have e3 : Res.andThen (((a.makeElastic k1 c).1.makeElastic k2 c).1, none) (fun m => m.elasticIfPresent b2 c) =
      (((a.makeElastic k1 c).1.makeElastic k2 c).1, none) := n2.elasticIf c
  rw [e3]
  have s1 : a.step (.elastic k1 c) = a.makeElastic k1 c := by simp [Market.step, hn]
  have s2 : (a.makeElastic k1 c).1.step (.elastic k2 c) = (a.makeElastic k1 c).1.makeElastic k2 c := by simp [Market.step, makeElastic_nan, hn]
  have er : a.run ([k1, k2].map (fun k => Op.elastic k c)) = ((a.makeElastic k1 c).1.makeElastic k2 c).1 := by
    show ((a.step (.elastic k1 c)).1.step (.elastic k2 c)).1 = _
    rw [s1, s2]
  rw [er]
  exact ⟨⟨by rw [s1]; exact o1, by rw [s1, s2]; exact o2, trivial⟩, rfl, n1, n2⟩

/-- two sets made elastic, and the two for bidirectional units -/
theorem elastic_four {a : Market} {k1 k2 b1 b2 : CKey} {c : VCost} (hn : a.nanCon = false) (hb1 : a.unitCon.has b1 = true)
    (hb2 : a.unitCon.has b2 = true)
    (hok : ((a.makeElastic k1 c).andThen (fun m => (m.makeElastic k2 c).andThen (fun m =>
      (m.elasticIfPresent b1 c).andThen (fun m => m.elasticIfPresent b2 c)))).2 = none) :
    Accepted a ([k1, k2, b1, b2].map (fun k => Op.elastic k c)) ∧
    ((a.makeElastic k1 c).andThen (fun m => (m.makeElastic k2 c).andThen (fun m =>
      (m.elasticIfPresent b1 c).andThen (fun m => m.elasticIfPresent b2 c)))).1 = a.run ([k1, k2, b1, b2].map (fun k => Op.elastic k c)) := by
  have st : ∀ (a : Market) k, a.nanCon = false → a.step (.elastic k c) = a.makeElastic k c := by
    intro a k hn; simp [Market.step, hn]
  have uc : ∀ (a : Market) k, a.nanCon = false → (a.makeElastic k c).1.unitCon = a.unitCon := by
    intro a k hn
    rw [← st a k hn]
    exact (elastic_tables' a k c).2.1
  obtain ⟨o1, e1⟩ := andThen_ok hok
  rw [e1] at hok ⊢
  have n1 : (a.makeElastic k1 c).1.nanCon = false := by rw [makeElastic_nan, hn]
  have u1 := uc a k1 hn
  have s1 := st a k1 hn
  generalize a.makeElastic k1 c = A at *
  obtain ⟨o2, e2⟩ := andThen_ok hok
  rw [e2] at hok ⊢
  have n2 : (A.1.makeElastic k2 c).1.nanCon = false := by rw [makeElastic_nan, n1]
  have u2 := uc A.1 k2 n1
  have s2 := st A.1 k2 n1
  generalize A.1.makeElastic k2 c = B at *
  have p1 : B.1.elasticIfPresent b1 c = B.1.makeElastic b1 c := by
    unfold Market.elasticIfPresent; rw [u2, u1, if_pos hb1]
  rw [p1] at hok ⊢
  obtain ⟨o3, e3⟩ := andThen_ok hok
  rw [e3] at hok ⊢
  have n3 : (B.1.makeElastic b1 c).1.nanCon = false := by rw [makeElastic_nan, n2]
  have u3 := uc B.1 b1 n2
  have s3 := st B.1 b1 n2
  generalize B.1.makeElastic b1 c = C at *
  have p2 : C.1.elasticIfPresent b2 c = C.1.makeElastic b2 c := by
    unfold Market.elasticIfPresent; rw [u3, u2, u1, if_pos hb2]
  rw [p2] at hok ⊢
  have s4 := st C.1 b2 n3
  refine ⟨⟨by rw [s1]; exact o1, by rw [s1, s2]; exact o2, by rw [s1, s2, s3]; exact o3, by rw [s1, s2, s3, s4]; exact hok, trivial⟩, ?_⟩
  show _ = ((((a.step (.elastic k1 c)).1.step (.elastic k2 c)).1.step (.elastic b1 c)).1.step (.elastic b2 c)).1
  rw [s1, s2, s3, s4]

theorem makeElastic_unitCon (a : Market) (k : CKey) (c : VCost) : (a.makeElastic k c).1.unitCon = a.unitCon := by
  unfold Market.makeElastic
  dsimp only
  repeat' split
  all_goals rfl

theorem andThen_congr {r : Res} {F G : Market → Res} (h : F r.1 = G r.1) : r.andThen F = r.andThen G := by
  obtain ⟨m, e⟩ := r
  cases e
  · exact h
  · rfl

/-- sets made elastic one after the other -/
def elasticAll (c : VCost) : List CKey → Market → Res
  | [], a => (a, none)
  | k :: K, a => (a.makeElastic k c).andThen (elasticAll c K)

theorem elasticAll_ok {c : VCost} {K : List CKey} {a : Market} (hn : a.nanCon = false) (hok : (elasticAll c K a).2 = none) :
    Accepted a (K.map (fun k => Op.elastic k c)) ∧ (elasticAll c K a).1 = a.run (K.map (fun k => Op.elastic k c)) := by
  induction K generalizing a with
  | nil => exact ⟨trivial, rfl⟩
  | cons k K ih =>
    have s1 : a.step (.elastic k c) = a.makeElastic k c := by simp [Market.step, hn]
    unfold elasticAll at hok ⊢
    obtain ⟨o1, e1⟩ := andThen_ok hok
    rw [e1] at hok ⊢
    obtain ⟨i1, i2⟩ := ih (by rw [makeElastic_nan, hn]) hok
    rw [List.map_cons, run_cons]
    exact ⟨⟨by rw [s1]; exact o1, by rw [s1]; exact i1⟩, by rw [s1]; exact i2⟩

theorem elasticAll_append (c : VCost) (K K' : List CKey) (a : Market) : elasticAll c (K ++ K') a = (elasticAll c K a).andThen (elasticAll c K') := by
  induction K generalizing a with
  | nil => rfl
  | cons k K ih =>
    show (a.makeElastic k c).andThen (elasticAll c (K ++ K')) = ((a.makeElastic k c).andThen (elasticAll c K)).andThen _
    cases h : (a.makeElastic k c).2 with
    | none =>
      unfold Res.andThen
      rw [h]
      exact ih _
    | some e =>
      unfold Res.andThen
      rw [h]

/-- two sets made elastic, and those of the two for bidirectional units that are there -/
theorem elastic_present {a : Market} {k1 k2 b1 b2 : CKey} {c : VCost} (hn : a.nanCon = false)
    (hok : ((a.makeElastic k1 c).andThen (fun m => (m.makeElastic k2 c).andThen (fun m =>
      (m.elasticIfPresent b1 c).andThen (fun m => m.elasticIfPresent b2 c)))).2 = none) {K : List CKey}
    (hK : K = [k1, k2] ++ ((if a.unitCon.has b1 = true then [b1] else []) ++ (if a.unitCon.has b2 = true then [b2] else []))) :
    Accepted a (K.map (fun k => Op.elastic k c)) ∧
    ((a.makeElastic k1 c).andThen (fun m => (m.makeElastic k2 c).andThen (fun m =>
      (m.elasticIfPresent b1 c).andThen (fun m => m.elasticIfPresent b2 c)))).1 = a.run (K.map (fun k => Op.elastic k c)) := by
  have ifp : ∀ (b : Market) (k : CKey), b.unitCon = a.unitCon → b.elasticIfPresent k c = elasticAll c (if a.unitCon.has k = true then [k] else []) b := by
    intro b k hb
    unfold Market.elasticIfPresent
    rw [hb]
    by_cases h : a.unitCon.has k = true
    · rw [if_pos h, if_pos h]
      show _ = (b.makeElastic k c).andThen (fun a => (a, none))
      unfold Res.andThen
      rcases b.makeElastic k c with ⟨b', e⟩
      cases e <;> rfl
    · rw [if_neg h, if_neg h]; rfl
  have ifu : ∀ (b : Market) (k : CKey), (b.elasticIfPresent k c).1.unitCon = b.unitCon := by
    intro b k
    unfold Market.elasticIfPresent
    split
    · exact makeElastic_unitCon _ _ _
    · rfl
  have e : (a.makeElastic k1 c).andThen (fun m => (m.makeElastic k2 c).andThen (fun m =>
      (m.elasticIfPresent b1 c).andThen (fun m => m.elasticIfPresent b2 c))) = elasticAll c K a := by
    rw [hK]
    show _ = (a.makeElastic k1 c).andThen (fun m => (m.makeElastic k2 c).andThen (elasticAll c
      ((if a.unitCon.has b1 = true then [b1] else []) ++ (if a.unitCon.has b2 = true then [b2] else []))))
    refine andThen_congr (andThen_congr ?_)
    rw [elasticAll_append]
    have u : ((a.makeElastic k1 c).1.makeElastic k2 c).1.unitCon = a.unitCon := by rw [makeElastic_unitCon, makeElastic_unitCon]
    rw [ifp _ b1 u, ← ifp _ b1 u]
    exact andThen_congr (ifp _ _ (by rw [ifu, u]))
  rw [e] at hok ⊢
  exact elasticAll_ok hn hok

theorem Blank.elastics {k : CKey} {a : Market} (h : Blank k a) {K : List CKey} (hk : k ∉ K) (c : VCost) :
    Blank k (a.run (K.map (fun k => Op.elastic k c))) := by
  refine h.same (part_run (p := .set k) (fun o ho => ?_))
  obtain ⟨j, hj, rfl⟩ := List.mem_map.1 ho
  simp only [Op.parts, List.mem_singleton, Part.set.injEq]
  rintro rfl
  exact hk hj

/-- a set is not stored with no rows -/
def HasRows (k : CKey) (m : Market) : Prop := ∀ rows, m.conRhs.get? k = some rows → rows ≠ []

theorem HasRows.add {a : Market} {k k' : CKey} {t : List Row × List ConUnit} (h : (a.addUnitSet k' t).2 = none) (hk : k = k' ∨ HasRows k a) :
    HasRows k (a.addUnitSet k' t).1 := by
  intro rows hr
  obtain ⟨h1, h2⟩ := addUnitSet_nonempty h
  by_cases e : k = k'
  · subst e
    rw [h2] at hr
    injection hr with hr
    rw [← hr]; exact h1
  · rw [(addUnitSet_get a k' t).2.1, Dict.get?_set_ne _ _ (Ne.symm e)] at hr
    exact hk.resolve_left e rows hr

theorem lim_entries (ls : List Lim) (n : Nat) (dir : CType) (hd : dir ≠ .other) :
    Entries (createConstraints ls n dir) (saveIndex ls n (limEntry dir)) where
  rows := by rw [(createConstraints_parts ls n dir).1]
  maps := by rw [(createConstraints_parts ls n dir).2]
  own := by
    intro e he c hc
    obtain ⟨i, l, _, rfl⟩ := mem_saveIndex.1 he
    simp only [limEntry, List.mem_singleton] at hc
    subst hc; rfl
  nodup := (freshUnit_createConstraints ls n dir hd).nodup

theorem sum_indexed {α β : Type} (l : List α) (n : Nat) (f : Nat → α → β) (g : β → ℚ) (h : α → ℚ) (e : ∀ i a, g (f i a) = h a) :
    ((saveIndex l n f).map g).sum = (l.map h).sum := by
  induction l generalizing n with
  | nil => rfl
  | cons a l ih => simp only [saveIndex, List.map_cons, List.sum_cons, ih, e]

theorem sum_indexed_mem {α β : Type} (l : List α) (n : Nat) (f : Nat → α → β) (g : β → ℚ) (h : α → ℚ) (e : ∀ i, ∀ a ∈ l, g (f i a) = h a) :
    ((saveIndex l n f).map g).sum = (l.map h).sum := by
  induction l generalizing n with
  | nil => rfl
  | cons a l ih =>
    simp only [saveIndex, List.map_cons, List.sum_cons]
    rw [ih _ (fun i a ha => e i a (List.mem_cons_of_mem _ ha)), e _ a (by simp)]

theorem sum_limits {m : Market} (hw : WF m) {ls : List Lim} (hb : ∀ l ∈ ls, l.unit ∉ m.bidi) (n : Nat) (dir : CType) (x : Nat → ℚ) :
    ((saveIndex ls n (limEntry dir)).map (fun e => e.1.ctype.violation (m.entryVal x e.2) e.1.rhs)).sum =
      (ls.map (fun l => dir.violation (m.output x l.unit l.service l.dtype) l.val)).sum := by
  apply sum_indexed_mem
  intro i l hl
  simp [limEntry, Market.entryVal, mapVal_output hw x (hb l hl)]

end Verif
