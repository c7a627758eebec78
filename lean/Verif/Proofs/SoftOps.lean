import Verif.Proofs.SoftFill
import Verif.Proofs.WholeHard
import Verif.Proofs.TrapBidi
import Verif.Props.Shortage
import Verif.Props.ConstraintData

/-! What the calls with a violation cost leave behind. -/

namespace Verif

theorem addUnitSet_nonempty {a : Market} {k : CKey} {t : List Row × List ConUnit} (h : (a.addUnitSet k t).2 = none) :
    t.1 ≠ [] ∧ (a.addUnitSet k t).1.conRhs.get? k = some t.1 := by
  unfold Market.addUnitSet at h ⊢
  dsimp only at h ⊢
  split at h
  · simp at h
  · rename_i hc
    rw [if_neg hc]
    exact ⟨by simpa using hc, Dict.get?_set_self ..⟩

theorem addRegSet_nonempty {a : Market} {k : CKey} {t : List Row × List ConReg} (h : (a.addRegSet k t).2 = none) :
    t.1 ≠ [] ∧ (a.addRegSet k t).1.mktRhs.get? k = some t.1 := by
  unfold Market.addRegSet at h ⊢
  dsimp only at h ⊢
  split at h
  · simp at h
  · rename_i hc
    rw [if_neg hc]
    exact ⟨by simpa using hc, Dict.get?_set_self ..⟩

/-- making a set elastic leaves its rows and maps alone -/
theorem elastic_tables' (a : Market) (k : CKey) (vc : VCost) :
    (a.step (.elastic k vc)).1.conRhs = a.conRhs ∧ (a.step (.elastic k vc)).1.unitCon = a.unitCon ∧
    (a.step (.elastic k vc)).1.mktRhs = a.mktRhs ∧ (a.step (.elastic k vc)).1.regCon = a.regCon := by
  simp only [Market.step]
  split
  · exact ⟨rfl, rfl, rfl, rfl⟩
  simp only [Market.makeElastic]
  repeat' split
  all_goals exact ⟨rfl, rfl, rfl, rfl⟩

/-- the market as it was when the set of a call with a violation cost had been made, but was not yet elastic -/
theorem apart_before {op op1 : Op} {k : CKey} {vc : VCost} (h : op.apart = some (op1, k, vc)) {m : Market}
    (hi : InForce op m) (hne : op ≠ .generic [] (some vc)) :
    ∃ m1, InForce op1 m1 ∧ m.bidi = m1.bidi ∧ m.conRhs.get? k = m1.conRhs.get? k ∧
      m.unitCon.get? k = m1.unitCon.get? k ∧ m.mktRhs.get? k = m1.mktRhs.get? k ∧ m.regCon.get? k = m1.regCon.get? k ∧
      ∃ a : Market, (a.step op1).2 = none ∧ m1 = (a.step op1).1 := by
  obtain ⟨r, u, d, m0, before, after, h0, hb, hok, hp, rfl⟩ := hi
  obtain ⟨h1, h2⟩ := apart_step h hok hne
  obtain ⟨p0, p1, b1⟩ := apart_benign h
  have hb' := benign_append.1 hb
  have hs : SameSet k ((m0.run before).step op).1 (m0.run (before ++ op :: after)) := by
    rw [run_append, run_cons]
    exact part_run (p := .set k) (fun o ho => hp o ho _ (by rw [p0]; simp))
  obtain ⟨e1, e2, e3, e4⟩ := elastic_tables' ((m0.run before).step op1).1 k vc
  rw [← h2] at e1 e2 e3 e4
  have e : m0.run (before ++ [op1]) = ((m0.run before).step op1).1 := by rw [run_append]; rfl
  refine ⟨m0.run (before ++ [op1]), ⟨r, u, d, m0, before, [], h0, ?_, h1, by simp, rfl⟩, ?_, ?_, ?_, ?_, ?_, m0.run before, h1, e⟩
  · rw [benign_append]
    exact ⟨hb'.1, b1 _ hb'.2.1, trivial⟩
  · unfold Market.bidi
    rw [(sameBase_run m0 (before ++ op :: after)).2.1, (sameBase_run m0 (before ++ [op1])).2.1]
  · rw [hs.conRhs, e1, e]
  · rw [hs.unitCon, e2, e]
  · rw [hs.mktRhs, e3, e]
  · rw [hs.regCon, e4, e]

theorem side_one {m : Market} {u : String} (h : u ∉ m.bidi) (s : Service) (d : DType) : m.side u s d = 1 := by
  unfold Market.side
  rw [if_neg (fun hc => h hc.1)]

theorem mapVal_output {m : Market} (hw : WF m) (x : Nat → ℚ) {u : String} (hb : u ∉ m.bidi) (s : Service) (d : DType) :
    m.mapVal x u s d = m.output x u s d := by
  rw [mapVal_side hw, side_one hb, one_mul]

theorem originalLhs_own {m : Market} (hw : WF m) {k : CKey} {c : Nat} (hin : InTab m k c) {ts : List Term}
    (ho : m.ownTerms k = ((m.deficits.get? k).elim [] (·.2)) ++ ts) (x : Nat → ℚ) : m.originalLhs k x c = rowVal ts x c := by
  have h := rowVal_own hw.con hin x
  rw [ho, rowVal_append] at h
  rw [originalLhs_eq]
  cases hd : m.deficits.get? k with
  | none =>
    have e : m.inelastic k = m := by
      unfold Market.inelastic
      rw [Dict.erase_none hd]
    rw [e, h, hd]
    simp [rowVal_nil]
  | some d =>
    rw [rowVal_split hw hd, hd] at h
    simp only [Option.elim_some] at h
    linarith

/-- the left hand side of a unit level constraint before it was made elastic -/
theorem originalLhs_unit {m : Market} (hw : WF m) {k : CKey} (hk : k.isUnit = true) {t : List Row × List ConUnit}
    (h1 : m.conRhs.get? k = some t.1) (h2 : m.unitCon.get? k = some t.2) {r : Row} (hr : r ∈ t.1) (x : Nat → ℚ) :
    m.originalLhs k x r.cid = m.unitLhs x t.2 r.cid := by
  rw [originalLhs_own hw (Or.inr (Or.inr (Or.inl ⟨t.1, Dict.mem_of_get? h1, r, hr, rfl⟩))) (ownTerms_unit hw hk),
    rowVal_createLhsUnit, h2]
  rfl

theorem noMkt {m : Market} (hw : WF m) {k : CKey} (hk : k.isMarket = false) : m.mktRhs.get? k = none := by
  apply get?_none_of_keys
  rintro e he rfl
  have := hw.con.mktMkt e he
  rw [hk] at this; cases this

theorem originalLhs_generic {m : Market} (hw : WF m) {rows : List Row} (hr : m.conRhs.get? .generic = some rows) {r : Row} (hm : r ∈ rows)
    {s : String} (hs : r.set = some s) (x : Nat → ℚ) : m.originalLhs .generic x r.cid = m.linked x s := by
  have hnd : (rows.map Row.cid).Nodup := rows_nodup hw.con (k := .generic) (by
    unfold Market.rowsOf
    rw [noMkt hw (k := .generic) rfl, hr])
  have hown : m.ownTerms .generic = ((m.deficits.get? .generic).elim [] (·.2)) ++ m.genericTermsFor (setIds rows) := by
    have h5 : m.unitCon.get? .generic = none := by
      apply get?_none_of_keys
      intro e he h'
      have := hw.key.1 e he
      rw [h'] at this; simp [CKey.isUnit] at this
    have h6 : m.regCon.get? .generic = none := by
      apply get?_none_of_keys
      intro e he h'
      have := hw.key.2 e he
      rw [h'] at this; simp [CKey.isMarket] at this
    unfold Market.ownTerms Market.genericRows
    rw [h5, h6, if_pos rfl, hr]
    simp [createLhsUnit, createLhsReg]
  rw [originalLhs_own hw (Or.inr (Or.inr (Or.inl ⟨rows, Dict.mem_of_get? hr, r, hm, rfl⟩))) hown, rowVal_genericTermsFor hw hnd hm hs]

theorem forall₂_index {α β γ : Type} {R : β → γ → Prop} {rows : List α} {n : Nat} {f : Nat → α → β} {g : α → γ}
    (h : ∀ i a, rows[i]? = some a → R (f (n + i) a) (g a)) : List.Forall₂ R (saveIndex rows n f) (rows.map g) := by
  induction rows generalizing n with
  | nil => exact List.Forall₂.nil
  | cons a rows ih =>
    refine List.Forall₂.cons (h 0 a rfl) (ih (n := n + 1) (fun i b hb => ?_))
    have := h (i + 1) b (by simpa using hb)
    rwa [show n + (i + 1) = n + 1 + i by omega] at this

theorem forall₂_app {α β : Type} {R : α → β → Prop} {a c : List α} {b d : List β} (h1 : List.Forall₂ R a b) (h2 : List.Forall₂ R c d) :
    List.Forall₂ R (a ++ c) (b ++ d) := by
  induction h1 with
  | nil => exact h2
  | cons h _ ih => exact List.Forall₂.cons h ih

/-- the rows of a set and what a schedule pays for them -/
structure Priced (m : Market) (os : List Op) (op : Op) (p : Piece) : Prop where
  set : ElasticSet m p.key p.vc p.start
  parts : op.parts = [.set p.key]
  rows : ∀ x, List.Forall₂ (fun (r : Row) a => p.vc.of r = some a.1 ∧ 0 ≤ a.1 ∧ m.rowViolation p.key x r = a.2)
    ((m.rowsOf p.key).getD []) (op.misses m os x)

theorem SameSchedule.misses {m : Market} {x z : Nat → ℚ} (h : SameSchedule m x z) {os : List Op} (op : Op) :
    op.misses m os z = op.misses m os x := by
  have hd := h.dispatched
  have hf := h.flow
  have hl := h.linkLoss
  have ho : m.output z = m.output x := by funext u s d; unfold Market.output; rw [hd]
  have hs : m.supply z = m.supply x := by funext r s; unfold Market.supply; rw [hd]
  have hn : m.netImport z = m.netImport x := by funext r; unfold Market.netImport; rw [hf]
  have hc : m.chargedLoss z = m.chargedLoss x := by funext fs r; unfold Market.chargedLoss; rw [hl]
  have hss : m.setSupply z = m.setSupply x := by funext rs t; unfold Market.setSupply; rw [hs]
  have hk : m.linked z = m.linked x := by
    funext t
    unfold Market.linked Market.unitTotal Market.regionTotal Market.interTotal
    rw [hd, hf]
  have hno : m.netOutput z = m.netOutput x := by funext u; unfold Market.netOutput; rw [hd]
  have hse : m.sideEnergy z = m.sideEnergy x := by funext u d; unfold Market.sideEnergy; rw [ho]
  have hpo : m.position z = m.position x := by funext u d; unfold Market.position; rw [ho, hno]
  have hre : m.regulation z = m.regulation x := by funext u s d; unfold Market.regulation; rw [ho, hd]
  unfold Op.misses
  have hrg : m.regEnergy z = m.regEnergy x := by funext u s; unfold Market.regEnergy; rw [hd]
  split <;> try simp only [ho, hs, hn, hc, hss, hk, hno, hse, hpo, hre, hrg, hd]
  refine List.flatMap_congr (fun a ha => List.map_congr_left (fun b hb => ?_))
  rw [h.1 a ha, h.1 b (List.mem_of_mem_filter hb)]

theorem forall₂_same {α β : Type} {P Q : α → β → Prop} {V W : α → ℚ} {f : β → ℚ} (hP : ∀ a b, P a b → V a = f b) (hQ : ∀ a b, Q a b → W a = f b)
    {l : List α} {L : List β} (h1 : List.Forall₂ P l L) (h2 : List.Forall₂ Q l L) : ∀ a ∈ l, W a = V a := by
  induction h1 with
  | nil => simp
  | cons h _ ih =>
    cases h2 with
    | cons h' h2 =>
      intro a ha
      rcases List.mem_cons.1 ha with rfl | ha
      · rw [hP _ _ h, hQ _ _ h']
      · exact ih h2 a ha

theorem Priced.soft {m : Market} {os : List Op} {op : Op} {p : Piece} (h : Priced m os op p) :
    SoftPiece m p ∧ ∀ x, m.violationCost p.key p.vc x = ((op.misses m os x).map (fun a => a.1 * a.2)).sum := by
  have hall : ∀ r ∈ (m.rowsOf p.key).getD [], ∃ c, p.vc.of r = some c ∧ 0 ≤ c := by
    intro r hr
    obtain ⟨a, _, h1, h2, _⟩ := Cons.forall₂_mem' (h.rows (fun _ => 0)) hr
    exact ⟨a.1, h1, h2⟩
  have hel : m.elasticRows p.key p.vc = (m.rowsOf p.key).getD [] := by
    unfold Market.elasticRows
    rw [List.filter_eq_self]
    intro r hr
    obtain ⟨c, hc, _⟩ := hall r hr
    rw [hc]; rfl
  refine ⟨⟨h.set, ?_, ?_, ?_⟩, ?_⟩
  · intro r hr
    obtain ⟨c, hc, _⟩ := hall r hr
    rw [hc]; rfl
  · intro r hr
    rw [hel] at hr
    obtain ⟨c, hc, h0⟩ := hall r hr
    rw [hc]; exact h0
  · intro x y hs e he
    rw [hel] at he
    have h1 := h.rows x
    have h2 := h.rows y
    rw [hs.misses] at h2
    exact forall₂_same (V := m.rowViolation p.key x) (W := m.rowViolation p.key y) (f := Prod.snd) (fun _ _ h => h.2.2) (fun _ _ h => h.2.2) h1 h2 e he
  · intro x
    unfold Market.violationCost
    rw [hel]
    have := h.rows x
    generalize (m.rowsOf p.key).getD [] = l at this
    generalize op.misses m os x = L at this
    induction this with
    | nil => rfl
    | cons h _ ih =>
      simp only [List.map_cons, List.sum_cons, ih, h.1, h.2.2, Option.getD_some]

/-- the tables of a call that was accepted are not empty -/
theorem apart_nonempty {op op1 : Op} {k : CKey} {vc : VCost} (h : op.apart = some (op1, k, vc)) (hne : op ≠ .generic [] (some vc))
    {a : Market} (hok : (a.step op1).2 = none) {rows : List Row} :
    (k.isMarket = false → (a.step op1).1.conRhs.get? k = some rows → rows ≠ []) ∧
    (k.isMarket = true → (a.step op1).1.mktRhs.get? k = some rows → rows ≠ []) := by
  have hn := step_ok hok
  unfold Op.apart at h
  split at h <;> simp only [Option.some.injEq, Prod.mk.injEq, reduceCtorEq] at h
  case h_8 g c =>
    obtain ⟨rfl, rfl, rfl⟩ := h
    simp only [Market.step, hn, Market.setGeneric, Bool.false_eq_true, if_false] at hok ⊢
    refine ⟨fun _ => ?_, fun h => by simp [CKey.isMarket] at h⟩
    split at hok
    · simp at hok
    rename_i h1
    simp only [h1]
    cases g with
    | nil => exact absurd rfl hne
    | cons e g =>
      simp only [saveIndex, List.isEmpty_cons, Bool.false_eq_true, if_false, Market.elasticOpt]
      rw [Dict.get?_set_self]
      intro e; injection e with e
      rw [← e]; simp
  all_goals
    obtain ⟨rfl, rfl, rfl⟩ := h
    simp only [Market.step, hn, Market.setCapacity, Market.setUigf, Market.setDemand, Market.setFcasReq, Market.setFcasMaxAvail,
      Market.setJointCapacity, Market.setEnergyReg, Bool.false_eq_true, if_false] at hok ⊢
    repeat' split at hok
    all_goals try (simp at hok; done)
    obtain ⟨k1, k2⟩ := andThen_ok hok
    simp only [*, Bool.false_eq_true, if_false]
    first
      | (obtain ⟨e1, e2⟩ := addUnitSet_nonempty k1
         refine ⟨fun _ => ?_, fun h => by simp [CKey.isMarket] at h⟩
         simp only [Market.elasticOpt]
         rw [e2]
         intro e; injection e with e
         rw [← e]; exact e1)
      | (obtain ⟨e1, e2⟩ := addRegSet_nonempty k1
         refine ⟨fun h => by simp [CKey.isMarket] at h, fun _ => ?_⟩
         simp only [Market.elasticOpt]
         rw [e2]
         intro e; injection e with e
         rw [← e]; exact e1)

theorem priced_of {m : Market} {os : List Op} {op op1 : Op} {k : CKey} {vc : VCost} (h : op.apart = some (op1, k, vc)) (hi : InForce op m)
    (hne : op ≠ .generic [] (some vc)) (hp : vc.proper) {rows : List Row} (hr : m.rowsOf k = some rows) (hn : rows ≠ [])
    (hF : ∀ x, List.Forall₂ (fun (r : Row) a => vc.of r = some a.1 ∧ 0 ≤ a.1 ∧ m.rowViolation k x r = a.2) rows (op.misses m os x)) :
    ∃ n, Priced m os op ⟨k, vc, n⟩ := by
  have hel : m.elasticRows k vc = rows := by
    unfold Market.elasticRows
    rw [hr, Option.getD_some, List.filter_eq_self]
    intro r hr
    obtain ⟨a, _, h1, _⟩ := Cons.forall₂_mem' (hF (fun _ => 0)) hr
    rw [h1]; rfl
  obtain ⟨n, S⟩ := elasticSet_of (apart_inForce h hi hne) hp (by rw [hel]; exact hn)
  refine ⟨n, S, (apart_benign h).1, ?_⟩
  intro x
  dsimp only
  rw [hr]
  exact hF x

/-- a unit level set with a violation cost, given by its entries -/
theorem priced_unit {m : Market} {os : List Op} {op op1 : Op} {k : CKey} {c : ℚ} (h : op.apart = some (op1, k, .num c)) (hi : InForce op m)
    (hne : op ≠ .generic [] (some (.num c))) (hk : k.isUnit = true) (hw : WF m) (hc : 0 ≤ c)
    {t : List Row × List ConUnit} (ht : ∀ m1, InForce op1 m1 → m.bidi = m1.bidi → m.conRhs.get? k = m1.conRhs.get? k →
      m.unitCon.get? k = m1.unitCon.get? k → m.conRhs.get? k = some t.1 ∧ m.unitCon.get? k = some t.2)
    (hF : ∀ x, List.Forall₂ (fun (r : Row) a => c = a.1 ∧ (r ∈ t.1 → r.ctype.violation (m.unitLhs x t.2 r.cid) r.rhs = a.2)) t.1 (op.misses m os x)) :
    ∃ n, Priced m os op ⟨k, .num c, n⟩ := by
  obtain ⟨m1, i1, i2, i3, i4, i5, i6, a, ha, e⟩ := apart_before h hi hne
  obtain ⟨t1, t2⟩ := ht m1 i1 i2 i3 i4
  have hmk := isUnit_not_market hk
  have hr : m.rowsOf k = some t.1 := by unfold Market.rowsOf; rw [noMkt hw hmk, t1]
  refine priced_of h hi hne trivial hr ((apart_nonempty h hne ha).1 hmk (by rw [← e, ← i3]; exact t1)) ?_
  intro x
  have key : ∀ r ∈ t.1, ∀ b : ℚ × ℚ, (c = b.1 ∧ (r ∈ t.1 → r.ctype.violation (m.unitLhs x t.2 r.cid) r.rhs = b.2)) →
      (VCost.num c).of r = some b.1 ∧ 0 ≤ b.1 ∧ m.rowViolation k x r = b.2 := by
    intro r hr b hb
    refine ⟨by rw [← hb.1]; rfl, by rw [← hb.1]; exact hc, ?_⟩
    unfold Market.rowViolation
    rw [originalLhs_unit hw hk t1 t2 hr]
    exact hb.2 hr
  exact ((List.forall₂_and_left (p := fun r => r ∈ t.1) _ _).2 ⟨fun r hr => hr, hF x⟩).imp (fun r b hb => key r hb.1 b hb.2)

end Verif
