import Verif.Proofs.OneRow
import Verif.Proofs.Exact
import Verif.Proofs.Losses
import Verif.Proofs.Summary
import Verif.Spec.Split
import Mathlib.Data.List.Pairwise

/-! Markets in which nothing connects two groups of regions: every row and every special ordered set is about one side. -/

namespace Verif

/-! ### Linear programs in two independent parts -/

/-- The two programs have the same variables and sets, and rows that differ only in right hand sides of rows outside `P`; every row and
every special ordered set has its variables on one side. -/
structure TwoParts (lp lp' : Lp) (S P : Nat → Prop) : Prop where
  vars : lp'.vars = lp.vars
  sos2 : lp'.sos2 = lp.sos2
  sos1 : lp'.sos1 = lp.sos1
  rows : ∀ r ∈ lp'.rows, ∃ q ∈ lp.rows, q.cid = r.cid ∧ q.coefs = r.coefs ∧ q.ctype = r.ctype ∧ (P r.cid → q.rhs = r.rhs)
  side : ∀ r ∈ lp'.rows, (∀ c ∈ r.coefs, (S c.1 ↔ P r.cid)) ∧ ∀ v, r.rhs = .var v → (S v ↔ P r.cid)
  side2 : ∀ g ∈ lp.sos2, ∀ a ∈ g, ∀ b ∈ g, (S a.1 ↔ S b.1)
  side1 : ∀ g ∈ lp.sos1, ∀ a ∈ g, ∀ b ∈ g, (S a ↔ S b)

open Classical in
/-- `x` where `S` holds, `y` elsewhere -/
noncomputable def mixed (S : Nat → Prop) (x y : Nat → ℚ) (v : Nat) : ℚ := if S v then x v else y v

theorem mixed_in {S : Nat → Prop} {x y : Nat → ℚ} {v : Nat} (h : S v) : mixed S x y v = x v := if_pos h
theorem mixed_out {S : Nat → Prop} {x y : Nat → ℚ} {v : Nat} (h : ¬ S v) : mixed S x y v = y v := if_neg h

theorem linVal_congr {x y : Nat → ℚ} {cs : List (Nat × ℚ)} (h : ∀ c ∈ cs, x c.1 = y c.1) : linVal x cs = linVal y cs := by
  unfold linVal
  apply sum_map_congr
  intro c hc; rw [h c hc]

theorem TwoParts.feasible {lp lp' : Lp} {S P : Nat → Prop} (h : TwoParts lp lp' S P) {x x' : Nat → ℚ} (hx : Feasible lp x)
    (hx' : Feasible lp' x') : Feasible lp' (mixed S x x') where
  vars := by
    intro v hv
    have h1 := hx.vars v (by rw [← h.vars]; exact hv)
    have h2 := hx'.vars v hv
    unfold LVar.holds at *
    by_cases hs : S v.vid
    · rw [mixed_in hs]; exact h1
    · rw [mixed_out hs]; exact h2
  rows := by
    intro r hr
    obtain ⟨s1, s2⟩ := h.side r hr
    by_cases hp : P r.cid
    · obtain ⟨q, hq, e1, e2, e3, e4⟩ := h.rows r hr
      have := hx.rows q hq
      unfold LRow.holds at *
      rw [linVal_congr (y := x) (fun c hc => mixed_in ((s1 c hc).2 hp)), ← e2, ← e3, ← e4 hp]
      have e5 : q.rhs.eval (mixed S x x') = q.rhs.eval x := by
        rw [e4 hp]
        cases hrhs : r.rhs with
        | const q => rfl
        | var v => exact mixed_in ((s2 v hrhs).2 hp)
      rw [e5]; exact this
    · have := hx'.rows r hr
      unfold LRow.holds at *
      rw [linVal_congr (y := x') (fun c hc => mixed_out (fun hs => hp ((s1 c hc).1 hs)))]
      have e5 : r.rhs.eval (mixed S x x') = r.rhs.eval x' := by
        cases hrhs : r.rhs with
        | const q => rfl
        | var v => exact mixed_out (fun hs => hp ((s2 v hrhs).1 hs))
      rw [e5]; exact this
  sos2 := by
    intro g hg a ha b hb h1 h2 c hc
    have hs := h.side2 g (by rw [← h.sos2]; exact hg)
    by_cases hS : S a.1
    · rw [mixed_in hS] at h1
      rw [mixed_in ((hs a ha b hb).1 hS)] at h2
      exact hx.sos2 g (by rw [← h.sos2]; exact hg) a ha b hb h1 h2 c hc
    · rw [mixed_out hS] at h1
      rw [mixed_out (fun hc => hS ((hs a ha b hb).2 hc))] at h2
      exact hx'.sos2 g hg a ha b hb h1 h2 c hc
  sos1 := by
    intro g hg a ha b hb h1 h2
    have hs := h.side1 g (by rw [← h.sos1]; exact hg)
    by_cases hS : S a
    · rw [mixed_in hS] at h1
      rw [mixed_in ((hs a ha b hb).1 hS)] at h2
      exact hx.sos1 g (by rw [← h.sos1]; exact hg) a ha b hb h1 h2
    · rw [mixed_out hS] at h1
      rw [mixed_out (fun hc => hS ((hs a ha b hb).2 hc))] at h2
      exact hx'.sos1 g hg a ha b hb h1 h2

/-- the other mixture: exchange the roles of the sides -/
theorem TwoParts.swap {lp lp' : Lp} {S P : Nat → Prop} (h : TwoParts lp lp' S P)
    (hr : ∀ r ∈ lp.rows, ∃ q ∈ lp'.rows, q.cid = r.cid ∧ q.coefs = r.coefs ∧ q.ctype = r.ctype ∧ (P r.cid → q.rhs = r.rhs))
    (hs : ∀ r ∈ lp.rows, (∀ c ∈ r.coefs, (S c.1 ↔ P r.cid)) ∧ ∀ v, r.rhs = .var v → (S v ↔ P r.cid)) : TwoParts lp' lp S P where
  vars := h.vars.symm
  sos2 := h.sos2.symm
  sos1 := h.sos1.symm
  rows := hr
  side := hs
  side2 := by rw [h.sos2]; exact h.side2
  side1 := by rw [h.sos1]; exact h.side1

/-- the part of a linear form on one side -/
noncomputable def sidePart (S : Nat → Prop) (x : Nat → ℚ) (cs : List (Nat × ℚ)) : ℚ := linVal (mixed S x (fun _ => 0)) cs

theorem linVal_mixed (S : Nat → Prop) (x y : Nat → ℚ) (cs : List (Nat × ℚ)) :
    linVal (mixed S x y) cs = sidePart S x cs + sidePart (fun v => ¬ S v) y cs := by
  unfold sidePart linVal
  rw [← sum_map_add]
  apply sum_map_congr
  intro c _
  by_cases h : S c.1
  · rw [mixed_in h, mixed_in h, mixed_out (by simpa using h)]; ring
  · rw [mixed_out h, mixed_out h, mixed_in h]; ring

theorem mixed_self (S : Nat → Prop) (x : Nat → ℚ) : mixed S x x = x := by
  funext v
  by_cases h : S v
  · exact mixed_in h
  · exact mixed_out h

/-- Optimal solutions of the two programs can be combined, if the costs differ outside `S` only. -/
theorem TwoParts.optimal {lp lp' : Lp} {S P : Nat → Prop} (h : TwoParts lp lp' S P) (h' : TwoParts lp' lp S P)
    (hc : ∀ x, sidePart S x lp'.obj = sidePart S x lp.obj) {x x' : Nat → ℚ} (hx : Optimal lp x) (hx' : Optimal lp' x') :
    Optimal lp' (mixed S x x') ∧ sidePart S x lp.obj = sidePart S x' lp'.obj := by
  have f1 := h.feasible hx.1 hx'.1
  have f2 := h'.feasible hx'.1 hx.1
  have k1 := hx.2 _ f2
  have k2 := hx'.2 _ f1
  have c : ∀ (l : Lp) (z : Nat → ℚ), l.cost z = sidePart S z l.obj + sidePart (fun v => ¬ S v) z l.obj := by
    intro l z
    have := linVal_mixed S z z l.obj
    rw [mixed_self] at this
    exact this
  have e1 : lp'.cost (mixed S x x') = sidePart S x lp'.obj + sidePart (fun v => ¬ S v) x' lp'.obj := linVal_mixed S x x' lp'.obj
  have e2 : lp.cost (mixed S x' x) = sidePart S x' lp.obj + sidePart (fun v => ¬ S v) x lp.obj := linVal_mixed S x' x lp.obj
  rw [e2, c lp x] at k1
  rw [e1, c lp' x', hc x, hc x'] at k2
  refine ⟨⟨f1, fun y hy => ?_⟩, by rw [hc x']; linarith⟩
  have := hx'.2 y hy
  rw [c lp' x', hc x'] at this
  rw [e1, hc x]
  linarith

/-! ### Who owns a variable -/

inductive Owner where
  | unit (u : String)
  | inter (i : String)

/-- variables with the unit or interconnector they belong to -/
def Market.owners (m : Market) : List (Nat × Owner) :=
  (m.bids.getD []).map (fun b => (b.vid, .unit b.unit)) ++ (m.inters.getD []).map (fun v => (v.vid, .inter v.inter)) ++
  (m.losses.getD []).map (fun v => (v.vid, .inter v.inter)) ++ (m.weights.getD []).map (fun v => (v.vid, .inter v.inter))

def Market.ownerIn (m : Market) (G : String → Prop) : Owner → Prop
  | .unit u => m.unitIn G u
  | .inter i => m.interIn G i

theorem allVars_owners (m : Market) : m.allVars.map LVar.vid = m.owners.map Prod.fst ++ m.defVids := by
  simp [Market.allVars, Market.owners, Market.defVids, List.map_append, List.map_map, List.map_flatMap, Function.comp_def]

theorem owners_nodup {m : Market} (h : Reached m) : (m.owners.map Prod.fst ++ m.defVids).Nodup := by
  rw [← allVars_owners, List.nodup_iff_count_le_one]
  intro i
  rw [vcount_eq]
  exact (h.wf.var i).1

theorem owner_unique {m : Market} (h : Reached m) {v : Nat} {o o' : Owner} (h1 : (v, o) ∈ m.owners) (h2 : (v, o') ∈ m.owners) : o = o' := by
  have := List.inj_on_of_nodup_map (List.nodup_append.1 (owners_nodup h)).1 h1 h2 rfl
  injection this

theorem def_not_owned {m : Market} (h : Reached m) {v : Nat} {o : Owner} (h1 : (v, o) ∈ m.owners) : v ∉ m.defVids := by
  intro h2
  exact (List.nodup_append.1 (owners_nodup h)).2.2 v (List.mem_map_of_mem (f := Prod.fst) h1) v h2 rfl

theorem def_unique {m : Market} (h : Reached m) {e e' : CKey × List DefVar × List Term} (he : e ∈ m.deficits) (he' : e' ∈ m.deficits)
    {v : Nat} (h1 : v ∈ e.2.1.map DefVar.vid) (h2 : v ∈ e'.2.1.map DefVar.vid) : e = e' := by
  have hn := (List.nodup_append.1 (owners_nodup h)).2.1
  unfold Market.defVids at hn
  rw [List.nodup_flatMap] at hn
  by_contra hne
  have hsym : Std.Symm (Function.onFun List.Disjoint fun d : CKey × List DefVar × List Term => d.2.1.map DefVar.vid) :=
    ⟨fun a b hab => List.Disjoint.symm hab⟩
  exact (hn.2.forall he he' hne) h1 h2

/-- the variable is owned by someone on the side of `G` -/
def Market.varIn (m : Market) (G : String → Prop) (v : Nat) : Prop := ∃ o, (v, o) ∈ m.owners ∧ m.ownerIn G o

theorem varIn_iff {m : Market} (h : Reached m) {G : String → Prop} {v : Nat} {o : Owner} (ho : (v, o) ∈ m.owners) :
    m.varIn G v ↔ m.ownerIn G o := by
  constructor
  · rintro ⟨o', h1, h2⟩
    rw [owner_unique h ho h1]; exact h2
  · intro h2; exact ⟨o, ho, h2⟩

theorem owns_bid {m : Market} {b : BidVar} (hb : b ∈ m.bids.getD []) : (b.vid, Owner.unit b.unit) ∈ m.owners := by
  simp only [Market.owners, List.mem_append, List.mem_map]
  exact Or.inl (Or.inl (Or.inl ⟨b, hb, rfl⟩))

theorem owns_inter {m : Market} {v : InterVar} (hv : v ∈ m.inters.getD []) : (v.vid, Owner.inter v.inter) ∈ m.owners := by
  simp only [Market.owners, List.mem_append, List.mem_map]
  exact Or.inl (Or.inl (Or.inr ⟨v, hv, rfl⟩))

theorem owns_loss {m : Market} {v : LossVar} (hv : v ∈ m.losses.getD []) : (v.vid, Owner.inter v.inter) ∈ m.owners := by
  simp only [Market.owners, List.mem_append, List.mem_map]
  exact Or.inl (Or.inr ⟨v, hv, rfl⟩)

theorem owns_weight {m : Market} {v : WeightVar} (hv : v ∈ m.weights.getD []) : (v.vid, Owner.inter v.inter) ∈ m.owners := by
  simp only [Market.owners, List.mem_append, List.mem_map]
  exact Or.inr ⟨v, hv, rfl⟩

/-! ### Tie break rows refer to bids -/

/-- variables of interconnectors -/
def Market.netVids (m : Market) : List Nat :=
  (m.inters.getD []).map InterVar.vid ++ (m.losses.getD []).map LossVar.vid ++ (m.weights.getD []).map WeightVar.vid

def TieWF (m : Market) : Prop := ∀ t ∈ m.tieLhs.getD [], t.vid ∉ m.netVids

theorem tieWF_of {m m' : Market} (h : TieWF m) (hr : RefWF m) (h1 : m'.tieLhs = m.tieLhs)
    (h2 : ∀ v ∈ m'.netVids, v ∈ m.netVids ∨ m.nextVar ≤ v) : TieWF m' := by
  intro t ht hv
  rw [h1] at ht
  rcases h2 _ hv with hv | hv
  · exact h t ht hv
  · have := (hr.refs t.vid (by
      simp only [Market.refs, List.mem_append]
      have : t.vid ∈ (m.tieLhs.getD []).map Term.vid := List.mem_map_of_mem ht
      tauto)).1
    omega

theorem tieWF_same {m m' : Market} (h : TieWF m) (h1 : m'.tieLhs = m.tieLhs) (h2 : m'.inters = m.inters) (h3 : m'.losses = m.losses)
    (h4 : m'.weights = m.weights) : TieWF m' := by
  unfold TieWF Market.netVids at *; rw [h1, h2, h3, h4]; exact h

theorem tieWF_prim {good : Prop} {ks : List Part} {m m' : Market} (h : Prim good ks m m') (hm : TieWF m) (hr : RefWF m)
    (hv : VarWF m) (hI : InterWF m) : TieWF m' := by
  cases h with
  | bids _ b => simp only [Market.setVolumeBids]; repeat' split
                all_goals first | exact hm | exact tieWF_same hm rfl rfl rfl rfl
  | prices _ b => simp only [Market.setPriceBids]; repeat' split
                  all_goals first | exact hm | exact tieWF_same hm rfl rfl rfl rfl
  | unitSet _ k t hk ht => simp only [Market.addUnitSet]; split <;> exact tieWF_same hm rfl rfl rfl rfl
  | regSet _ k t hk ht => simp only [Market.addRegSet]; split <;> exact tieWF_same hm rfl rfl rfl rfl
  | elastic _ k c => simp only [Market.makeElastic]; repeat' split
                     all_goals first | exact hm | exact tieWF_same hm rfl rfl rfl rfl
  | removeFs => simp only [Market.removeFastStart]; repeat' split
                all_goals first | exact hm | exact tieWF_same hm rfl rfl rfl rfl
  | inters _ d =>
    have key : ∀ v ∈ (interVariables d m.nextVar).map InterVar.vid, m.nextVar ≤ v := by
      intro v hv; rw [interVariables_vids] at hv; simp only [List.mem_range'_1] at hv; omega
    have key2 : ∀ m' : Market, m'.tieLhs = m.tieLhs → m'.inters = some (interVariables d m.nextVar) → m'.losses = m.losses →
        m'.weights = m.weights → TieWF m' := by
      intro m' e1 e2 e3 e4
      refine tieWF_of hm hr e1 ?_
      intro v hv
      simp only [Market.netVids, e2, e3, e4, Option.getD_some, List.mem_append] at hv ⊢
      rcases hv with (hv | hv) | hv
      · exact Or.inr (key v hv)
      · tauto
      · tauto
    simp only [Market.setInterconnectors]
    split
    · exact hm
    split
    · exact key2 _ rfl rfl rfl rfl
    · exact key2 _ rfl rfl rfl rfl
  | losses _ f b =>
    simp only [Market.setLosses]
    split
    · exact hm
    split
    · rename_i ds vs im hds hvs him
      split
      · exact tieWF_same hm rfl rfl rfl rfl
      rename_i hne
      have hne := fun h => hne (List.isEmpty_iff.2 h)
      have hlv := losses_lv_ne (n := m.nextVar) hI hds hvs hne
      refine tieWF_of hm hr rfl ?_
      have h1 : ∀ v ∈ (lossVariables vs (mergeFromRegion f ds) m.nextVar).map LossVar.vid, m.nextVar ≤ v := by
        intro v hv
        obtain ⟨l, hl, rfl⟩ := List.mem_map.1 hv
        exact lossVariables_mem hl
      have h2 := le_nextAfter h1 (by simpa using hlv)
      intro v hv
      simp only [Market.netVids, Option.getD_some, List.mem_append] at hv ⊢
      rcases hv with (hv | hv) | hv
      · tauto
      · exact Or.inr (h1 v hv)
      · rw [weightVariables_vids] at hv
        simp only [List.mem_range'_1] at hv
        right; omega
    · exact tieWF_same hm rfl rfl rfl rfl
  | generic _ g => simp only [Market.setGeneric, Market.elasticOpt]; repeat' split
                   all_goals first | exact hm | exact tieWF_same hm rfl rfl rfl rfl
  | linkUnits _ g => simp only [Market.linkUnits]; split <;> exact tieWF_same hm rfl rfl rfl rfl
  | linkRegions _ g => simp only [Market.linkRegions]; split <;> exact tieWF_same hm rfl rfl rfl rfl
  | linkInters _ g => simp only [Market.linkInters]; split <;> exact tieWF_same hm rfl rfl rfl rfl
  | tie _ ps hne hp =>
    obtain ⟨costs, vars, e1, e2, rfl⟩ := hp
    have hb : ∀ q ∈ tieBids costs vars m.units, q.vid ∈ (m.bids.getD []).map BidVar.vid := by
      intro q hq
      simp only [tieBids, List.mem_flatMap, List.mem_map, List.mem_filter, decide_eq_true_eq] at hq
      obtain ⟨cv, ⟨c, _, v, ⟨hv, e⟩, rfl⟩, u, _, rfl⟩ := hq
      rw [e2]
      exact List.mem_map.2 ⟨v, hv, e⟩
    have hn : (m.owners.map Prod.fst).Nodup := by
      rw [List.nodup_iff_count_le_one]
      intro i
      have h1 := (hv i).1
      rw [← vcount_eq, allVars_owners, List.count_append] at h1
      omega
    have hdis : ∀ v ∈ (m.bids.getD []).map BidVar.vid, v ∉ m.netVids := by
      intro v h1 h2
      simp only [Market.owners, List.map_append, List.map_map, Function.comp_def, List.append_assoc] at hn
      refine (List.nodup_append.1 hn).2.2 v h1 v ?_ rfl
      simpa only [Market.netVids, List.append_assoc] using h2
    intro t ht
    simp only [Option.getD_some, tieConstraints, List.mem_append, mem_saveIndex] at ht
    rcases ht with ⟨i, p, hi, rfl⟩ | ⟨i, p, hi, rfl⟩
    · exact hdis _ (hb _ (tiePairs_mem (List.mem_of_getElem? hi)).1)
    · exact hdis _ (hb _ (tiePairs_mem (List.mem_of_getElem? hi)).2)

theorem Reached.tieWF {m : Market} (h : Reached m) : TieWF m := by
  obtain ⟨r, u, di, m0, ops, h1, h2, rfl⟩ := h
  have h3 : TieWF m0 ∧ RefWF m0 ∧ InterWF m0 ∧ VarWF m0 := by
    have hw := (wf_run (ops := []) h1 trivial)
    refine ⟨?_, ?_, hw.inter, hw.var⟩
    · rw [(init_fresh h1).1]; simp [TieWF]
    · rw [(init_fresh h1).1]
      refine ⟨?_, ?_, ?_⟩ <;> simp [Market.refs, Market.defVids]
  exact (run_invariant (good := True) (P := fun m => TieWF m ∧ RefWF m ∧ InterWF m ∧ VarWF m)
    (fun m m' ks hp hq => ⟨tieWF_prim hp hq.1 hq.2.1 hq.2.2.2 hq.2.2.1, refWF_prim hp ⟨hq.2.1, hq.2.2.1⟩, interWF_prim hp hq.2.2.1,
      varWF_prim hp ⟨hq.2.2.2, hq.2.2.1⟩⟩) (fun _ => h2) h3).1

/-- a tie break row refers to bids only -/
theorem tie_bid {m : Market} (hm : Reached m) {t : Term} (ht : t ∈ m.tieLhs.getD []) {o : Owner} (ho : (t.vid, o) ∈ m.owners) :
    ∃ b ∈ m.bids.getD [], b.vid = t.vid := by
  have h := hm.tieWF t ht
  simp only [Market.netVids, List.mem_append, List.mem_map, not_or] at h
  simp only [Market.owners, List.mem_append, List.mem_map] at ho
  rcases ho with ((⟨b, hb, e⟩ | ⟨b, hb, e⟩) | ⟨b, hb, e⟩) | ⟨b, hb, e⟩
  · injection e with e _; exact ⟨b, hb, e⟩
  · injection e with e _; exact absurd ⟨b, hb, e⟩ h.1.1
  · injection e with e _; exact absurd ⟨b, hb, e⟩ h.1.2
  · injection e with e _; exact absurd ⟨b, hb, e⟩ h.2

/-! ### Sides of variables -/

section
variable {m : Market} {G : String → Prop}

theorem unitIn_iff (ha : Unconnected m G) {u : UnitInfo} (hu : u ∈ m.units) : m.unitIn G u.unit ↔ G u.region := by
  constructor
  · rintro ⟨i, hi, e, hg⟩
    exact (ha.units i hi u hu e).1 hg
  · intro h; exact ⟨u, hu, rfl, h⟩

theorem interIn_from (ha : Unconnected m G) {d : InterDef} (hd : d ∈ m.dirs.getD []) : m.interIn G d.inter ↔ G d.fromR := by
  constructor
  · rintro ⟨i, hi, e, hg⟩
    exact (ha.links i hi d hd e).1.1 hg
  · intro h; exact ⟨d, hd, rfl, h⟩

theorem interIn_to (ha : Unconnected m G) {d : InterDef} (hd : d ∈ m.dirs.getD []) : m.interIn G d.inter ↔ G d.toR :=
  (interIn_from ha hd).trans (ha.links d hd d hd rfl).2

/-- regional map rows of the flows -/
theorem interReg_side (hw : WF m) (ha : Unconnected m G) {q : InterMap} (hq : q ∈ m.interReg.getD []) :
    (q.vid, Owner.inter q.inter) ∈ m.owners ∧ (m.interIn G q.inter ↔ G q.region) := by
  rcases hw.inter with ⟨_, _, e⟩ | ⟨ds, n, e1, e2, e3, _⟩
  · rw [e] at hq; simp at hq
  rw [e3, Option.getD_some] at hq
  simp only [interMap, List.mem_append, mem_saveIndex] at hq
  rcases hq with ⟨i, d, hd, rfl⟩ | ⟨i, d, hd, rfl⟩
  · refine ⟨?_, interIn_to ha (d := d) (by rw [e1]; exact List.mem_of_getElem? hd)⟩
    exact owns_inter (v := ⟨d.inter, d.link, n + i, d.min, d.max, d.gcf⟩) (by
      rw [e2, Option.getD_some]; exact mem_saveIndex.2 ⟨i, d, hd, rfl⟩)
  · refine ⟨?_, interIn_from ha (d := d) (by rw [e1]; exact List.mem_of_getElem? hd)⟩
    exact owns_inter (v := ⟨d.inter, d.link, n + i, d.min, d.max, d.gcf⟩) (by
      rw [e2, Option.getD_some]; exact mem_saveIndex.2 ⟨i, d, hd, rfl⟩)

/-- regional map rows of the bids -/
theorem bidReg_side (hw : WF m) (ha : Unconnected m G) {q : VarReg} (hq : q ∈ m.bidReg.getD []) :
    ∃ u, (q.vid, Owner.unit u) ∈ m.owners ∧ (m.unitIn G u ↔ G q.region) := by
  rcases hw.bid with ⟨_, _, e⟩ | ⟨bs, n, _, _, e1, _, e3⟩
  · rw [e] at hq; simp at hq
  rw [e3, Option.getD_some] at hq
  simp only [bidRegMap, List.mem_flatMap, List.mem_map, List.mem_filter, decide_eq_true_eq] at hq
  obtain ⟨b, hb, u, ⟨hu, hc⟩, rfl⟩ := hq
  refine ⟨b.unit, owns_bid (by rw [e1]; exact hb), ?_⟩
  rw [← hc.1]; exact unitIn_iff ha hu

theorem bidUnit_owner (hw : WF m) {q : VarUnit} (hq : q ∈ m.bidUnit.getD []) :
    (q.vid, Owner.unit q.unit) ∈ m.owners ∧ ∃ u ∈ m.units, u.unit = q.unit := by
  rcases hw.bid with ⟨_, e, _⟩ | ⟨bs, n, _, _, e1, e2, _⟩
  · rw [e] at hq; simp at hq
  rw [e2, Option.getD_some] at hq
  simp only [bidUnitMap, List.mem_flatMap, List.mem_map, List.mem_filter, decide_eq_true_eq] at hq
  obtain ⟨b, hb, u, ⟨hu, hc⟩, rfl⟩ := hq
  exact ⟨owns_bid (by rw [e1]; exact hb), u, hu, hc.1⟩

theorem lossReg_side {fs : List LossFn} (hl : LossFunctions fs m) (hw : WF m) (ha : Unconnected m G) {q : VarReg} (hq : q ∈ m.lossReg.getD []) :
    ∃ i, (q.vid, Owner.inter i) ∈ m.owners ∧ (m.interIn G i ↔ G q.region) := by
  rcases hl with ⟨_, h⟩ | ⟨bs, h⟩
  · rw [(noLosses_none h).1] at hq; simp at hq
  obtain ⟨ds, n, nv, nc, n1, n2, nw, h⟩ := losses_set (by simp) h
  rw [h.lossReg, Option.getD_some] at hq
  simp only [lossMap, List.mem_flatMap, List.mem_map, List.mem_filter, decide_eq_true_eq] at hq
  obtain ⟨p, hp, r, ⟨hr, hc⟩, rfl⟩ := hq
  refine ⟨p.1.inter, owns_loss (v := p.1) ?_, ?_⟩
  · rw [h.losses, Option.getD_some]; exact List.mem_map_of_mem hp
  · rw [← hc.1]
    exact (interReg_side hw ha (q := r) (by rw [h.interReg]; exact hr)).2

/-- every variable that counts in a region is on the side of the region -/
theorem regVar_side (hm : Reached m) {fs : List LossFn} (hl : LossFunctions fs m) (ha : Unconnected m G) {q : VarReg} (hq : q ∈ m.regVars) :
    m.varIn G q.vid ↔ G q.region := by
  simp only [Market.regVars, List.mem_append, List.mem_map] at hq
  rcases hq with (hq | ⟨r, hr, rfl⟩) | hq
  · obtain ⟨u, h1, h2⟩ := bidReg_side hm.wf ha hq
    exact (varIn_iff hm h1).trans h2
  · obtain ⟨h1, h2⟩ := interReg_side hm.wf ha hr
    exact (varIn_iff hm h1).trans h2
  · obtain ⟨u, h1, h2⟩ := lossReg_side hl hm.wf ha hq
    exact (varIn_iff hm h1).trans h2

/-- terms of generic constraints are on the side of their set -/
theorem generic_side (hm : Reached m) {side : String → Prop}
    (h1 : ∀ g ∈ m.gUnit.getD [], ∀ u ∈ m.units, u.unit = g.unit → (G u.region ↔ side g.set))
    (h2 : ∀ g ∈ m.gRegion.getD [], (G g.region ↔ side g.set))
    (h3 : ∀ g ∈ m.gInter.getD [], ∀ d ∈ m.dirs.getD [], d.inter = g.inter → (G d.fromR ↔ side g.set))
    (ha : Unconnected m G) {rows : List Row} {t : Term} (ht : t ∈ m.genericTermsFor (setIds rows)) :
    ∃ r ∈ rows, r.cid = t.cid ∧ ∃ s, r.set = some s ∧ (m.varIn G t.vid ↔ side s) := by
  unfold Market.genericTermsFor at ht
  simp only [List.mem_append] at ht
  rcases ht with (ht | ht) | ht
  · split at ht
    · rename_i gs vs e1 e2
      simp only [genericUnitLhs, List.mem_flatMap, List.mem_map, List.mem_filter, decide_eq_true_eq] at ht
      obtain ⟨g, hg, v, ⟨hv, hv2⟩, i, ⟨hi, hs⟩, rfl⟩ := ht
      obtain ⟨r, hr, e, es⟩ := mem_setIds hi
      obtain ⟨o1, u, hu, eu⟩ := bidUnit_owner hm.wf (q := v) (by rw [e2]; exact hv)
      refine ⟨r, hr, e, i.2, es, ?_⟩
      rw [varIn_iff hm o1, hs]
      show m.unitIn G v.unit ↔ _
      rw [← eu, unitIn_iff ha hu]
      exact h1 g (by rw [e1]; exact hg) u hu (by rw [eu, hv2.1])
    · simp at ht
  · split at ht
    · rename_i gs vs e1 e2
      simp only [genericRegionLhs, List.mem_flatMap, List.mem_map, List.mem_filter, decide_eq_true_eq] at ht
      obtain ⟨g, hg, v, ⟨hv, hv2⟩, i, ⟨hi, hs⟩, rfl⟩ := ht
      obtain ⟨r, hr, e, es⟩ := mem_setIds hi
      obtain ⟨u, o1, o2⟩ := bidReg_side hm.wf ha (q := v) (by rw [e2]; exact hv)
      refine ⟨r, hr, e, i.2, es, ?_⟩
      rw [varIn_iff hm o1, hs]
      show m.unitIn G u ↔ _
      rw [o2, hv2.1]
      exact h2 g (by rw [e1]; exact hg)
    · simp at ht
  · split at ht
    · rename_i gs vs e1 e2
      simp only [genericInterLhs, List.mem_flatMap, List.mem_map, List.mem_filter, decide_eq_true_eq] at ht
      obtain ⟨g, hg, v, ⟨hv, hv2⟩, i, ⟨hi, hs⟩, rfl⟩ := ht
      obtain ⟨r, hr, e, es⟩ := mem_setIds hi
      refine ⟨r, hr, e, i.2, es, ?_⟩
      rw [varIn_iff hm (owns_inter (v := v) (by rw [e2]; exact hv)), hs]
      show m.interIn G v.inter ↔ _
      rcases hm.wf.inter with ⟨_, e0, _⟩ | ⟨ds, n, d1, d2, _⟩
      · rw [e0] at e2; cases e2
      · rw [d2] at e2; injection e2 with e2; subst e2
        obtain ⟨j, d, hd, rfl⟩ := mem_saveIndex.1 hv
        have hdm : d ∈ m.dirs.getD [] := by rw [d1]; exact List.mem_of_getElem? hd
        show m.interIn G d.inter ↔ _
        rw [interIn_from ha hdm]
        exact h3 g (by rw [e1]; exact hg) d hdm hv2
    · simp at ht

theorem conRows_inj (hw : ConWF m) {k : CKey} {rows : List Row} (h : m.conRhs.get? k = some rows) {r r' : Row} (hr : r ∈ rows) (hr' : r' ∈ rows)
    (e : r.cid = r'.cid) : r = r' := by
  have hn := allRows_nodup hw
  have h1 : (rows.map Row.cid).Nodup := by
    refine hn.sublist ?_
    unfold Market.allRows Dict.concat
    simp only [List.map_append, List.map_map]
    refine List.Sublist.trans ?_ (List.sublist_append_left _ _)
    refine List.Sublist.trans ?_ (List.sublist_append_left _ _)
    refine List.Sublist.map _ ?_
    obtain ⟨a, b, e⟩ := List.append_of_mem (Dict.mem_of_get? h)
    rw [e, List.flatMap_append, List.flatMap_cons]
    exact (List.sublist_append_left _ _).trans (List.sublist_append_right _ _)
  exact List.inj_on_of_nodup_map h1 hr hr' e

theorem mktRows_inj (hw : ConWF m) {k : CKey} {rows : List Row} (h : m.mktRhs.get? k = some rows) {r r' : Row} (hr : r ∈ rows) (hr' : r' ∈ rows)
    (e : r.cid = r'.cid) : r = r' := by
  have hn := allRows_nodup hw
  have h1 : (rows.map Row.cid).Nodup := by
    refine hn.sublist ?_
    unfold Market.allRows Dict.concat
    simp only [List.map_append, List.map_map]
    refine List.Sublist.trans ?_ (List.sublist_append_left _ _)
    refine List.Sublist.trans ?_ (List.sublist_append_right _ _)
    refine List.Sublist.map _ ?_
    obtain ⟨a, b, e⟩ := List.append_of_mem (Dict.mem_of_get? h)
    rw [e, List.flatMap_append, List.flatMap_cons]
    exact (List.sublist_append_left _ _).trans (List.sublist_append_right _ _)
  exact List.inj_on_of_nodup_map h1 hr hr' e

end

end Verif
