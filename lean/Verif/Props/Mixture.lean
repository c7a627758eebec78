import Verif.Props.Comparative
import Verif.Props.Existence
import Verif.Proofs.Rename
import Verif.Spec.Mixture

/-!
# C134: the cost of the dispatch is convex in demands, limits and requirements
-/

namespace Verif

/-- rows with a right hand side made from two values -/
def rowsWith (B : List (Row × ℚ × ℚ)) (f : ℚ → ℚ → ℚ) : List Row := B.map (fun b => { b.1 with rhs := f b.2.1 b.2.2 })

theorem rowsWith_noRhs (B : List (Row × ℚ × ℚ)) (f g : ℚ → ℚ → ℚ) : (rowsWith B f).map Row.noRhs = (rowsWith B g).map Row.noRhs := by
  unfold rowsWith
  rw [List.map_map, List.map_map]
  rfl

/-- the set `k` of a market whose rows are those of `B`, with right hand sides `f`, in the tables of units or of the market; in the other
kind of tables the set is as in `a` -/
def TableKind (unit : Bool) (B : List (Row × ℚ × ℚ)) (k : CKey) (a m : Market) (f : ℚ → ℚ → ℚ) : Prop :=
  if unit then m.conRhs.get? k = some (rowsWith B f) ∧ m.mktRhs.get? k = a.mktRhs.get? k
  else m.mktRhs.get? k = some (rowsWith B f) ∧ m.conRhs.get? k = a.conRhs.get? k

theorem TableKind.elastic {u : Bool} {B : List (Row × ℚ × ℚ)} {k : CKey} {a m : Market} {f : ℚ → ℚ → ℚ} (h : TableKind u B k a m f)
    (c : Option VCost) : TableKind u B k a (m.elasticOpt k c).1 f := by
  unfold TableKind at h ⊢
  rw [(elasticOpt_rhs m k c).1, (elasticOpt_rhs m k c).2.1]
  exact h

/-- what a call with the values `f` leaves -/
def FamR (u : Bool) (B : List (Row × ℚ × ℚ)) (k : CKey) (a : Market) (R : (ℚ → ℚ → ℚ) → Res) (f : ℚ → ℚ → ℚ) : Prop :=
  TableKind u B k a (R f).1 f ∧ ∀ g, (R f).2 = none → (R g).2 = none → AlikeR k (R f) (R g) ∧ (R g).1.bidCost = (R f).1.bidCost

theorem fam_unitSet (a : Market) (k : CKey) (B : List (Row × ℚ × ℚ)) (C : List ConUnit) (c : Option VCost) (f : ℚ → ℚ → ℚ) :
    FamR true B k a (fun f => (a.addUnitSet k (rowsWith B f, C)).andThen (fun m => m.elasticOpt k c)) f := by
  have key : ∀ t : List Row × List ConUnit, (a.addUnitSet k t).1.conRhs.get? k = some t.1 ∧ (a.addUnitSet k t).1.mktRhs = a.mktRhs ∧
      (a.addUnitSet k t).1.bidCost = a.bidCost ∧ (a.addUnitSet k t).1.bidCost = a.bidCost := by
    intro t
    unfold Market.addUnitSet; dsimp only; split <;> simp [Dict.get?_set_self]
  have hT : TableKind true B k a (a.addUnitSet k (rowsWith B f, C)).1 f := by
    unfold TableKind
    rw [if_pos rfl, (key _).1, (key _).2.1]
    exact ⟨rfl, rfl⟩
  refine ⟨?_, fun g _ _ => ⟨?_, ?_⟩⟩
  · dsimp only [Res.andThen]
    split
    · exact hT.elastic c
    · exact hT
  · refine AlikeR.andThen ?_ (fun m M h => elasticOpt_alike h _ _)
    exact unitSet_alike' (.refl k a) k (fun e => absurd rfl e) (rowsWith_noRhs B g f) rfl
  · have hc : ∀ f, ((a.addUnitSet k (rowsWith B f, C)).andThen (fun m => m.elasticOpt k c)).1.bidCost = a.bidCost := by
      intro f
      unfold Res.andThen
      split
      · rw [(elasticOpt_rhs _ _ _).2.2, (key _).2.2.1]
      · exact (key _).2.2.1
    rw [hc, hc]

theorem fam_regSet (a : Market) (k : CKey) (B : List (Row × ℚ × ℚ)) (C : List ConReg) (c : Option VCost) (f : ℚ → ℚ → ℚ) :
    FamR false B k a (fun f => (a.addRegSet k (rowsWith B f, C)).andThen (fun m => m.elasticOpt k c)) f := by
  have key : ∀ t : List Row × List ConReg, (a.addRegSet k t).1.mktRhs.get? k = some t.1 ∧ (a.addRegSet k t).1.conRhs = a.conRhs ∧
      (a.addRegSet k t).1.bidCost = a.bidCost ∧ (a.addRegSet k t).1.bidCost = a.bidCost := by
    intro t
    unfold Market.addRegSet; dsimp only; split <;> simp [Dict.get?_set_self]
  have hT : TableKind false B k a (a.addRegSet k (rowsWith B f, C)).1 f := by
    unfold TableKind
    rw [if_neg (by simp), (key _).1, (key _).2.1]
    exact ⟨rfl, rfl⟩
  refine ⟨?_, fun g _ _ => ⟨?_, ?_⟩⟩
  · dsimp only [Res.andThen]
    split
    · exact hT.elastic c
    · exact hT
  · refine AlikeR.andThen ?_ (fun m M h => elasticOpt_alike h _ _)
    exact regSet_alike' (.refl k a) k (fun e => absurd rfl e) (rowsWith_noRhs B g f) rfl
  · have hc : ∀ f, ((a.addRegSet k (rowsWith B f, C)).andThen (fun m => m.elasticOpt k c)).1.bidCost = a.bidCost := by
      intro f
      unfold Res.andThen
      split
      · rw [(elasticOpt_rhs _ _ _).2.2, (key _).2.2.1]
      · exact (key _).2.2.1
    rw [hc, hc]

/-- `saveIndex` of rows with two values -/
theorem saveIndex_with {α : Type} (l : List α) (n : Nat) (r : Nat → α → Row) (p q : α → ℚ) (f : ℚ → ℚ → ℚ) :
    saveIndex l n (fun i a => { r i a with rhs := f (p a) (q a) }) = rowsWith (saveIndex l n (fun i a => (r i a, p a, q a))) f := by
  unfold rowsWith
  rw [map_saveIndex]

theorem lims_with (rows : List (Lim × ℚ)) (n : Nat) (f : ℚ → ℚ → ℚ) :
    (createConstraints (rows.map (fun r => { r.1 with val := f r.1.val r.2 })) n .le) =
      (rowsWith (saveIndex rows n (fun i r => (({ cid := i, ctype := .le, rhs := 0 } : Row), r.1.val, r.2))) f,
       (createConstraints (rows.map Prod.fst) n .le).2) := by
  refine Prod.ext ?_ ?_
  · show saveIndex _ _ _ = rowsWith _ _
    rw [saveIndex_map, ← saveIndex_with]
  · show saveIndex _ _ _ = saveIndex _ _ _
    rw [saveIndex_map, saveIndex_map]

theorem family_step (T : TwoTables) (a : Market) (f0 : ℚ → ℚ → ℚ) (h0 : (a.step (T.call f0)).2 = none) : ∃ k u B, k ≠ .interpWeights ∧
    (∀ f, Part.set k ∈ (T.call f).parts) ∧ ∀ f, (a.step (T.call f)).2 = none → TableKind u B k a (a.step (T.call f)).1 f ∧
      ∀ g, (a.step (T.call g)).2 = none → AlikeR k (a.step (T.call f)) (a.step (T.call g)) ∧
        (a.step (T.call g)).1.bidCost = (a.step (T.call f)).1.bidCost := by
  have hn := step_ok h0
  cases T with
  | demand rows vc =>
    have key : ∀ f, (a.step ((TwoTables.demand rows vc).call f)).2 = none → a.step ((TwoTables.demand rows vc).call f) =
        (a.addRegSet .demand (rowsWith (saveIndex rows a.nextCon (fun i r => (({ cid := i, ctype := .eq, rhs := 0, region := some r.1.region } : Row),
          r.1.demand, r.2))) f, (energyConstraints (rows.map Prod.fst) a.nextCon).2)).andThen (fun m => m.elasticOpt .demand vc) := by
      intro f h
      simp only [TwoTables.call, Market.step, hn, Bool.false_eq_true, if_false, Market.setDemand] at h ⊢
      split at h
      · cases h
      rename_i c
      rw [if_neg c]
      have e : energyConstraints (rows.map (fun r => { r.1 with demand := f r.1.demand r.2 })) a.nextCon =
          (rowsWith (saveIndex rows a.nextCon (fun i r => (({ cid := i, ctype := .eq, rhs := 0, region := some r.1.region } : Row),
            r.1.demand, r.2))) f, (energyConstraints (rows.map Prod.fst) a.nextCon).2) := by
        refine Prod.ext ?_ ?_
        · show saveIndex _ _ _ = rowsWith _ _
          rw [saveIndex_map, ← saveIndex_with]
        · show saveIndex _ _ _ = saveIndex _ _ _
          rw [saveIndex_map, saveIndex_map]
      rw [e]
    refine ⟨.demand, false, (saveIndex rows a.nextCon (fun i r => (({ cid := i, ctype := .eq, rhs := 0, region := some r.1.region } : Row),
          r.1.demand, r.2))), by simp, fun f => by simp [TwoTables.call, Op.parts], fun f hf => ?_⟩
    have F := fam_regSet a .demand (saveIndex rows a.nextCon (fun i r => (({ cid := i, ctype := .eq, rhs := 0, region := some r.1.region } : Row),
          r.1.demand, r.2))) (energyConstraints (rows.map Prod.fst) a.nextCon).2 vc f
    refine ⟨by rw [key f hf]; exact F.1, fun g hg => ?_⟩
    have G := F.2 g (by dsimp only; rw [← key f hf]; exact hf) (by dsimp only; rw [← key g hg]; exact hg)
    rw [key f hf, key g hg]
    exact G
  | capacity rows vc =>
    have key : ∀ f, (a.step ((TwoTables.capacity rows vc).call f)).2 = none → a.step ((TwoTables.capacity rows vc).call f) =
        (a.addUnitSet .unitBidCapacity (rowsWith (saveIndex rows a.nextCon (fun i r => (({ cid := i, ctype := .le, rhs := 0 } : Row),
          r.1.val, r.2))) f, (capacityConstraints (rows.map Prod.fst) a.nextCon a.bidi).2)).andThen (fun m => m.elasticOpt .unitBidCapacity vc) := by
      intro f h
      simp only [TwoTables.call, Market.step, hn, Bool.false_eq_true, if_false, Market.setCapacity] at h ⊢
      split at h
      · cases h
      split at h
      · cases h
      rename_i c c'
      rw [if_neg c, if_neg c']
      unfold capacityConstraints
      dsimp only
      rw [lims_with]
    refine ⟨.unitBidCapacity, true, (saveIndex rows a.nextCon (fun i r => (({ cid := i, ctype := .le, rhs := 0 } : Row),
          r.1.val, r.2))), by simp, fun f => by simp [TwoTables.call, Op.parts], fun f hf => ?_⟩
    have F := fam_unitSet a .unitBidCapacity (saveIndex rows a.nextCon (fun i r => (({ cid := i, ctype := .le, rhs := 0 } : Row),
          r.1.val, r.2))) (capacityConstraints (rows.map Prod.fst) a.nextCon a.bidi).2 vc f
    refine ⟨by rw [key f hf]; exact F.1, fun g hg => ?_⟩
    have G := F.2 g (by dsimp only; rw [← key f hf]; exact hf) (by dsimp only; rw [← key g hg]; exact hg)
    rw [key f hf, key g hg]
    exact G
  | uigf rows vc =>
    have key : ∀ f, (a.step ((TwoTables.uigf rows vc).call f)).2 = none → a.step ((TwoTables.uigf rows vc).call f) =
        (a.addUnitSet .uigf (rowsWith (saveIndex rows a.nextCon (fun i r => (({ cid := i, ctype := .le, rhs := 0 } : Row),
          r.1.val, r.2))) f, (createConstraints (rows.map Prod.fst) a.nextCon .le).2)).andThen (fun m => m.elasticOpt .uigf vc) := by
      intro f h
      simp only [TwoTables.call, Market.step, hn, Bool.false_eq_true, if_false, Market.setUigf] at h ⊢
      split at h
      · cases h
      split at h
      · cases h
      rename_i c c'
      rw [if_neg c, if_neg c']
      unfold uigfConstraints
      rw [lims_with]
    refine ⟨.uigf, true, (saveIndex rows a.nextCon (fun i r => (({ cid := i, ctype := .le, rhs := 0 } : Row),
          r.1.val, r.2))), by simp, fun f => by simp [TwoTables.call, Op.parts], fun f hf => ?_⟩
    have F := fam_unitSet a .uigf (saveIndex rows a.nextCon (fun i r => (({ cid := i, ctype := .le, rhs := 0 } : Row),
          r.1.val, r.2))) (createConstraints (rows.map Prod.fst) a.nextCon .le).2 vc f
    refine ⟨by rw [key f hf]; exact F.1, fun g hg => ?_⟩
    have G := F.2 g (by dsimp only; rw [← key f hf]; exact hf) (by dsimp only; rw [← key g hg]; exact hg)
    rw [key f hf, key g hg]
    exact G
  | fcasMaxAvail rows vc =>
    have key : ∀ f, (a.step ((TwoTables.fcasMaxAvail rows vc).call f)).2 = none → a.step ((TwoTables.fcasMaxAvail rows vc).call f) =
        (a.addUnitSet .fcasMaxAvail (rowsWith (saveIndex rows a.nextCon (fun i r => (({ cid := i, ctype := .le, rhs := 0 } : Row),
          r.1.val, r.2))) f, (createConstraints (rows.map Prod.fst) a.nextCon .le).2)).andThen (fun m => m.elasticOpt .fcasMaxAvail vc) := by
      intro f h
      simp only [TwoTables.call, Market.step, hn, Bool.false_eq_true, if_false, Market.setFcasMaxAvail] at h ⊢
      split at h
      · cases h
      rename_i c
      rw [if_neg c]
      unfold fcasMaxAvailConstraints
      rw [lims_with]
    refine ⟨.fcasMaxAvail, true, (saveIndex rows a.nextCon (fun i r => (({ cid := i, ctype := .le, rhs := 0 } : Row),
          r.1.val, r.2))), by simp, fun f => by simp [TwoTables.call, Op.parts], fun f hf => ?_⟩
    have F := fam_unitSet a .fcasMaxAvail (saveIndex rows a.nextCon (fun i r => (({ cid := i, ctype := .le, rhs := 0 } : Row),
          r.1.val, r.2))) (createConstraints (rows.map Prod.fst) a.nextCon .le).2 vc f
    refine ⟨by rw [key f hf]; exact F.1, fun g hg => ?_⟩
    have G := F.2 g (by dsimp only; rw [← key f hf]; exact hf) (by dsimp only; rw [← key g hg]; exact hg)
    rw [key f hf, key g hg]
    exact G
  | fcasReq rows vc =>
    have e1 : ∀ f : ℚ → ℚ → ℚ, fcasRows (rows.map (fun r => { r.1 with volume := f r.1.volume r.2 })) a.nextCon =
        rowsWith (saveIndex (dropDup (fun r => r.1.set) rows) a.nextCon (fun i r => (({ cid := i, ctype := r.1.ctype, rhs := 0, set := some r.1.set } : Row), r.1.volume, r.2))) f := by
      intro f
      unfold fcasRows
      rw [Verif.dropDup_map (fun r : FcasReq × ℚ => r.1.set) FcasReq.set (fun r => { r.1 with volume := f r.1.volume r.2 }) (fun _ => rfl), saveIndex_map,
        ← saveIndex_with]
    have e2 : ∀ f : ℚ → ℚ → ℚ, (fcasConstraints (rows.map (fun r => { r.1 with volume := f r.1.volume r.2 })) a.nextCon).2 =
        (fcasConstraints (rows.map (fun r => { r.1 with volume := r.1.volume })) a.nextCon).2 := by
      have key : ∀ rs : List FcasReq, (fcasConstraints rs a.nextCon).2 = (rs.map (fun r => (r.set, r.region, r.service))).flatMap (fun r =>
          (((fcasRows rs a.nextCon).map Row.noRhs).filter (fun t => decide (t.set = some r.1))).map (fun t =>
            ({ cid := t.cid, region := r.2.1, service := r.2.2, coef := 1 } : ConReg))) := by
        intro rs
        unfold fcasConstraints
        simp only [List.flatMap_map, List.filter_map, List.map_map, Function.comp_def]
        rfl
      intro f
      rw [key, key, e1 f, e1 (fun a _ => a), rowsWith_noRhs _ f (fun a _ => a), List.map_map, List.map_map]
      rfl
    have key : ∀ f, (a.step ((TwoTables.fcasReq rows vc).call f)).2 = none → a.step ((TwoTables.fcasReq rows vc).call f) =
        (a.addRegSet .fcas (rowsWith (saveIndex (dropDup (fun r => r.1.set) rows) a.nextCon (fun i r => (({ cid := i, ctype := r.1.ctype, rhs := 0, set := some r.1.set } : Row), r.1.volume, r.2))) f, (fcasConstraints (rows.map (fun r => { r.1 with volume := r.1.volume })) a.nextCon).2)).andThen
          (fun m => m.elasticOpt .fcas vc) := by
      intro f h
      simp only [TwoTables.call, Market.step, hn, Bool.false_eq_true, if_false, Market.setFcasReq] at h ⊢
      split at h
      · cases h
      rename_i c
      rw [if_neg c, ← e1 f, ← e2 f]
      rfl
    refine ⟨.fcas, false, (saveIndex (dropDup (fun r => r.1.set) rows) a.nextCon (fun i r => (({ cid := i, ctype := r.1.ctype, rhs := 0, set := some r.1.set } : Row), r.1.volume, r.2))), by simp, fun f => by simp [TwoTables.call, Op.parts], fun f hf => ?_⟩
    have F := fam_regSet a .fcas (saveIndex (dropDup (fun r => r.1.set) rows) a.nextCon (fun i r => (({ cid := i, ctype := r.1.ctype, rhs := 0, set := some r.1.set } : Row), r.1.volume, r.2))) (fcasConstraints (rows.map (fun r => { r.1 with volume := r.1.volume })) a.nextCon).2 vc f
    refine ⟨by rw [key f hf]; exact F.1, fun g hg => ?_⟩
    have G := F.2 g (by dsimp only; rw [← key f hf]; exact hf) (by dsimp only; rw [← key g hg]; exact hg)
    rw [key f hf, key g hg]
    exact G
  | generic rows vc =>
    have key : ∀ (g : List GenericRow) (vc : Option VCost), (a.setGeneric g vc).2 = none → (a.setGeneric g vc).1.conRhs.get? .generic =
        some (saveIndex g a.nextCon (fun i g => ({ cid := i, ctype := g.ctype, rhs := g.rhs, set := some g.set } : Row))) ∧
        (a.setGeneric g vc).1.mktRhs = a.mktRhs ∧ (a.setGeneric g vc).1.bidCost = a.bidCost := by
      intro g vc h
      unfold Market.setGeneric at h ⊢
      split at h
      · cases h
      rename_i c
      rw [if_neg c]
      dsimp only
      rw [(elasticOpt_rhs ..).1, (elasticOpt_rhs ..).2.1, (elasticOpt_rhs ..).2.2]
      split <;> simp [Dict.get?_set_self]
    refine ⟨.generic, true, saveIndex rows a.nextCon (fun i r => (({ cid := i, ctype := r.1.ctype, rhs := 0, set := some r.1.set } : Row),
      r.1.rhs, r.2)), by simp, fun f => by simp [TwoTables.call, Op.parts], fun f hf => ?_⟩
    simp only [TwoTables.call, Market.step, hn, Bool.false_eq_true, if_false] at hf ⊢
    obtain ⟨k1, k2, k3⟩ := key _ _ hf
    refine ⟨?_, fun g hg => ⟨?_, ?_⟩⟩
    · unfold TableKind
      rw [if_pos rfl, k1, k2, saveIndex_map, ← saveIndex_with]
      exact ⟨rfl, rfl⟩
    · refine generic_alike' (.refl .generic a) (fun e => absurd rfl e) ?_ _
      rw [List.map_map, List.map_map]
      rfl
    · rw [k3, (key _ _ hg).2.2]

theorem linVal_mixture (t : ℚ) (x y : Nat → ℚ) (cs : List (Nat × ℚ)) :
    linVal (mixture t x y) cs = (1 - t) * linVal x cs + t * linVal y cs := by
  unfold linVal
  induction cs with
  | nil => simp
  | cons c cs ih =>
    rw [List.map_cons, List.map_cons, List.map_cons, List.sum_cons, List.sum_cons, List.sum_cons, ih]
    unfold mixture
    ring

theorem Rhs.eval_mixture (t : ℚ) (x y : Nat → ℚ) (r : Rhs) : r.eval (mixture t x y) = (1 - t) * r.eval x + t * r.eval y := by
  cases r with
  | const q => show q = (1 - t) * q + t * q; ring
  | var v => rfl

theorem CType.holds_mixture {t : ℚ} (h0 : 0 ≤ t) (h1 : t ≤ 1) {c : CType} {l l' r r' : ℚ} (h : c.holds l r) (h' : c.holds l' r') :
    c.holds ((1 - t) * l + t * l') ((1 - t) * r + t * r') := by
  have k : 0 ≤ 1 - t := by linarith
  cases c
  · exact add_le_add (mul_le_mul_of_nonneg_left h k) (mul_le_mul_of_nonneg_left h' h0)
  · have e : l = r := h
    have e' : l' = r' := h'
    show _ = _
    rw [e, e']
  · exact add_le_add (mul_le_mul_of_nonneg_left h k) (mul_le_mul_of_nonneg_left h' h0)
  · exact h.elim

/-- what the calls of C134 leave -/
theorem three_tables {T : TwoTables} {t : ℚ} {m m' m'' : Market} (h : OneOfThree T.first T.second (T.between t) m m' m'') :
    ∃ k, k ≠ .interpWeights ∧ Alike k m m' ∧ Alike k m m'' ∧ m'.bidCost = m.bidCost ∧ m''.bidCost = m.bidCost ∧
      (∀ rows, m.conRhs.get? k = some rows → ∃ B, rows = rowsWith B (fun a _ => a) ∧ m'.conRhs.get? k = some (rowsWith B (fun _ b => b)) ∧
        m''.conRhs.get? k = some (rowsWith B (fun a b => (1 - t) * a + t * b))) ∧
      (∀ rows, m.mktRhs.get? k = some rows → ∃ B, rows = rowsWith B (fun a _ => a) ∧ m'.mktRhs.get? k = some (rowsWith B (fun _ b => b)) ∧
        m''.mktRhs.get? k = some (rowsWith B (fun a b => (1 - t) * a + t * b))) := by
  obtain ⟨r, u, di, m0, before, after, h0, _, _, _, h1, h2, h3, ha, rfl, rfl, rfl⟩ := h
  rw [run_append, run_append, run_append, run_cons, run_cons, run_cons]
  generalize m0.run before = a at *
  unfold TwoTables.first TwoTables.second TwoTables.between at *
  obtain ⟨k, ub, B, hk, hp, F⟩ := family_step T a _ h1
  obtain ⟨A1, g1⟩ := F _ h1
  obtain ⟨A2, _⟩ := F _ h2
  obtain ⟨A3, _⟩ := F _ h3
  obtain ⟨i1, i2⟩ := run_alike_same (g1 _ h2).1.1 (g1 _ h2).2 after
  obtain ⟨j1, j2⟩ := run_alike_same (g1 _ h3).1.1 (g1 _ h3).2 after
  have same : ∀ f, SameSet k (a.step (T.call f)).1 ((a.step (T.call f)).1.run after) := fun f =>
    part_run (p := .set k) (fun o ho => ha o ho _ (by simp [hp]))
  have unchanged : ∀ rows : List Row, ∃ B, rows = rowsWith B (fun a _ => a) ∧ rows = rowsWith B (fun _ b => b) ∧
      rows = rowsWith B (fun a b => (1 - t) * a + t * b) := by
    intro rows
    refine ⟨rows.map (fun r => (r, r.rhs, r.rhs)), ?_, ?_, ?_⟩ <;> unfold rowsWith <;> rw [List.map_map] <;> symm
    · exact List.map_id' rows
    · exact List.map_id' rows
    · conv_rhs => rw [← List.map_id' rows]
      refine List.map_congr_left (fun r _ => ?_)
      have e : (1 - t) * r.rhs + t * r.rhs = r.rhs := by ring
      show ({ r with rhs := (1 - t) * r.rhs + t * r.rhs } : Row) = r
      rw [e]
  refine ⟨k, hk, i1, j1, i2, j2, ?_, ?_⟩
  · rw [(same _).conRhs, (same _).conRhs, (same _).conRhs]
    unfold TableKind at A1 A2 A3
    intro rows hr
    cases ub with
    | true =>
      rw [if_pos rfl] at A1 A2 A3
      rw [A1.1] at hr
      injection hr with hr
      exact ⟨B, hr.symm, A2.1, A3.1⟩
    | false =>
      rw [if_neg (by simp)] at A1 A2 A3
      rw [A2.2, A3.2, ← A1.2, hr]
      obtain ⟨B', b1, b2, b3⟩ := unchanged rows
      exact ⟨B', b1, congrArg some b2, congrArg some b3⟩
  · rw [(same _).mktRhs, (same _).mktRhs, (same _).mktRhs]
    unfold TableKind at A1 A2 A3
    intro rows hr
    cases ub with
    | false =>
      rw [if_neg (by simp)] at A1 A2 A3
      rw [A1.1] at hr
      injection hr with hr
      exact ⟨B, hr.symm, A2.1, A3.1⟩
    | true =>
      rw [if_pos rfl] at A1 A2 A3
      rw [A2.2, A3.2, ← A1.2, hr]
      obtain ⟨B', b1, b2, b3⟩ := unchanged rows
      exact ⟨B', b1, congrArg some b2, congrArg some b3⟩

theorem OneOfThree.left {op op' op'' : Op} {m m' m'' : Market} (h : OneOfThree op op' op'' m m' m'') : OneCall [] op op' m m' := by
  obtain ⟨r, u, di, m0, before, after, h0, b1, b2, _, h1, h2, _, ha, e1, e2, _⟩ := h
  exact ⟨r, u, di, m0, before, after, h0, b1, b2, h1, h2,
    fun o ho p hp => ha o ho p (by simp only [List.mem_append] at hp ⊢; simp only [List.not_mem_nil] at hp; tauto), e1, e2⟩

theorem OneOfThree.right {op op' op'' : Op} {m m' m'' : Market} (h : OneOfThree op op' op'' m m' m'') : OneCall [] op op'' m m'' := by
  obtain ⟨r, u, di, m0, before, after, h0, b1, _, b2, h1, _, h2, ha, e1, _, e2⟩ := h
  exact ⟨r, u, di, m0, before, after, h0, b1, b2, h1, h2,
    fun o ho p hp => ha o ho p (by simp only [List.mem_append] at hp ⊢; simp only [List.not_mem_nil] at hp; tauto), e1, e2⟩

/-- **C134**, schedules.  In a market without losses and alternative links, a schedule that meets the market with the first values and one
that meets the market with the second values can be mixed: the mixture meets the market with the values in between. -/
theorem C134_feasible {T : TwoTables} {t : ℚ} (t0 : 0 ≤ t) (t1 : t ≤ 1) {m m' m'' : Market}
    (h : OneOfThree T.first T.second (T.between t) m m' m'') (hn : NoLosses m) (hl : PlainLinks m) {lp lp' lp'' : Lp}
    (ha : m.assemble = .ok lp) (ha' : m'.assemble = .ok lp') (ha'' : m''.assemble = .ok lp'') {x y : Nat → ℚ} (hx : Feasible lp x)
    (hy : Feasible lp' y) : Feasible lp'' (mixture t x y) := by
  obtain ⟨k, hk, hA, hB, _, _, hc, hm⟩ := three_tables h
  have hw := h.left.first.inForce.reached.wf.con
  have hw' := h.left.second.inForce.reached.wf.con
  have hw'' := h.right.second.inForce.reached.wf.con
  obtain ⟨e1, _, _, lift1⟩ := hA.lp hw hw' ha ha'
  obtain ⟨f1, f2, f3, lift2⟩ := hB.lp hw hw'' ha ha''
  obtain ⟨_, _, p3, p4, _, _⟩ := assemble_parts ha
  have k0 : 0 ≤ 1 - t := by linarith
  refine ⟨?_, ?_, ?_, ?_⟩
  · rw [f1]
    intro v hv
    have vx := hx.vars v hv
    have vy := hy.vars v (by rw [e1]; exact hv)
    unfold LVar.holds mixture at *
    refine ⟨?_, fun u hu => ?_⟩
    · have := add_le_add (mul_le_mul_of_nonneg_left vx.1 k0) (mul_le_mul_of_nonneg_left vy.1 t0)
      linarith
    · have := add_le_add (mul_le_mul_of_nonneg_left (vx.2 u hu) k0) (mul_le_mul_of_nonneg_left (vy.2 u hu) t0)
      linarith
  · intro r'' hr''
    obtain ⟨r, hr, c1, c2, c3, c4⟩ := (hB.symm.lp hw'' hw ha'' ha).2.2.2 r'' hr''
    obtain ⟨r', hr', d1, d2, d3, d4⟩ := lift1 r hr
    have holdx := hx.rows r hr
    have holdy := hy.rows r' hr'
    unfold LRow.holds at holdx holdy ⊢
    rw [d2, d3] at holdy
    have hev : r''.rhs.eval (mixture t x y) = (1 - t) * r.rhs.eval x + t * r'.rhs.eval y := by
      by_cases hro : m.rowOf k r.cid
      · obtain ⟨R, R', R'', hR, hR', hR'', i0, i1, i2, i3⟩ : ∃ R R' R'' : Row, (R.cid, R.ctype, Rhs.const R.rhs) ∈ m.allRows ∧
            (R'.cid, R'.ctype, Rhs.const R'.rhs) ∈ m'.allRows ∧ (R''.cid, R''.ctype, Rhs.const R''.rhs) ∈ m''.allRows ∧
            R.cid = r.cid ∧ R'.cid = R.cid ∧ R''.cid = R.cid ∧ R''.rhs = (1 - t) * R.rhs + t * R'.rhs := by
          rcases hro with ⟨rows, g1, R, g2, g3⟩ | ⟨rows, g1, R, g2, g3⟩ | ⟨g1, _⟩
          · obtain ⟨B, b1, b2, b3⟩ := hc rows g1
            rw [b1] at g1 g2
            obtain ⟨b, hb, rfl⟩ := List.mem_map.1 g2
            exact ⟨_, _, _, conRow_mem g1 g2, conRow_mem b2 (List.mem_map.2 ⟨b, hb, rfl⟩), conRow_mem b3 (List.mem_map.2 ⟨b, hb, rfl⟩),
              g3, rfl, rfl, rfl⟩
          · obtain ⟨B, b1, b2, b3⟩ := hm rows g1
            rw [b1] at g1 g2
            obtain ⟨b, hb, rfl⟩ := List.mem_map.1 g2
            exact ⟨_, _, _, mktRow_mem g1 g2, mktRow_mem b2 (List.mem_map.2 ⟨b, hb, rfl⟩), mktRow_mem b3 (List.mem_map.2 ⟨b, hb, rfl⟩),
              g3, rfl, rfl, rfl⟩
          · exact absurd g1 hk
        rw [i1, i0, ← d1] at hR'
        rw [i2, i0, c1] at hR''
        rw [i0] at hR
        rw [(unique_row hw (lpRow ha hr).2.1 hR).2, (unique_row hw' (lpRow ha' hr').2.1 hR').2,
          (unique_row hw'' (lpRow ha'' hr'').2.1 hR'').2]
        exact i3
      · obtain ⟨r2, hr2, q1, q2, q3, q4⟩ := lift2 r hr
        rw [q4 hro] at hr2
        have hm := (lpRow ha'' hr2).2.1
        rw [c1] at hm
        obtain ⟨_, v2⟩ := unique_row hw'' (lpRow ha'' hr'').2.1 hm
        rw [v2, d4 hro]
        exact Rhs.eval_mixture t x y r.rhs
    rw [linVal_mixture, hev, ← c2, ← c3]
    exact CType.holds_mixture t0 t1 holdx holdy
  · rw [f2, p3]
    unfold Market.sos2Groups
    rw [(noLosses_tables hn).1]
    intro g hg
    simp [groupBy] at hg
  · rw [f3, p4]
    unfold Market.sos1Groups
    have e : (m.inters.getD []).filter (fun v => decide (v.inter ≠ v.link)) = [] := by
      rw [List.filter_eq_nil_iff]
      intro v hv
      simp [hl v hv]
    rw [e]
    intro g hg
    simp [groupBy] at hg

/-- **C134**, cost.  The least cost with the values in between is at most the mixture of the least costs. -/
theorem C134_cost {T : TwoTables} {t : ℚ} (t0 : 0 ≤ t) (t1 : t ≤ 1) {m m' m'' : Market}
    (h : OneOfThree T.first T.second (T.between t) m m' m'') (hn : NoLosses m) (hl : PlainLinks m) {lp lp' lp'' : Lp}
    (ha : m.assemble = .ok lp) (ha' : m'.assemble = .ok lp') (ha'' : m''.assemble = .ok lp'') {x y z : Nat → ℚ} (hx : Optimal lp x)
    (hy : Optimal lp' y) (hz : Optimal lp'' z) : lp''.cost z ≤ (1 - t) * lp.cost x + t * lp'.cost y := by
  obtain ⟨k, _, hA, hB, b1, b2, _⟩ := three_tables h
  refine (hz.2 _ (C134_feasible t0 t1 h hn hl ha ha' ha'' hx.1 hy.1)).trans (le_of_eq ?_)
  rw [alike_cost hA b1 ha ha', alike_cost hB b2 ha ha'']
  exact linVal_mixture t x y lp.obj

/-- **C134**, rising increments.  Each further step of the values costs at least as much per unit of the way as the steps before. -/
theorem C134_increments {T : TwoTables} {t : ℚ} (t0 : 0 < t) (t1 : t < 1) {m m' m'' : Market}
    (h : OneOfThree T.first T.second (T.between t) m m' m'') (hn : NoLosses m) (hl : PlainLinks m) {lp lp' lp'' : Lp}
    (ha : m.assemble = .ok lp) (ha' : m'.assemble = .ok lp') (ha'' : m''.assemble = .ok lp'') {x y z : Nat → ℚ} (hx : Optimal lp x)
    (hy : Optimal lp' y) (hz : Optimal lp'' z) : (lp''.cost z - lp.cost x) / t ≤ (lp'.cost y - lp''.cost z) / (1 - t) := by
  have key := C134_cost t0.le t1.le h hn hl ha ha' ha'' hx hy hz
  rw [div_le_iff₀ t0, div_mul_eq_mul_div, le_div_iff₀ (by linarith)]
  linarith

/-! ### Instances -/

theorem Case.three {s s' s'' : Case} {m m' m'' : Market} (h : s.final = some m) (h' : s'.final = some m') (h'' : s''.final = some m'') (i : Nat)
    (op op' op'' : Op) (e : s'.regions = s.regions ∧ s'.units = s.units ∧ s'.di = s.di)
    (e' : s''.regions = s.regions ∧ s''.units = s.units ∧ s''.di = s.di) (ho : s.hist[i]? = some op) (ho' : s'.hist[i]? = some op')
    (ho'' : s''.hist[i]? = some op'') (ht : s'.hist.take i = s.hist.take i) (ht' : s''.hist.take i = s.hist.take i)
    (hd : s'.hist.drop (i + 1) = s.hist.drop (i + 1)) (hd' : s''.hist.drop (i + 1) = s.hist.drop (i + 1))
    (hh : s.differs s' i [] = true) (hh' : s.differs s'' i [] = true) : OneOfThree op op' op'' m m' m'' := by
  unfold Case.final at h h' h''
  unfold Case.differs at hh hh'
  rw [e.1, e.2.1, e.2.2] at h'
  rw [e'.1, e'.2.1, e'.2.2] at h''
  have split : ∀ (t : Case) (o : Op), t.hist[i]? = some o → t.hist.take i = s.hist.take i → t.hist.drop (i + 1) = s.hist.drop (i + 1) →
      t.hist = s.hist.take i ++ o :: s.hist.drop (i + 1) := by
    intro t o ho ht hd
    obtain ⟨hlt, e⟩ := List.getElem?_eq_some_iff.1 ho
    rw [← ht, ← hd]
    conv_lhs => rw [← List.take_append_drop i t.hist, List.drop_eq_getElem_cons hlt, e]
  have e1 := split s op ho rfl rfl
  have e2 := split s' op' ho' ht hd
  have e3 := split s'' op'' ho'' ht' hd'
  cases hm : Market.init s.regions s.units s.di with
  | error e => rw [hm] at h; cases h
  | ok m0 =>
    rw [hm] at h h' h'' hh hh'
    simp only [ho, ho', ho'', Bool.and_eq_true, decide_eq_true_eq] at hh hh'
    simp only at h h' h''
    split at h
    · rename_i hb
      split at h'
      · rename_i hb'
        split at h''
        · rename_i hb''
          injection h with h
          injection h' with h'
          injection h'' with h''
          refine ⟨s.regions, s.units, s.di, m0, _, _, hm, by rw [← e1]; exact benignB_iff.1 hb, by rw [← e2]; exact benignB_iff.1 hb',
            by rw [← e3]; exact benignB_iff.1 hb'', hh.1.1, hh.1.2, hh'.1.2, ?_, by rw [← e1]; exact h.symm, by rw [← e2]; exact h'.symm,
            by rw [← e3]; exact h''.symm⟩
          intro o ho p hp
          rcases List.mem_append.1 hp with hp | hp
          · exact hh.2 o ho p hp
          · exact hh'.2 o ho p (List.mem_append_right _ hp)
        · cases h''
      · cases h'
    · cases h

/-- demands of 50 MW and 90 MW -/
def twoDemands : TwoTables := .demand [({ region := "NSW", demand := 50 }, 90)] none

/-- instance of C134: unit A offers 60 MW at 20, unit B 100 MW at 50.  A demand of 50 MW costs 1000, a demand of 90 MW costs 2700, and a
demand of 80 MW, three quarters of the way, costs 2200, less than 2275 -/
example : ∃ m m' m'' lp lp' lp'', OneOfThree twoDemands.first twoDemands.second (twoDemands.between (3 / 4)) m m' m'' ∧ NoLosses m ∧ PlainLinks m ∧
    m.assemble = .ok lp ∧ m'.assemble = .ok lp' ∧ m''.assemble = .ok lp'' ∧ Optimal lp (compCase 60 20 50 [50, 0]).x ∧
    Optimal lp' (compCase 60 20 90 [60, 30]).x ∧ Optimal lp'' (compCase 60 20 80 [60, 20]).x ∧
    lp.cost (compCase 60 20 50 [50, 0]).x = 1000 ∧ lp'.cost (compCase 60 20 90 [60, 30]).x = 2700 ∧
    lp''.cost (compCase 60 20 80 [60, 20]).x = 2200 := by
  have h : (compCase 60 20 50 [50, 0]).best [20, 0] (fun m => decide (m.inters = none) && (match m.assemble with
      | .ok lp => decide (lp.cost (compCase 60 20 50 [50, 0]).x = 1000)
      | .error _ => false)) = true := by decide +kernel
  have h' : (compCase 60 20 90 [60, 30]).best [50, -30] (fun m => match m.assemble with
      | .ok lp => decide (lp.cost (compCase 60 20 90 [60, 30]).x = 2700)
      | .error _ => false) = true := by decide +kernel
  have h'' : (compCase 60 20 80 [60, 20]).best [50, -30] (fun m => match m.assemble with
      | .ok lp => decide (lp.cost (compCase 60 20 80 [60, 20]).x = 2200)
      | .error _ => false) = true := by decide +kernel
  obtain ⟨m, lp, h0, h1, h2, h3⟩ := Case.optimal h
  obtain ⟨m', lp', k0, k1, k2, k3⟩ := Case.optimal h'
  obtain ⟨m'', lp'', l0, l1, l2, l3⟩ := Case.optimal h''
  rw [h1, Bool.and_eq_true] at h3
  rw [k1] at k3
  rw [l1] at l3
  have eb : twoDemands.between (3 / 4) = .demand (compDemand 80) none := by
    simp only [twoDemands, TwoTables.between, TwoTables.call, compDemand, List.map_cons, List.map_nil]
    norm_num
  have hone : OneOfThree twoDemands.first twoDemands.second (twoDemands.between (3 / 4)) m m' m'' := by
    rw [eb]
    exact Case.three h0 k0 l0 3 (.demand (compDemand 50) none) (.demand (compDemand 90) none) (.demand (compDemand 80) none) ⟨rfl, rfl, rfl⟩ ⟨rfl, rfl, rfl⟩
      rfl rfl rfl rfl rfl rfl rfl (by decide +kernel) (by decide +kernel)
  refine ⟨m, m', m'', lp, lp', lp'', hone, Case.noLosses h0 (by decide +kernel), ?_, h1, k1, l1, h2, k2, l2, of_decide_eq_true h3.2,
    of_decide_eq_true k3, of_decide_eq_true l3⟩
  intro v hv
  rw [of_decide_eq_true h3.1] at hv
  cases hv

/-- unit A in New South Wales offers at 1, units B and C elsewhere at 1000; two links of one interconnector lead from New South Wales to
Victoria and to Queensland, and only one of them may be used -/
def alternativeCase (b c : ℚ) (sol : List ℚ) : Case where
  regions := ["NSW", "VIC", "QLD"]
  units := [{ unit := "A", region := "NSW" }, { unit := "B", region := "VIC" }, { unit := "C", region := "QLD" }]
  hist := [.volumeBids [{ unit := "A", bands := [("1", 100)] }, { unit := "B", bands := [("1", 100)] }, { unit := "C", bands := [("1", 100)] }],
    .priceBids [{ unit := "A", bands := [("1", 1)] }, { unit := "B", bands := [("1", 1000)] }, { unit := "C", bands := [("1", 1000)] }],
    .interconnectors [{ inter := "I", link := "L1", fromR := "NSW", toR := "VIC", min := 0, max := 100 },
      { inter := "I", link := "L2", fromR := "NSW", toR := "QLD", min := 0, max := 100 }],
    .demand [{ region := "NSW", demand := 0 }, { region := "VIC", demand := b }, { region := "QLD", demand := c }] none]
  sol := sol

def alternativeDemands : TwoTables :=
  .demand [({ region := "NSW", demand := 0 }, 0), ({ region := "VIC", demand := 50 }, 0), ({ region := "QLD", demand := 0 }, 50)] none

/-- **C134** needs links that are not alternatives to each other: 50 MW in Victoria cost 50, 50 MW in Queensland cost 50, and 25 MW in both
cost at least 25000, because only one of the links may be used. -/
theorem C134_alternative_links_fails : ∃ m m' m'' lp lp' lp'', OneOfThree alternativeDemands.first alternativeDemands.second
    (alternativeDemands.between (1 / 2)) m m' m'' ∧ NoLosses m ∧ m.assemble = .ok lp ∧ m'.assemble = .ok lp' ∧ m''.assemble = .ok lp'' ∧
    Optimal lp (alternativeCase 50 0 [50, 0, 0, 50, 0]).x ∧ Optimal lp' (alternativeCase 0 50 [50, 0, 0, 0, 50]).x ∧
    lp.cost (alternativeCase 50 0 [50, 0, 0, 50, 0]).x = 50 ∧ lp'.cost (alternativeCase 0 50 [50, 0, 0, 0, 50]).x = 50 ∧
    Feasible lp'' (alternativeCase 25 25 [25, 0, 25, 25, 0]).x ∧ ∀ z, Feasible lp'' z → 25000 ≤ lp''.cost z := by
  have h : (alternativeCase 50 0 [50, 0, 0, 50, 0]).best [1, 1, 1] (fun m => match m.assemble with
      | .ok lp => decide (lp.cost (alternativeCase 50 0 [50, 0, 0, 50, 0]).x = 50)
      | .error _ => false) = true := by decide +kernel
  have h' : (alternativeCase 0 50 [50, 0, 0, 0, 50]).best [1, 1, 1] (fun m => match m.assemble with
      | .ok lp => decide (lp.cost (alternativeCase 0 50 [50, 0, 0, 0, 50]).x = 50)
      | .error _ => false) = true := by decide +kernel
  obtain ⟨m, lp, h0, h1, h2, h3⟩ := Case.optimal h
  obtain ⟨m', lp', k0, k1, k2, k3⟩ := Case.optimal h'
  obtain ⟨m'', lp'', l0, l1, l2, l3⟩ := Case.witness (s := alternativeCase 25 25 [25, 0, 25, 25, 0]) (P := fun m => match m.assemble with
      | .ok lp => decide ((⟨1, [(1, 1), (3, 1)], .eq, .const 25⟩ : LRow) ∈ lp.rows ∧ (⟨2, [(2, 1), (4, 1)], .eq, .const 25⟩ : LRow) ∈ lp.rows ∧
          lp.sos1 = [[3, 4]] ∧ lp.obj = [(0, 1), (1, 1000), (2, 1000)] ∧
          ([0, 1, 2].all (fun i => lp.vars.any (fun v => decide (v.vid = i ∧ 0 ≤ v.lb)))) = true)
      | .error _ => false) (by decide +kernel)
  rw [h1] at h3
  rw [k1] at k3
  simp only [l1, decide_eq_true_eq] at l3
  have eb : alternativeDemands.between (1 / 2) = .demand [{ region := "NSW", demand := 0 }, { region := "VIC", demand := 25 },
      { region := "QLD", demand := 25 }] none := by
    simp only [alternativeDemands, TwoTables.between, TwoTables.call, List.map_cons, List.map_nil]
    norm_num
  have hone : OneOfThree alternativeDemands.first alternativeDemands.second (alternativeDemands.between (1 / 2)) m m' m'' := by
    rw [eb]
    exact Case.three h0 k0 l0 3 alternativeDemands.first alternativeDemands.second _ ⟨rfl, rfl, rfl⟩ ⟨rfl, rfl, rfl⟩
      rfl rfl rfl rfl rfl rfl rfl (by decide +kernel) (by decide +kernel)
  refine ⟨m, m', m'', lp, lp', lp'', hone, Case.noLosses h0 (by decide +kernel), h1, k1, l1, h2, k2, of_decide_eq_true h3,
    of_decide_eq_true k3, l2, ?_⟩
  intro z hz
  obtain ⟨a1, a2, a3, a4, a5⟩ := l3
  have r1 : z 1 + z 3 = 25 := by
    have := hz.rows _ a1
    simpa [LRow.holds, CType.holds, linVal, Rhs.eval] using this
  have r2 : z 2 + z 4 = 25 := by
    have := hz.rows _ a2
    simpa [LRow.holds, CType.holds, linVal, Rhs.eval] using this
  have pos : ∀ i ∈ [0, 1, 2], 0 ≤ z i := by
    intro i hi
    obtain ⟨v, hv, hd⟩ := List.any_eq_true.1 (List.all_eq_true.1 a5 i hi)
    obtain ⟨e, hb⟩ := of_decide_eq_true hd
    rw [← e]
    exact hb.trans (hz.vars v hv).1
  have p0 := pos 0 (by simp)
  have p1 := pos 1 (by simp)
  have p2 := pos 2 (by simp)
  have hs := hz.sos1 [3, 4] (by rw [a3]; simp)
  have hc : lp''.cost z = z 0 + (1000 * z 1 + 1000 * z 2) := by
    unfold Lp.cost
    rw [a4]
    simp [linVal]
  rw [hc]
  by_cases e3 : z 3 = 0
  · rw [e3] at r1; linarith
  · by_cases e4 : z 4 = 0
    · rw [e4] at r2; linarith
    · exact absurd (hs 3 (by simp) 4 (by simp) e3 e4) (by decide)

end Verif
