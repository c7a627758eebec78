import Verif.Proofs.ShuffleStep
import Verif.Proofs.Refs

/-! Tie-break constraints do not depend on the order of rows: bids are kept sorted by unit and band. -/

namespace Verif

/-! ### The cost table is sorted -/

/-- by unit and band -/
def BidCost.before (a b : BidCost) : Prop := a.unit < b.unit ∨ (a.unit = b.unit ∧ a.band ≤ b.band)

/-- the bids and their costs are sorted by unit and band -/
structure SortedWF (m : Market) : Prop where
  bids : ∀ l, m.bids = some l → l.Pairwise BidVar.before
  costs : ∀ l, m.bidCost = some l → l.Pairwise BidCost.before

theorem BidVar.before_total (a b : BidVar) : a.before b ∨ b.before a := by
  unfold BidVar.before
  by_cases h : a.unit < b.unit
  · exact Or.inl (Or.inl h)
  by_cases h' : b.unit < a.unit
  · exact Or.inr (Or.inl h')
  have e : a.unit = b.unit := String.le_antisymm (String.not_lt.1 h') (String.not_lt.1 h)
  rcases String.le_total a.band b.band with h' | h'
  · exact Or.inl (Or.inr ⟨e, h'⟩)
  · exact Or.inr (Or.inr ⟨e.symm, h'⟩)

theorem BidVar.before_trans {a b c : BidVar} (h : a.before b) (h' : b.before c) : a.before c := by
  unfold BidVar.before at *
  rcases h with h | ⟨h1, h2⟩ <;> rcases h' with h' | ⟨h1', h2'⟩
  · exact Or.inl (String.lt_trans h h')
  · exact Or.inl (h1' ▸ h)
  · exact Or.inl (h1 ▸ h')
  · exact Or.inr ⟨h1.trans h1', String.le_trans h2 h2'⟩

theorem pairwise_saveIndex {α β : Type} {R : α → α → Prop} {S : β → β → Prop} {F : Nat → α → β} (hF : ∀ i j a b, R a b → S (F i a) (F j b)) :
    ∀ {l : List α} (n : Nat), l.Pairwise R → (saveIndex l n F).Pairwise S := by
  intro l
  induction l with
  | nil => exact fun _ _ => .nil
  | cons a l ih =>
    intro n h
    rw [List.pairwise_cons] at h
    refine List.pairwise_cons.2 ⟨?_, ih _ h.2⟩
    intro b hb
    obtain ⟨i, x, hx, _, _, rfl⟩ := mem_saveIndex_lt hb
    exact hF _ _ _ _ (h.1 x hx)

theorem bidVariables_sorted (bids : List BidRow) (n : Nat) : (bidVariables bids n).Pairwise BidVar.before := by
  unfold bidVariables
  have : Std.Total BidVar.before := ⟨BidVar.before_total⟩
  have : IsTrans BidVar BidVar.before := ⟨fun _ _ _ => BidVar.before_trans⟩
  refine pairwise_saveIndex (R := BidVar.before) ?_ n (List.pairwise_insertionSort _ _)
  exact fun _ _ _ _ h => h

/-- a join keeps the order of the keys -/
theorem pairwise_flatMap_key {α β : Type} {R : α → α → Prop} {S : β → β → Prop} {F : α → List β} :
    ∀ {l : List α}, l.Pairwise R → (∀ a b, R a b → ∀ x ∈ F a, ∀ y ∈ F b, S x y) → (∀ a, ∀ x ∈ F a, ∀ y ∈ F a, S x y) →
      (l.flatMap F).Pairwise S := by
  intro l h h1 h2
  induction h with
  | nil => exact .nil
  | cons ha _ ih =>
    rw [List.flatMap_cons, List.pairwise_append]
    refine ⟨List.pairwise_of_forall_mem_list (h2 _), ih, ?_⟩
    intro x hx y hy
    obtain ⟨b, hb, hy⟩ := List.mem_flatMap.1 hy
    exact h1 _ _ (ha b hb) x hx y hy

theorem bidCosts_sorted {vars : List BidVar} (h : vars.Pairwise BidVar.before) (ps : List BidRow) (us : List UnitInfo) :
    (scaleByLossFactors (bidCosts vars ps) us).Pairwise BidCost.before := by
  have h1 : (bidCosts vars ps).Pairwise BidCost.before := by
    have key : ∀ v : BidVar, ∀ x ∈ bidCosts [v] ps, x.unit = v.unit ∧ x.band = v.band := by
      intro v x hx
      unfold bidCosts at hx
      rw [List.flatMap_singleton] at hx
      obtain ⟨p, _, hx⟩ := List.mem_flatMap.1 hx
      obtain ⟨b, _, rfl⟩ := List.mem_map.1 hx
      exact ⟨rfl, rfl⟩
    have e : bidCosts vars ps = vars.flatMap (fun v => bidCosts [v] ps) := by
      unfold bidCosts
      simp only [List.flatMap_singleton]
    rw [e]
    refine pairwise_flatMap_key h ?_ ?_
    · intro a b hab x hx y hy
      obtain ⟨a1, a2⟩ := key _ x hx
      obtain ⟨b1, b2⟩ := key _ y hy
      unfold BidCost.before
      rw [a1, a2, b1, b2]
      exact hab
    · intro a x hx y hy
      obtain ⟨a1, a2⟩ := key _ x hx
      obtain ⟨b1, b2⟩ := key _ y hy
      exact Or.inr ⟨a1.trans b1.symm, a2.trans b2.symm ▸ String.le_refl _⟩
  unfold scaleByLossFactors
  refine pairwise_flatMap_key h1 ?_ ?_
  · intro a b hab x hx y hy
    obtain ⟨_, _, rfl⟩ := List.mem_map.1 hx
    obtain ⟨_, _, rfl⟩ := List.mem_map.1 hy
    exact hab
  · intro a x hx y hy
    obtain ⟨_, _, rfl⟩ := List.mem_map.1 hx
    obtain ⟨_, _, rfl⟩ := List.mem_map.1 hy
    exact Or.inr ⟨rfl, String.le_refl _⟩

theorem sortedWF_prim {good : Prop} {ks : List Part} {m m' : Market} (h : Prim good ks m m') (hm : SortedWF m) : SortedWF m' := by
  have other : Part.bids ∉ ks → Part.prices ∉ ks → SortedWF m' := by
    intro h1 h2
    have a := (part_prim h h1).1
    have b : m'.bidCost = m.bidCost := part_prim h h2
    exact ⟨a ▸ hm.bids, b ▸ hm.costs⟩
  cases h with
  | bids _ b =>
    unfold Market.setVolumeBids
    split
    · exact hm
    split
    · exact hm
    dsimp only
    split
    · exact ⟨fun l e => by injection e with e; exact e ▸ bidVariables_sorted _ _, hm.costs⟩
    · exact ⟨fun l e => by injection e with e; exact e ▸ bidVariables_sorted _ _, hm.costs⟩
  | prices _ b =>
    unfold Market.setPriceBids
    split
    · exact hm
    rename_i vars hv
    split
    · exact hm
    split
    · exact hm
    exact ⟨hm.bids, fun l e => by injection e with e; exact e ▸ bidCosts_sorted (hm.bids _ hv) _ _⟩
  | unitSet => exact other (by simp) (by simp)
  | regSet => exact other (by simp) (by simp)
  | elastic => exact other (by simp) (by simp)
  | removeFs => exact other (by simp) (by simp)
  | inters => exact other (by simp) (by simp)
  | losses => exact other (by simp) (by simp)
  | generic => exact other (by simp) (by simp)
  | linkUnits => exact other (by simp) (by simp)
  | linkRegions => exact other (by simp) (by simp)
  | linkInters => exact other (by simp) (by simp)
  | tie => exact other (by simp) (by simp)

theorem SortedWF.step {m : Market} (h : SortedWF m) (op : Op) : SortedWF (m.step op).1 :=
  run_invariant (good := False) (P := SortedWF) (fun _ _ _ p => sortedWF_prim p) (m := m) (ops := [op]) (fun h => h.elim) h

theorem sortedWF_init {regions : List String} {units : List UnitInfo} {di : ℚ} {m : Market} (h : Market.init regions units di = .ok m) :
    SortedWF m := by
  unfold Market.init at h
  split at h
  · injection h with h
    subst h
    exact { bids := fun _ h => (nomatch (show none = some _ from h)), costs := fun _ h => (nomatch (show none = some _ from h)) }
  · cases h

/-! ### The call -/

theorem perm_eq_of_length {α : Type} {l l' : List α} (h : l.Perm l') (hl : l'.length ≤ 1) : l = l' := by
  match l', hl with
  | [], _ => exact h.eq_nil
  | [a], _ => exact List.perm_singleton.1 h

theorem filter_length_le_one {α β : Type} [DecidableEq β] {k : α → β} {l : List α} (h : (l.map k).Nodup) (b : β) :
    (l.filter (fun a => decide (k a = b))).length ≤ 1 := by
  induction l with
  | nil => simp
  | cons a l ih =>
    rw [List.map_cons, List.nodup_cons] at h
    rw [List.filter_cons]
    split
    · rename_i e
      have : l.filter (fun a => decide (k a = b)) = [] := by
        rw [List.filter_eq_nil_iff]
        intro x hx hc
        exact h.1 (List.mem_map.2 ⟨x, hx, (of_decide_eq_true hc).trans (of_decide_eq_true e).symm⟩)
      rw [this]; simp
    · exact ih h.2

section
variable {f g : Nat → Nat} {m M : Market}

theorem tieBids_shuf {costs C : List BidCost} {vars V : List BidVar} {us U : List UnitInfo} (hf : Function.Injective f)
    (hC : C.Perm (costs.map (BidCost.ren f))) (hV : V.Perm (vars.map (BidVar.ren f))) (hU : U.Perm us)
    (sc : costs.Pairwise BidCost.before) (sC : C.Pairwise BidCost.before) (nv : (vars.map BidVar.vid).Nodup)
    (nu : (us.map UnitInfo.unit).Nodup)
    (nk : ((costs.filter (fun c => decide (c.service = .energy))).map (fun c => (c.unit, c.band))).Nodup) :
    tieBids C V U = (tieBids costs vars us).map (TieBid.ren f) := by
  rw [← tieBids_ren hf]
  have e1 : C.filter (fun c => decide (c.service = .energy)) = (costs.map (BidCost.ren f)).filter (fun c => decide (c.service = .energy)) := by
    refine List.Perm.eq_of_pairwise (le := BidCost.before) ?_ (sC.filter _) ?_ (hC.filter _)
    · intro a b ha hb h1 h2
      have hk : (a.unit, a.band) = (b.unit, b.band) := by
        unfold BidCost.before at h1 h2
        rcases h1 with h1 | ⟨h1, h1'⟩ <;> rcases h2 with h2 | ⟨h2, h2'⟩
        · exact absurd (String.lt_trans h1 h2) (String.lt_irrefl _)
        · exact absurd h1 (h2 ▸ String.lt_irrefl _)
        · exact absurd h2 (h1 ▸ String.lt_irrefl _)
        · rw [h1, String.le_antisymm h1' h2']
      have ha' := (hC.filter _).mem_iff.1 ha
      have nk' : (((costs.map (BidCost.ren f)).filter (fun c => decide (c.service = .energy))).map (fun c => (c.unit, c.band))).Nodup := by
        rw [List.filter_map, List.map_map]; exact nk
      exact List.inj_on_of_nodup_map nk' ha' hb hk
    · rw [List.filter_map, List.pairwise_map]
      exact sc.filter _
  have e2 : ∀ i, V.filter (fun v => decide (v.vid = i)) = (vars.map (BidVar.ren f)).filter (fun v => decide (v.vid = i)) := by
    intro i
    refine perm_eq_of_length (hV.filter _) (filter_length_le_one ?_ i)
    rw [List.map_map]
    have : BidVar.vid ∘ BidVar.ren f = f ∘ BidVar.vid := rfl
    rw [this, ← List.map_map]
    exact nv.map hf
  have e3 : ∀ s, U.filter (fun u => decide (u.unit = s)) = us.filter (fun u => decide (u.unit = s)) := fun s =>
    perm_eq_of_length (hU.filter _) (filter_length_le_one nu s)
  unfold tieBids
  rw [e1]
  simp only [e2, e3]

theorem tieBreak_shuf (h : Shuf f g m M) (s : SortedWF m) (S : SortedWF M) (nv : ∀ l, m.bids = some l → (l.map BidVar.vid).Nodup)
    (nu : (m.units.map UnitInfo.unit).Nodup)
    (nk : (((m.bidCost.getD []).filter (fun c => decide (c.service = .energy))).map (fun c => (c.unit, c.band))).Nodup) (c : ℚ) :
    ShufR (m.setTieBreak c) (M.setTieBreak c) := by
  unfold Market.setTieBreak
  cases hc : m.bidCost with
  | none =>
    rw [h.tabs.bidCost.none_iff.2 hc]
    exact h.same _
  | some costs =>
    obtain ⟨C, eC, pC⟩ := h.tabs.bidCost.some_of hc
    rw [eC]
    cases hv : m.bids with
    | none =>
      rw [h.tabs.bids.none_iff.2 hv]
      exact h.same _
    | some vars =>
      obtain ⟨V, eV, pV⟩ := h.tabs.bids.some_of hv
      rw [eV]
      rw [hc] at nk
      dsimp only
      rw [tieBids_shuf h.vars.inj pC pV h.tabs.units (s.costs _ hc) (S.costs _ eC) (nv _ hv) nu nk, tiePairs_ren]
      simp only [List.isEmpty_map]
      split
      · exact h.same _
      rename_i hne
      rw [h.nextC, tieConstraints_ren f h.cons]
      generalize hps : tiePairs (tieBids costs vars m.units) = ps at hne ⊢
      have hN : 0 < ps.length := by
        rw [List.isEmpty_iff_length_eq_zero] at hne; omega
      have hvid : ∀ p ∈ ps, p.1.vid < m.nextVar ∧ p.2.vid < m.nextVar := by
        intro p hp
        subst hps
        have key : ∀ b ∈ tieBids costs vars m.units, b.vid < m.nextVar := by
          intro b hb
          obtain ⟨cv, hcv, hb⟩ := List.mem_flatMap.1 hb
          obtain ⟨u, _, rfl⟩ := List.mem_map.1 hb
          obtain ⟨c, hc', hcv⟩ := List.mem_flatMap.1 hcv
          obtain ⟨v, _, rfl⟩ := List.mem_map.1 hcv
          exact h.bnd.bidCost _ hc c (List.mem_of_mem_filter hc')
        have hp' := mem_of_mem_dropDup hp
        obtain ⟨a, ha, hp'⟩ := List.mem_flatMap.1 hp'
        obtain ⟨b, hb, rfl⟩ := List.mem_map.1 hp'
        exact ⟨key _ ha, key _ (List.mem_of_mem_filter hb)⟩
      have hids : (tieConstraints ps m.nextCon).2.map Row.cid = List.range' m.nextCon ps.length := by
        unfold tieConstraints
        rw [map_saveIndex, saveIndex_ids]
      have hn : nextAfter ((tieConstraints ps m.nextCon).2.map Row.cid) = m.nextCon + ps.length := by
        rw [hids, nextAfter_range' hN]
      have hn' : nextAfter (((tieConstraints ps m.nextCon).2.map (Row.ren g)).map Row.cid) = m.nextCon + ps.length := by
        rw [← hn]
        congr 1
        rw [List.map_map]
        refine List.map_congr_left (fun r hr => ?_)
        have hr' : r.cid ∈ List.range' m.nextCon ps.length := hids ▸ List.mem_map.2 ⟨r, hr, rfl⟩
        have := h.cons.tail r.cid (List.mem_range'_1.1 hr').1
        show g r.cid = r.cid
        omega
      have hcid : ∀ r ∈ (tieConstraints ps m.nextCon).2, r.cid < m.nextCon + ps.length := by
        intro r hr
        have hr' : r.cid ∈ List.range' m.nextCon ps.length := hids ▸ List.mem_map.2 ⟨r, hr, rfl⟩
        exact (List.mem_range'_1.1 hr').2
      have hlhs : ∀ r ∈ (tieConstraints ps m.nextCon).1, r.vid < m.nextVar ∧ r.cid < m.nextCon + ps.length := by
        intro r hr
        rcases List.mem_append.1 hr with hr | hr
        · obtain ⟨i, p, hp, _, h2, rfl⟩ := mem_saveIndex_lt hr
          exact ⟨(hvid p hp).1, h2⟩
        · obtain ⟨i, p, hp, _, h2, rfl⟩ := mem_saveIndex_lt hr
          exact ⟨(hvid p hp).2, h2⟩
      dsimp only
      rw [hn, hn']
      have hb := h.bnd.mono (le_refl _) (Nat.le_add_right m.nextCon ps.length)
      have hR : Ren g (m.nextCon + ps.length) (m.nextCon + ps.length) := h.cons.add _
      generalize tieConstraints ps m.nextCon = t at hcid hlhs ⊢
      refine elastic_shuf (f := f) (g := g) (C := .num c) (h := ?_) .tieBreak rfl
      refine ⟨?_, h.nextV, rfl, h.vars, hR, ?_⟩
      · exact { h.tabs with bids := pV, bidCost := pC, tieLhs := .refl _, conRhs := tabP_set h.tabs.conRhs _ (.refl _) }
      refine { hb with bids := fun l e => hb.bids l (hv.trans e), bidCost := fun l e => hb.bidCost l (hc.trans e),
                       tieLhs := ?_, conRhs := bnd_set hb.conRhs _ hcid }
      intro l e
      injection e with e
      exact e ▸ hlhs

end

end Verif
