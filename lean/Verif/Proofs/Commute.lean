import Verif.Proofs.Replace
import Verif.Spec.Order

/-! The order of two calls that are about different constraint sets: the two orders give the same market up to the
numbering of variables and constraints. -/

namespace Verif

section
variable {Q : Part → Prop} {K D : CKey → Prop} {f g : Nat → Nat} {m M : Market}

theorem Tabs.inv {f' g' : Nat → Nat} (h : Tabs Q K D f g m M) (hr : Reached m) (hf : ∀ i, i < m.nextVar → f' (f i) = i)
    (hg : ∀ i, i < m.nextCon → g' (g i) = i) : Tabs Q K D f' g' M m := by
  have c : Tabs Q K D (f' ∘ f) (g' ∘ g) m m :=
    (sim_refl m).tabs.congr hr (fun i hi => (hf i hi).symm) (fun i hi => (hg i hi).symm)
  have e : ∀ {α : Type} {o : Option (List α)} {r r' : α → α}, o.map (List.map (r' ∘ r)) = (o.map (List.map r)).map (List.map r') := by
    intro α o r r'
    cases o <;> simp
  exact {
    regions := h.regions.symm
    units := h.units.symm
    di := h.di.symm
    bids := fun q => by rw [h.bids q, ← e]; exact c.bids q
    bidUnit := fun q => by rw [h.bidUnit q, ← e]; exact c.bidUnit q
    bidReg := fun q => by rw [h.bidReg q, ← e]; exact c.bidReg q
    bidCost := fun q => by rw [h.bidCost q, ← e]; exact c.bidCost q
    dirs := fun q => (h.dirs q).symm
    inters := fun q => by rw [h.inters q, ← e]; exact c.inters q
    interReg := fun q => by rw [h.interReg q, ← e]; exact c.interReg q
    lossShares := fun k => (h.lossShares k).symm
    losses := fun k => by rw [h.losses k, ← e]; exact c.losses k
    lossReg := fun k => by rw [h.lossReg k, ← e]; exact c.lossReg k
    weights := fun k => by rw [h.weights k, ← e]; exact c.weights k
    lossLhs := fun k => by rw [h.lossLhs k, ← e]; exact c.lossLhs k
    tieLhs := fun k => by rw [h.tieLhs k, ← e]; exact c.tieLhs k
    deficits := fun k hk => by
      rw [h.deficits k hk]
      refine (c.deficits k hk).trans ?_
      cases m.deficits.get? k with
      | none => rfl
      | some d => simp [renDef, DefVar.ren, Term.ren, Function.comp_def]
    gUnit := fun q => (h.gUnit q).symm
    gRegion := fun q => (h.gRegion q).symm
    gInter := fun q => (h.gInter q).symm
    unitCon := fun k hk => by rw [h.unitCon k hk, ← e]; exact c.unitCon k hk
    regCon := fun k hk => by rw [h.regCon k hk, ← e]; exact c.regCon k hk
    conRhs := fun k hk => by rw [h.conRhs k hk, ← e]; exact c.conRhs k hk
    mktRhs := fun k hk => by rw [h.mktRhs k hk, ← e]; exact c.mktRhs k hk
    dynRhs := fun k => by rw [h.dynRhs k, ← e]; exact c.dynRhs k
    nan := h.nan.symm }

/-- Two relations that leave out different sets together leave out none. -/
theorem Tabs.join {Q' : Part → Prop} {K' : CKey → Prop} (h : Tabs Q K K f g m M) (h' : Tabs Q' K' K' f g m M)
    (hq : ∀ p, Q p → ¬ Q' p) (hd : ∀ k, K k → ¬ K' k) : Tabs (fun _ => False) (fun _ => False) (fun _ => False) f g m M := by
  have q : ∀ (P : CKey → Prop) k, (¬ K k → P k) → (¬ K' k → P k) → P k := by
    intro P k h1 h2
    by_cases hk : K k
    · exact h2 (hd k hk)
    · exact h1 hk
  have r : ∀ (P : Part → Prop) k, (¬ Q k → P k) → (¬ Q' k → P k) → P k := by
    intro P k h1 h2
    by_cases hk : Q k
    · exact h2 (hq k hk)
    · exact h1 hk
  exact {
    regions := h.regions
    units := h.units
    di := h.di
    bids := fun _ => r (fun _ => _) .bids h.bids h'.bids
    bidUnit := fun _ => r (fun _ => _) .bids h.bidUnit h'.bidUnit
    bidReg := fun _ => r (fun _ => _) .bids h.bidReg h'.bidReg
    bidCost := fun _ => r (fun _ => _) .prices h.bidCost h'.bidCost
    dirs := fun _ => r (fun _ => _) .inters h.dirs h'.dirs
    inters := fun _ => r (fun _ => _) .inters h.inters h'.inters
    interReg := fun _ => r (fun _ => _) .inters h.interReg h'.interReg
    lossShares := fun _ => q (fun _ => _) .interpWeights h.lossShares h'.lossShares
    losses := fun _ => q (fun _ => _) .interpWeights h.losses h'.losses
    lossReg := fun _ => q (fun _ => _) .interpWeights h.lossReg h'.lossReg
    weights := fun _ => q (fun _ => _) .interpWeights h.weights h'.weights
    lossLhs := fun _ => q (fun _ => _) .interpWeights h.lossLhs h'.lossLhs
    tieLhs := fun _ => q (fun _ => _) .tieBreak h.tieLhs h'.tieLhs
    deficits := fun k _ => q (fun _ => _) k (h.deficits k) (h'.deficits k)
    gUnit := fun _ => r (fun _ => _) .gUnit h.gUnit h'.gUnit
    gRegion := fun _ => r (fun _ => _) .gRegion h.gRegion h'.gRegion
    gInter := fun _ => r (fun _ => _) .gInter h.gInter h'.gInter
    unitCon := fun k _ => q (fun _ => _) k (h.unitCon k) (h'.unitCon k)
    regCon := fun k _ => q (fun _ => _) k (h.regCon k) (h'.regCon k)
    conRhs := fun k _ => q (fun _ => _) k (h.conRhs k) (h'.conRhs k)
    mktRhs := fun k _ => q (fun _ => _) k (h.mktRhs k) (h'.mktRhs k)
    dynRhs := fun _ => q (fun _ => _) .interpWeights h.dynRhs h'.dynRhs
    nan := h.nan }

/-- exchange the block of the ids from `n` to `a` and the block of the same length as `n` to `b` after it -/
def swapIds (n a b : Nat) (i : Nat) : Nat :=
  if i < n then i else if i < a then i - n + b else if i < a + b - n then i - a + n else i

theorem swapIds_ren {n a b : Nat} (ha : n ≤ a) (hb : n ≤ b) : Ren (swapIds n a b) (a + b - n) (a + b - n) where
  inj := by
    intro i j h
    unfold swapIds at h
    split at h <;> split at h <;> (try split at h) <;> (try split at h) <;> (try split at h) <;> (try split at h) <;> omega
  low := by
    intro i hi
    unfold swapIds
    split
    · omega
    · split
      · omega
      · omega
  tail := by
    intro i hi
    unfold swapIds
    rw [if_neg (by omega), if_neg (by omega), if_neg (by omega)]

theorem nan_prim {good : Prop} {ks : List Part} {M M1 : Market} (h : Prim good ks M M1) (hk : Part.set .generic ∉ ks) :
    M1.nanCon = M.nanCon := by
  cases h with
  | generic => simp at hk
  | bids | inters => simp only [Market.setVolumeBids, Market.setInterconnectors]; split <;> (try split) <;> (try split) <;> rfl
  | prices => simp only [Market.setPriceBids]; split <;> (try split) <;> (try split) <;> rfl
  | unitSet | regSet => simp only [Market.addUnitSet, Market.addRegSet]; split <;> rfl
  | elastic => simp only [Market.makeElastic]; repeat' split
               all_goals rfl
  | removeFs => simp only [Market.removeFastStart]; repeat' split
                all_goals rfl
  | losses => simp only [Market.setLosses]; repeat' split
              all_goals rfl
  | linkUnits | linkRegions | linkInters => simp only [Market.linkUnits, Market.linkRegions, Market.linkInters]; split <;> rfl
  | tie => rfl

theorem nan_makeElastic (m : Market) (k : CKey) (c : VCost) : (m.makeElastic k c).1.nanCon = m.nanCon := by
  unfold Market.makeElastic
  repeat' split
  all_goals (try dsimp only)
  all_goals (try split)
  all_goals rfl

theorem nan_step (m : Market) {op : Op} (h : op.keepsIds = true) : (m.step op).1.nanCon = m.nanCon := by
  have gen : Part.set .generic ∉ op.parts → (m.step op).1.nanCon = m.nanCon := by
    intro hg
    have : ∀ {M1 : Market}, Steps False op.parts m M1 → M1.nanCon = m.nanCon := by
      intro M1 hs
      induction hs with
      | refl => rfl
      | tail _ p hk ih => exact (nan_prim p (fun e => hg (hk e))).trans ih
    exact this (step_steps m op (fun h => h.elim))
  cases op with
  | generic g vc =>
    unfold Market.step
    split
    · rfl
    simp only [Market.setGeneric]
    split
    · rfl
    have hne : (saveIndex g m.nextCon (fun i g => ({ cid := i, ctype := g.ctype, rhs := g.rhs, set := some g.set } : Row))).isEmpty = false := by
      rw [saveIndex_isEmpty]
      cases g with
      | nil => cases h
      | cons => rfl
    rw [hne]
    cases vc with
    | none => rfl
    | some c => exact nan_makeElastic _ _ _
  | elastic k c =>
    unfold Market.step
    split
    · rfl
    exact nan_makeElastic _ _ _
  | _ => exact gen (by simp [Op.parts])

/-- Two independent calls can be exchanged. -/
theorem swap {a b : Op} (hr : Reached m) (hi : a.independent b) (ba : a.benign m) (bb : b.benign m) :
    (∃ f g, SameUpTo f g ((m.step a).1.step b).1 ((m.step b).1.step a).1) ∧ ((m.step a).1.step b).2 = (m.step b).2 ∧
    ((m.step b).1.step a).2 = (m.step a).2 ∧ b.benign (m.step a).1 ∧ a.benign (m.step b).1 := by
  have na := nan_step m hi.2.2.1
  have nb := nan_step m hi.2.2.2
  have hd : ∀ p ∈ a.parts, p ∉ b.parts := fun p h => (hi.1 p h).1
  let A : CKey → Prop := fun k => Part.set k ∈ a.parts
  let B : CKey → Prop := fun k => Part.set k ∈ b.parts
  have hu := hr.wf.inter
  have ua : Upd (· ∈ a.parts) A m (m.step a).1 := upd_step m hu a (fun _ h => h) (fun _ h => Or.inl h)
  have ub : Upd (· ∈ b.parts) B m (m.step b).1 := upd_step m hu b (fun _ h => h) (fun _ h => Or.inl h)
  have sa := (sim_refl (K := A) (D := A) m).skip hr ua (fun _ h => h) na
  have sb := (sim_refl (K := B) (D := B) m).skip hr ub (fun _ h => h) nb
  obtain ⟨s1, e1⟩ := step_sim sa hu b (fun k h1 h2 => hd _ h1 h2) (fun p hp => (hi.1 p hp).2)
  obtain ⟨s2, e2⟩ := step_sim sb hu a (fun k h1 h2 => hd _ h2 h1) (fun p hp => hi.2.1 p hp)
  have ra := hr.step ba
  have rb := hr.step bb
  have back : ∀ {M : Market}, M.units = m.units → M.di = m.di → ∀ o : Op, (Part.inters ∈ o.needs → M.inters = m.inters) →
      o.benign m → o.benign M := by
    intro M h1 h2 o h3 ho
    cases o with
    | losses f b => simpa only [Op.benign, LinksKnown, h3 (by simp [Op.needs])] using ho
    | _ => simpa only [Op.benign, h1, h2] using ho
  have bb' : b.benign (m.step a).1 := back ua.units ua.di b (fun h => ua.inters (fun h' => (hi.1 _ h').2 h)) bb
  have ba' : a.benign (m.step b).1 := back ub.units ub.di a (fun h => ub.inters (fun h' => hi.2.1 _ h' h)) ba
  refine ⟨?_, e1, e2, bb', ba'⟩
  have uab : Upd (· ∈ b.parts) B (m.step a).1 ((m.step a).1.step b).1 := upd_step _ ra.wf.inter b (fun _ h => h) (fun _ h => Or.inl h)
  have uba : Upd (· ∈ a.parts) A (m.step b).1 ((m.step b).1.step a).1 := upd_step _ rb.wf.inter a (fun _ h => h) (fun _ h => Or.inl h)
  have v1 := s1.vars.next
  have v2 := s2.vars.next
  have c1 := s1.cons.next
  have c2 := s2.cons.next
  have l1 := ua.vars
  have l2 := ub.vars
  have l3 := ua.cons
  have l4 := ub.cons
  have n1 := uab.vars
  have n2 := uab.cons
  unfold retail at v1 v2 c1 c2
  rw [if_neg (by omega)] at v1 v2 c1 c2
  have nab : ((m.step a).1.step b).1.nanCon = m.nanCon := s1.nan.trans nb
  have nba : ((m.step b).1.step a).1.nanCon = m.nanCon := s2.nan.trans na
  refine ⟨swapIds m.nextVar (m.step a).1.nextVar (m.step b).1.nextVar, swapIds m.nextCon (m.step a).1.nextCon (m.step b).1.nextCon, ?_⟩
  refine Tabs.sim (Tabs.join (Q := (· ∈ b.parts)) (Q' := (· ∈ a.parts)) (K := B) (K' := A) ?_ ?_ (fun k h1 h2 => hd _ h2 h1)
    (fun k h1 h2 => hd _ h2 h1)) ?_ ?_
  · refine (s2.tabs.congr ra ?_ ?_).left uab (fun _ h => h) (by rw [na, nab])
    · intro i hi; unfold retail swapIds
      by_cases h : i < m.nextVar
      · rw [if_pos h, if_pos h]; rfl
      · rw [if_neg h, if_neg h, if_pos hi]
    · intro i hi; unfold retail swapIds
      by_cases h : i < m.nextCon
      · rw [if_pos h, if_pos h]; rfl
      · rw [if_neg h, if_neg h, if_pos hi]
  · refine (s1.tabs.inv rb ?_ ?_).right uba (fun _ h => h) (by rw [nb, nba])
    · intro i hi; unfold retail swapIds
      by_cases h : i < m.nextVar
      · rw [if_pos h]; exact if_pos h
      · rw [if_neg h, if_neg (by omega), if_neg (by omega), if_pos (by omega)]; omega
    · intro i hi; unfold retail swapIds
      by_cases h : i < m.nextCon
      · rw [if_pos h]; exact if_pos h
      · rw [if_neg h, if_neg (by omega), if_neg (by omega), if_pos (by omega)]; omega
  · rw [← v1, ← v2]
    have e : ∀ n a b : Nat, n ≤ a → n ≤ b → b - n + a = a + b - n ∧ a - n + b = a + b - n := by omega
    rw [(e _ _ _ l1 l2).1, (e _ _ _ l1 l2).2]
    exact swapIds_ren l1 l2
  · rw [← c1, ← c2]
    have e : ∀ n a b : Nat, n ≤ a → n ≤ b → b - n + a = a + b - n ∧ a - n + b = a + b - n := by omega
    rw [(e _ _ _ l3 l4).1, (e _ _ _ l3 l4).2]
    exact swapIds_ren l3 l4

theorem Op.independent.symm {a b : Op} (h : a.independent b) : b.independent a :=
  ⟨fun p hp => ⟨fun h' => (h.1 p h').1 hp, h.2.1 p hp⟩, fun p hp => (h.1 p hp).2, h.2.2.2, h.2.2.1⟩

theorem benign_of_upd {a b : Op} (hr : Reached m) (hi : a.independent b) (h : b.benign (m.step a).1) : b.benign m := by
  have ua : Upd (· ∈ a.parts) (fun k => Part.set k ∈ a.parts) m (m.step a).1 :=
    upd_step m hr.wf.inter a (fun _ h => h) (fun _ h => Or.inl h)
  cases b with
  | losses f b =>
    have := ua.inters (fun h' => (hi.1 _ h').2 (by simp [Op.needs]))
    simpa only [Op.benign, LinksKnown, this] using h
  | _ => simpa only [Op.benign, ua.units, ua.di] using h

theorem outcomes_sim {f g : Nat → Nat} {m M : Market} (h : SameUpTo f g m M) (hm : Reached m) {ops : List Op} (hb : Benign M ops) :
    M.outcomes ops = m.outcomes ops := by
  induction ops generalizing m M with
  | nil => rfl
  | cons op ops ih =>
    obtain ⟨h1, h2⟩ := hb
    obtain ⟨s1, e⟩ := step_sim h hm.wf.inter op (fun _ h => False.elim h) (fun _ h => False.elim h)
    simp only [Market.outcomes]
    rw [e, ih s1 (hm.step (h.benign (fun _ h => False.elim h) h1)) h2]

theorem outcomes_append (m : Market) (l l' : List Op) : m.outcomes (l ++ l') = m.outcomes l ++ (m.run l).outcomes l' := by
  induction l generalizing m with
  | nil => rfl
  | cons op l ih =>
    rw [run_cons]
    simp only [List.cons_append, Market.outcomes, ih]

theorem DispatchSame.symm {m m' : Market} (h : DispatchSame m m') : DispatchSame m' m :=
  ⟨h.builds.symm, fun r => (h.feasible r).symm, fun r => (h.optimal r).symm, fun r e c => (h.prices r e c).symm⟩

theorem DispatchSame.trans {m m' m'' : Market} (h : DispatchSame m m') (h' : DispatchSame m' m'') : DispatchSame m m'' :=
  ⟨h.builds.trans h'.builds, fun r => (h.feasible r).trans (h'.feasible r), fun r => (h.optimal r).trans (h'.optimal r),
    fun r e c => (h.prices r e c).trans (h'.prices r e c)⟩

theorem reordered {m0 : Market} {ops ops' : List Op} (h : Reordered ops ops') (h0 : Reached m0) (hb : Benign m0 ops) :
    DispatchSame (m0.run ops) (m0.run ops') ∧ (m0.outcomes ops').Perm (m0.outcomes ops) ∧ Benign m0 ops' := by
  induction h with
  | refl ops => exact ⟨⟨Iff.rfl, fun _ => Iff.rfl, fun _ => Iff.rfl, fun _ _ _ => Iff.rfl⟩, List.Perm.refl _, hb⟩
  | trans _ _ ih1 ih2 =>
    obtain ⟨a1, a2, a3⟩ := ih1 hb
    obtain ⟨b1, b2, b3⟩ := ih2 a3
    exact ⟨a1.trans b1, b2.trans a2, b3⟩
  | @exchange a b before after hi =>
    obtain ⟨hb1, ba, bb, hb2⟩ := benign_append.1 hb
    have hr := h0.run hb1
    obtain ⟨⟨f, g, s⟩, e1, e2, c1, c2⟩ := swap hr hi.symm (benign_of_upd hr hi bb) ba
    have rba := (hr.step (benign_of_upd hr hi bb)).step c1
    obtain ⟨s3, hb3⟩ := run_sim (ops := after) s rba (fun _ _ _ h => (h.elim id id).elim) (fun _ _ _ h => False.elim h) hb2
    refine ⟨?_, ?_, ?_⟩
    · rw [run_append, run_append, run_cons, run_cons, run_cons, run_cons]
      exact dispatchSame_of s3 (rba.run hb3) (((hr.step ba).step bb).run hb2)
    · rw [outcomes_append, outcomes_append]
      apply List.Perm.append_left
      simp only [Market.outcomes]
      rw [e1, e2, outcomes_sim s rba hb2]
      exact List.Perm.swap _ _ _
    · exact benign_append.2 ⟨hb1, benign_of_upd hr hi bb, c1, hb3⟩

end

end Verif
