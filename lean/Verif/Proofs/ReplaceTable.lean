import Verif.Proofs.Commute

/-! Setting bids, interconnectors or links of generic constraints again. -/

namespace Verif

section
variable {f g : Nat → Nat} {m M : Market}

/-- the market without what `op` sets -/
def Market.clear (m : Market) : Op → Market
  | .volumeBids _ => { m with bids := none, bidUnit := none, bidReg := none }
  | .priceBids _ => { m with bidCost := none }
  | .interconnectors _ => { m with dirs := none, inters := none, interReg := none }
  | .linkUnits _ => { m with gUnit := none }
  | .linkRegions _ => { m with gRegion := none }
  | .linkInters _ => { m with gInter := none }
  | _ => m

theorem clear_step {op : Op} (hop : op.tabular) (hok : (m.step op).2 = none) : (m.clear op).step op = m.step op := by
  have hn : m.nanCon = false := by
    cases hn : m.nanCon with
    | false => rfl
    | true => unfold Market.step at hok; rw [if_pos hn] at hok; cases hok
  have hn' : (m.clear op).nanCon = false := by cases op <;> exact hn
  have e : ∀ o, m.step o = match o with
      | .volumeBids b => m.setVolumeBids b
      | .priceBids b => m.setPriceBids b
      | .interconnectors d => m.setInterconnectors d
      | .linkUnits d => m.linkUnits d
      | .linkRegions d => m.linkRegions d
      | .linkInters d => m.linkInters d
      | o => m.step o := by
    intro o
    cases o <;> first | rfl | (unfold Market.step; exact if_neg (by simp [hn]))
  have e' : ∀ o, (m.clear op).step o = match o with
      | .volumeBids b => (m.clear op).setVolumeBids b
      | .priceBids b => (m.clear op).setPriceBids b
      | .interconnectors d => (m.clear op).setInterconnectors d
      | .linkUnits d => (m.clear op).linkUnits d
      | .linkRegions d => (m.clear op).linkRegions d
      | .linkInters d => (m.clear op).linkInters d
      | o => (m.clear op).step o := by
    intro o
    cases o <;> first | rfl | (unfold Market.step; exact if_neg (by simp [hn']))
  rw [e] at hok ⊢
  rw [e']
  cases op with
  | volumeBids b =>
    dsimp only at hok ⊢
    by_cases c : (!m.volumeBidsOk b) = true
    · unfold Market.setVolumeBids at hok; rw [if_pos c] at hok; cases hok
    by_cases c2 : (!biInputsOk m.bidi (energyUnits b)) = true
    · unfold Market.setVolumeBids at hok; rw [if_neg c, if_pos c2] at hok; cases hok
    exact ((if_neg c).trans (if_neg c2)).trans ((if_neg c).trans (if_neg c2)).symm
  | priceBids b =>
    dsimp only at hok ⊢
    cases hb : m.bids with
    | none => unfold Market.setPriceBids at hok; rw [hb] at hok; cases hok
    | some vars =>
      have hb' : (m.clear (.priceBids b)).bids = some vars := hb
      unfold Market.setPriceBids at hok ⊢
      rw [hb] at hok ⊢
      rw [hb']
      dsimp only at hok ⊢
      by_cases c : (!m.priceBidsOk b) = true
      · rw [if_pos c] at hok; cases hok
      by_cases c2 : (!biInputsOk m.bidi (energyUnits b)) = true
      · rw [if_neg c, if_pos c2] at hok; cases hok
      exact ((if_neg c).trans (if_neg c2)).trans ((if_neg c).trans (if_neg c2)).symm
  | interconnectors d =>
    dsimp only at hok ⊢
    by_cases c : (!m.interDefsOk d) = true
    · unfold Market.setInterconnectors at hok; rw [if_pos c] at hok; cases hok
    exact (if_neg c).trans (if_neg c).symm
  | linkUnits d =>
    dsimp only at hok ⊢
    by_cases c : (!(d.all (fun g => m.knows g.unit) &&
        decide ((d.map (fun g => (g.set, g.unit, g.service))).Nodup))) = true
    · unfold Market.linkUnits at hok; rw [if_pos c] at hok; cases hok
    exact (if_neg c).trans (if_neg c).symm
  | linkRegions d =>
    dsimp only at hok ⊢
    by_cases c : (!(d.all (fun g => decide (g.region ∈ m.regions)) &&
        decide ((d.map (fun g => (g.set, g.region, g.service))).Nodup))) = true
    · unfold Market.linkRegions at hok; rw [if_pos c] at hok; cases hok
    exact (if_neg c).trans (if_neg c).symm
  | linkInters d =>
    dsimp only at hok ⊢
    by_cases c : (!decide ((d.map (fun g => (g.set, g.inter))).Nodup)) = true
    · unfold Market.linkInters at hok; rw [if_pos c] at hok; cases hok
    exact (if_neg c).trans (if_neg c).symm
  | _ => exact hop.elim

theorem clear_sim {op : Op} (hop : op.tabular) (h : SimG (· ∈ op.parts) (fun _ => False) (fun _ => False) f g m M) :
    SameUpTo f g (m.clear op) (M.clear op) := by
  have q : ∀ {p}, p ∉ op.parts → ¬ (p ∈ op.parts) := id
  cases op <;> try exact hop.elim
  all_goals exact {
    regions := h.regions, units := h.units, di := h.di
    bids := fun _ => by first | rfl | exact h.bids (by simp [Op.parts])
    bidUnit := fun _ => by first | rfl | exact h.bidUnit (by simp [Op.parts])
    bidReg := fun _ => by first | rfl | exact h.bidReg (by simp [Op.parts])
    bidCost := fun _ => by first | rfl | exact h.bidCost (by simp [Op.parts])
    dirs := fun _ => by first | rfl | exact h.dirs (by simp [Op.parts])
    inters := fun _ => by first | rfl | exact h.inters (by simp [Op.parts])
    interReg := fun _ => by first | rfl | exact h.interReg (by simp [Op.parts])
    gUnit := fun _ => by first | rfl | exact h.gUnit (by simp [Op.parts])
    gRegion := fun _ => by first | rfl | exact h.gRegion (by simp [Op.parts])
    gInter := fun _ => by first | rfl | exact h.gInter (by simp [Op.parts])
    lossShares := h.lossShares, losses := h.losses, lossReg := h.lossReg, weights := h.weights, lossLhs := h.lossLhs
    tieLhs := h.tieLhs, deficits := h.deficits, unitCon := h.unitCon, regCon := h.regCon, conRhs := h.conRhs
    mktRhs := h.mktRhs, dynRhs := h.dynRhs, nan := h.nan, vars := h.vars, cons := h.cons }

theorem step_fills {op : Op} (hop : op.tabular)
    (h : SimG (· ∈ op.parts) (fun _ => False) (fun _ => False) f g m M) (hm : Reached m) (hok : (M.step op).2 = none) :
    SameUpTo f g (m.step op).1 (M.step op).1 := by
  have hnd : ∀ p ∈ op.parts, p ∉ op.needs := by cases op <;> simp [Op.parts, Op.needs]
  obtain ⟨_, e⟩ := step_sim h hm.wf.inter op (fun _ h => False.elim h) hnd
  rw [← clear_step hop hok, ← clear_step hop (e ▸ hok)]
  have hw : InterWF (m.clear op) := by
    cases op with
    | interconnectors d => exact Or.inl ⟨rfl, rfl, rfl⟩
    | _ => exact hm.wf.inter
  exact (step_sim (clear_sim hop h) hw op (fun _ h => False.elim h) (fun _ h => False.elim h)).1

end

/-- The calls about the table `op` sets can be left out before it, unless some call in between looks at the table. -/
theorem replacedTable {m0 : Market} {before after : List Op} {op : Op} (R0 : Reached m0)
    (hb : Benign m0 (before ++ op :: after)) (hok : ((m0.run before).step op).2 = none) (hop : op.tabular)
    (hd : ∀ o ∈ before, op.about o = false → ∀ p ∈ op.parts, p ∉ o.needs) :
    DispatchSame (m0.run (before ++ op :: after)) (m0.run (before.filter (fun o => !op.about o) ++ op :: after)) := by
  obtain ⟨hb1, hb2, hb3⟩ := benign_append.1 hb
  have hn : (m0.run before).nanCon = false := by
    cases hn : (m0.run before).nanCon with
    | false => rfl
    | true => unfold Market.step at hok; rw [if_pos hn] at hok; cases hok
  have hnd : ∀ p ∈ op.parts, p ∉ op.needs := by cases op <;> simp [Op.parts, Op.needs]
  obtain ⟨f, g, s, hbm⟩ := run_skip (Q := (· ∈ op.parts)) (K := fun _ => False) (D := fun _ => False) op.about
    (fun o ho k hk => by
      cases op <;> try exact hop.elim
      all_goals
        cases o <;> simp [Op.about, Op.parts] at ho hk)
    (fun o ho p hp => by
      left
      cases op <;> try exact hop.elim
      all_goals
        cases o <;> simp [Op.about, Op.parts] at ho hp ⊢
        all_goals exact hp)
    (fun _ _ _ h => (h.elim id id).elim) (fun _ h => h) hd (sim_refl m0) R0 R0 hb1 hn
  have hM := R0.run hb1
  have hm := R0.run hbm
  have s2 := step_fills hop s hm hok
  have bm := s.benign hnd hb2
  obtain ⟨s3, hb4⟩ := run_sim (ops := after) s2 (hm.step bm) (fun _ _ _ h => (h.elim id id).elim) (fun _ _ _ h => False.elim h) hb3
  rw [run_append, run_append, run_cons, run_cons]
  exact dispatchSame_of s3 ((hm.step bm).run hb4) ((hM.step hb2).run hb3)

end Verif
