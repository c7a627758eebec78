import Verif.Spec.Soften
import Verif.Proofs.SimRun
import Verif.Proofs.ElasticOps

/-! The states of a history and of the same history without violation costs. -/

namespace Verif

/-- `M1` differs from `M` in violation variables of soft sets only, the new ones have new ids. -/
structure OnlyDef (M M1 : Market) : Prop where
  eq : M1 = { M with deficits := M1.deficits, nextVar := M1.nextVar }
  next : M.nextVar ≤ M1.nextVar
  hard : ∀ k, k.soft = false → M1.deficits.get? k = M.deficits.get? k
  soft : ∀ k d, M1.deficits.get? k = some d → M.deficits.get? k = some d ∨ ∀ v ∈ d.1, M.nextVar ≤ v.vid

theorem OnlyDef.refl (M : Market) : OnlyDef M M := ⟨rfl, le_refl _, fun _ _ => rfl, fun _ _ h => Or.inl h⟩

theorem OnlyDef.trans {M M1 M2 : Market} (h : OnlyDef M M1) (h' : OnlyDef M1 M2) : OnlyDef M M2 where
  eq := by rw [h'.eq, h.eq]
  next := h.next.trans h'.next
  hard := fun k hk => (h'.hard k hk).trans (h.hard k hk)
  soft := by
    intro k d hd
    rcases h'.soft k d hd with h1 | h1
    · exact h.soft k d h1
    · exact Or.inr (fun v hv => h.next.trans (h1 v hv))

theorem onlyDef_elastic (M : Market) {k : CKey} (hk : k.soft = true) (c : VCost) : OnlyDef M (M.makeElastic k c).1 := by
  unfold Market.makeElastic
  split
  · exact .refl M
  split
  · exact .refl M
  rename_i rows _ rs _
  have hge := deficit_ge rs M.nextVar
  have h1 : ∀ k', k'.soft = false → (M.deficits.set k (deficitVariables rs M.nextVar)).get? k' = M.deficits.get? k' :=
    fun k' hk' => Dict.get?_set_ne _ _ (fun e => by rw [e, hk'] at hk; cases hk)
  have h2 : ∀ k' d, (M.deficits.set k (deficitVariables rs M.nextVar)).get? k' = some d →
      M.deficits.get? k' = some d ∨ ∀ v ∈ d.1, M.nextVar ≤ v.vid := by
    intro k' d hd
    by_cases e : k = k'
    · subst e
      rw [Dict.get?_set_self] at hd
      cases hd
      exact Or.inr (fun v hv => hge _ (List.mem_map.2 ⟨v, hv, rfl⟩))
    · rw [Dict.get?_set_ne _ _ e] at hd
      exact Or.inl hd
  dsimp only
  split
  · exact .refl M
  split
  · exact ⟨rfl, le_refl _, h1, h2⟩
  · rename_i hne
    exact ⟨rfl, le_nextAfter hge (by simpa [List.isEmpty_iff] using hne), h1, h2⟩

theorem onlyDef_opt (M : Market) {k : CKey} (hk : k.soft = true) (c : Option VCost) :
    OnlyDef (M.elasticOpt k none).1 (M.elasticOpt k c).1 := by
  cases c with
  | none => exact .refl M
  | some c => exact onlyDef_elastic M hk c

theorem onlyDef_ifPresent (M : Market) {k : CKey} (hk : k.soft = true) (c : VCost) : OnlyDef M (M.elasticIfPresent k c).1 := by
  unfold Market.elasticIfPresent
  split
  · exact onlyDef_elastic M hk c
  · exact .refl M

theorem onlyDef_then {M : Market} {r : Res} (h : OnlyDef M r.1) {f : Market → Res} (hf : ∀ m, OnlyDef m (f m).1) :
    OnlyDef M (r.andThen f).1 := by
  unfold Res.andThen
  split
  · exact h.trans (hf _)
  · exact h

/-- two continuations after the same step -/
theorem onlyDef_both (r : Res) {f f' : Market → Res} (hf : ∀ m, OnlyDef (f m).1 (f' m).1) :
    OnlyDef (r.andThen f).1 (r.andThen f').1 := by
  unfold Res.andThen
  split
  · exact hf _
  · exact .refl _

theorem onlyDef_ramps (M : Market) (c : Option VCost) : OnlyDef (M.elasticRamps none).1 (M.elasticRamps c).1 := by
  cases c with
  | none => exact .refl M
  | some c =>
    exact onlyDef_then (onlyDef_elastic M rfl c) (fun m => onlyDef_then (onlyDef_elastic m rfl c)
      (fun m => onlyDef_then (onlyDef_ifPresent m rfl c) (fun m => onlyDef_ifPresent m rfl c)))

theorem onlyDef_jr (M : Market) (c : Option VCost) : OnlyDef (M.elasticJr none).1 (M.elasticJr c).1 := by
  cases c with
  | none => exact .refl M
  | some c =>
    exact onlyDef_then (onlyDef_elastic M rfl c) (fun m => onlyDef_then (onlyDef_elastic m rfl c)
      (fun m => onlyDef_then (onlyDef_ifPresent m rfl c) (fun m => onlyDef_ifPresent m rfl c)))

/-- A call and the call without its violation cost. -/
theorem onlyDef_step (M : Market) {op o : Op} (h : op.rigid = some o) : OnlyDef (M.step o).1 (M.step op).1 := by
  cases hn : M.nanCon with
  | true => simp only [Market.step, hn, if_true]; exact .refl M
  | false =>
  simp only [Market.step, hn, Bool.false_eq_true, if_false]
  cases op with
  | capacity l vc =>
    cases h
    dsimp only [Market.setCapacity]
    split
    · exact .refl _
    split
    · exact .refl _
    exact onlyDef_both _ (fun m => onlyDef_opt m rfl vc)
  | uigf l vc =>
    cases h
    dsimp only [Market.setUigf]
    split
    · exact .refl _
    split
    · exact .refl _
    exact onlyDef_both _ (fun m => onlyDef_opt m rfl vc)
  | rampRates r sc ps rt vc =>
    cases h
    dsimp only [Market.setRampRates]
    split
    · exact .refl _
    split
    · exact .refl _
    split
    · exact .refl _
    split
    · exact .refl _
    split
    · exact .refl _
    exact onlyDef_both _ (fun m => onlyDef_both _ (fun m => onlyDef_both _ (fun m => onlyDef_ramps m vc)))
  | fastStart p vc =>
    cases h
    dsimp only [Market.setFastStart]
    split
    · exact .refl _
    split
    · exact .refl _
    exact onlyDef_both _ (fun m => onlyDef_opt m rfl vc)
  | demand d vc =>
    cases h
    dsimp only [Market.setDemand]
    split
    · exact .refl _
    exact onlyDef_both _ (fun m => onlyDef_opt m rfl vc)
  | fcasReq r vc =>
    cases h
    dsimp only [Market.setFcasReq]
    split
    · exact .refl _
    exact onlyDef_both _ (fun m => onlyDef_opt m rfl vc)
  | fcasMaxAvail l vc =>
    cases h
    dsimp only [Market.setFcasMaxAvail]
    split
    · exact .refl _
    exact onlyDef_both _ (fun m => onlyDef_opt m rfl vc)
  | jointRamping r ps rt vc =>
    cases h
    dsimp only [Market.setJointRamping]
    split
    · exact .refl _
    split
    · exact .refl _
    split
    · exact .refl _
    split
    · exact .refl _
    exact onlyDef_both _ (fun m => onlyDef_both _ (fun m => onlyDef_both _ (fun m => onlyDef_both _ (fun m => onlyDef_jr m vc))))
  | jointCapacity t vc =>
    cases h
    dsimp only [Market.setJointCapacity]
    split
    · exact .refl _
    split
    · exact .refl _
    exact onlyDef_both _ (fun m => onlyDef_opt m rfl vc)
  | energyReg t vc =>
    cases h
    dsimp only [Market.setEnergyReg]
    split
    · exact .refl _
    split
    · exact .refl _
    exact onlyDef_both _ (fun m => onlyDef_opt m rfl vc)
  | generic g vc =>
    cases h
    dsimp only [Market.setGeneric]
    split
    · exact .refl _
    exact onlyDef_opt _ rfl vc
  | elastic k c =>
    simp only [Op.rigid] at h
    split at h
    · cases h
    · cases h; exact .refl _
  | _ => cases h; exact .refl _

/-- what is left of a call makes no soft set elastic -/
theorem rigid_asks {op o : Op} (h : op.rigid = some o) {k : CKey} (hk : k.soft = true) : ¬ o.asksElastic k := by
  rintro ⟨h1, h2⟩
  cases op <;> first
    | (cases h; simp [Op.vcost] at h1; done)
    | skip
  · rename_i k' c
    simp only [Op.rigid] at h
    split at h
    · cases h
    · rename_i hs
      cases h
      simp only [Op.parts, List.mem_singleton, Part.set.injEq] at h2
      subst h2
      exact hs hk
  · cases h
    simp only [Op.parts, List.mem_singleton, Part.set.injEq] at h2
    subst h2
    cases hk

/-- violation variables of soft sets are not new after what is left of a call -/
theorem rigid_soft {op o : Op} (h : op.rigid = some o) {k : CKey} (hk : k.soft = true) (M : Market) {d}
    (hd : (M.step o).1.deficits.get? k = some d) : M.deficits.get? k = some d := by
  by_cases hp : Part.set k ∈ o.parts
  · have hv : o.vcost = none := by
      cases hv : o.vcost with
      | none => rfl
      | some c => exact absurd ⟨by rw [hv]; rfl, hp⟩ (rigid_asks h hk)
    rcases deficits_step (m := M) hv with e | ⟨_, e⟩
    · rw [e] at hd; exact hd
    · rw [e] at hd
      by_cases hk' : CKey.fastStart = k
      · subst hk'; rw [Dict.get?_erase_self] at hd; cases hd
      · rw [Dict.get?_erase_ne _ hk'] at hd; exact hd
  · have := (frame_run (m := M) (ops := [o]) (k := k) (by simpa using hp)).deficits
    simp only [Market.run, List.foldl_cons, List.foldl_nil] at this
    rw [this] at hd; exact hd

/-- The state `M` of a history with violation costs and the state `m` of the history without them. -/
structure Soften (f g : Nat → Nat) (m M : Market) : Prop where
  sim : Sim (fun _ => False) (fun k => k.soft = true) f g m M
  avoid : ∀ k, k.soft = true → ∀ d, M.deficits.get? k = some d → ∀ v ∈ d.1, ∀ i, f i ≠ v.vid

section
variable {f g : Nat → Nat} {m M M1 : Market}

theorem def_lt (hM : Reached M) {k : CKey} {d} (hd : M.deficits.get? k = some d) : ∀ v ∈ d.1, v.vid < M.nextVar := by
  intro v hv
  apply hM.refs.defs
  simp only [Market.defVids, List.mem_flatMap]
  exact ⟨(k, d), Dict.mem_of_get? hd, List.mem_map.2 ⟨v, hv, rfl⟩⟩

/-- a change of violation variables on the soft side -/
theorem Soften.right (h : Soften f g m M) (hm : Reached m) (hM : Reached M) (hM1 : Reached M1) (hu : OnlyDef M M1) :
    Soften (retail f m.nextVar M1.nextVar) g m M1 where
  sim := by
    have t := h.sim.tabs.congr (f' := retail f m.nextVar M1.nextVar) (g' := g) hm (fun _ hi => (retail_low hi).symm) (fun _ _ => rfl)
    have c := h.sim.cons
    have v := h.sim.vars.retail hu.next
    have hh := hu.hard
    have ec : M1.nextCon = M.nextCon := by rw [hu.eq]
    refine Tabs.sim ?_ v (by rw [ec]; exact c)
    have e := hu.eq
    generalize M1.deficits = d at e hh
    generalize retail f m.nextVar M1.nextVar = f' at t ⊢
    generalize M1.nextVar = n at e
    subst e
    exact { t with deficits := fun k hk => (hh k (by simpa using hk)).trans (t.deficits k hk) }
  avoid := by
    intro k hk d hd v hv i hi
    have hlt := def_lt hM1 hd v hv
    have hlow : i < m.nextVar := by
      by_contra hc
      unfold retail at hi
      rw [if_neg hc] at hi
      omega
    rw [retail_low hlow] at hi
    rcases hu.soft k d hd with h1 | h1
    · exact h.avoid k hk d h1 v hv i hi
    · have := h.sim.vars.low i hlow
      have := h1 v hv
      omega

theorem rigid_needs (op : Op) : ∀ p, (fun _ : Part => False) p → p ∉ op.needs := fun _ h => h.elim

theorem rigid_benign {op o : Op} (h : op.rigid = some o) {m : Market} (hb : op.benign m) : o.benign m := by
  cases op <;> first
    | (cases h; exact hb)
    | (cases h; trivial)
    | skip
  · simp only [Op.rigid] at h
    split at h
    · cases h
    · cases h; exact hb

theorem soften_run {ops : List Op} {f g : Nat → Nat} {m M : Market} (h : Soften f g m M) (hm : Reached m) (hM : Reached M)
    (hb : Benign M ops) : ∃ f' g', Soften f' g' (m.run (rigid ops)) (M.run ops) ∧ Benign m (rigid ops) := by
  induction ops generalizing m M f g with
  | nil => exact ⟨f, g, h, trivial⟩
  | cons op ops ih =>
    obtain ⟨hb1, hb2⟩ := hb
    have hM1 := hM.step hb1
    rw [run_cons]
    cases ho : op.rigid with
    | none =>
      have e : rigid (op :: ops) = rigid ops := by simp [rigid, ho]
      rw [e]
      have hu : OnlyDef M (M.step op).1 := by
        cases op <;> simp only [Op.rigid, reduceCtorEq] at ho
        rename_i k c
        split at ho
        · rename_i hs
          unfold Market.step
          split
          · exact .refl M
          · exact onlyDef_elastic M hs c
        · cases ho
      exact ih (h.right hm hM hM1 hu) hm hM1 hb2
    | some o =>
      have e : rigid (op :: ops) = o :: rigid ops := by simp [rigid, ho]
      rw [e, run_cons]
      have hbo : o.benign M := rigid_benign ho hb1
      have hbm : o.benign m := h.sim.benign (rigid_needs o) hbo
      obtain ⟨s, _⟩ := step_sim h.sim hm.wf.inter o (fun _ h => h.elim) (rigid_needs o)
      have s1 : Soften f g (m.step o).1 (M.step o).1 :=
        ⟨s, fun k hk d hd => h.avoid k hk d (rigid_soft ho hk M hd)⟩
      have s2 := s1.right (hm.step hbm) (hM.step hbo) hM1 (onlyDef_step M ho)
      obtain ⟨f', g', r1, r2⟩ := ih s2 (hm.step hbm) hM1 hb2
      exact ⟨f', g', r1, hbm, r2⟩

theorem rigid_parts {op o : Op} (h : op.rigid = some o) : o.parts = op.parts := by
  cases op <;> first
    | (cases h; rfl)
    | skip
  · simp only [Op.rigid] at h
    split at h
    · cases h
    · cases h; rfl

theorem andThen_quiet {r : Res} {f f' : Market → Res} (hf : ∀ m, (f' m).2 = none → (f m).2 = none) (h : (r.andThen f').2 = none) :
    (r.andThen f).2 = none := by
  unfold Res.andThen at h ⊢
  split at h
  · exact hf _ h
  · exact h

/-- a call that succeeds with a violation cost succeeds without it -/
theorem rigid_ok (M : Market) {op o : Op} (h : op.rigid = some o) (hok : (M.step op).2 = none) : (M.step o).2 = none := by
  cases hn : M.nanCon with
  | true => simp only [Market.step, hn, if_true] at hok; cases hok
  | false =>
  simp only [Market.step, hn, Bool.false_eq_true, if_false] at hok ⊢
  cases op with
  | capacity l vc =>
    cases h
    dsimp only [Market.setCapacity] at hok ⊢
    split
    · rename_i hc; rw [if_pos hc] at hok; exact hok
    · rename_i hc; rw [if_neg hc] at hok
      split
      · rename_i hd; rw [if_pos hd] at hok; exact hok
      · rename_i hd; rw [if_neg hd] at hok; exact andThen_quiet (fun _ _ => rfl) hok
  | uigf l vc =>
    cases h
    dsimp only [Market.setUigf] at hok ⊢
    split
    · rename_i hc; rw [if_pos hc] at hok; exact hok
    · rename_i hc; rw [if_neg hc] at hok
      split
      · rename_i hd; rw [if_pos hd] at hok; exact hok
      · rename_i hd; rw [if_neg hd] at hok; exact andThen_quiet (fun _ _ => rfl) hok
  | rampRates r sc ps rt vc =>
    cases h
    dsimp only [Market.setRampRates] at hok ⊢
    split
    · rename_i hc; rw [if_pos hc] at hok; exact hok
    rename_i hc; rw [if_neg hc] at hok
    split
    · rename_i hc; rw [if_pos hc] at hok; exact hok
    rename_i hc; rw [if_neg hc] at hok
    split
    · rename_i hc; rw [if_pos hc] at hok; exact hok
    rename_i hc; rw [if_neg hc] at hok
    split
    · rename_i hc; rw [if_pos hc] at hok; exact hok
    rename_i hc; rw [if_neg hc] at hok
    generalize adjustForFastStart _ rt ps M.di = a at hok ⊢
    cases a with
    | error e => exact hok
    | ok ord => exact andThen_quiet (fun m hm => andThen_quiet (fun m hm => andThen_quiet (fun _ _ => rfl) hm) hm) hok
  | fastStart p vc =>
    cases h
    dsimp only [Market.setFastStart] at hok ⊢
    split
    · rename_i hc; rw [if_pos hc] at hok; exact hok
    · rename_i hc; rw [if_neg hc] at hok
      split
      · rfl
      · rename_i hd; rw [if_neg hd] at hok; exact andThen_quiet (fun _ _ => rfl) hok
  | demand d vc =>
    cases h
    dsimp only [Market.setDemand] at hok ⊢
    split
    · rename_i hc; rw [if_pos hc] at hok; exact hok
    · rename_i hc; rw [if_neg hc] at hok; exact andThen_quiet (fun _ _ => rfl) hok
  | fcasReq r vc =>
    cases h
    dsimp only [Market.setFcasReq] at hok ⊢
    split
    · rename_i hc; rw [if_pos hc] at hok; exact hok
    · rename_i hc; rw [if_neg hc] at hok; exact andThen_quiet (fun _ _ => rfl) hok
  | fcasMaxAvail l vc =>
    cases h
    dsimp only [Market.setFcasMaxAvail] at hok ⊢
    split
    · rename_i hc; rw [if_pos hc] at hok; exact hok
    · rename_i hc; rw [if_neg hc] at hok; exact andThen_quiet (fun _ _ => rfl) hok
  | jointRamping r ps rt vc =>
    cases h
    dsimp only [Market.setJointRamping] at hok ⊢
    split
    · rename_i hc; rw [if_pos hc] at hok; exact hok
    rename_i hc; rw [if_neg hc] at hok
    split
    · rename_i hc; rw [if_pos hc] at hok; exact hok
    rename_i hc; rw [if_neg hc] at hok
    cases hb : M.bids with
    | none => rw [hb] at hok; exact hok
    | some vars =>
      rw [hb] at hok
      dsimp only at hok ⊢
      generalize adjustForFastStart r rt ps M.di = a at hok ⊢
      cases a with
      | error e => exact hok
      | ok ord =>
        exact andThen_quiet (fun m hm => andThen_quiet (fun m hm => andThen_quiet (fun m hm => andThen_quiet (fun _ _ => rfl) hm) hm) hm) hok
  | jointCapacity t vc =>
    cases h
    dsimp only [Market.setJointCapacity] at hok ⊢
    split
    · rename_i hc; rw [if_pos hc] at hok; exact hok
    · rename_i hc; rw [if_neg hc] at hok
      split
      · rename_i hd; rw [if_pos hd] at hok; exact hok
      · rename_i hd; rw [if_neg hd] at hok; exact andThen_quiet (fun _ _ => rfl) hok
  | energyReg t vc =>
    cases h
    dsimp only [Market.setEnergyReg] at hok ⊢
    split
    · rename_i hc; rw [if_pos hc] at hok; exact hok
    · rename_i hc; rw [if_neg hc] at hok
      split
      · rename_i hd; rw [if_pos hd] at hok; exact hok
      · rename_i hd; rw [if_neg hd] at hok; exact andThen_quiet (fun _ _ => rfl) hok
  | generic g vc =>
    cases h
    dsimp only [Market.setGeneric] at hok ⊢
    split
    · rename_i hc; rw [if_pos hc] at hok; exact hok
    · rfl
  | elastic k c =>
    simp only [Op.rigid] at h
    split at h
    · cases h
    · cases h; exact hok
  | _ => cases h; exact hok

/-- A call in force, up to calls that make its constraints elastic, is in force without its violation cost in the history
without violation costs. -/
theorem rigid_inForce {regions : List String} {units : List UnitInfo} {di : ℚ} {m0 : Market} {before after : List Op} {op o : Op}
    (hi : Market.init regions units di = .ok m0) (h : op.rigid = some o)
    (hok : ((m0.run before).step op).2 = none)
    (hl : ∀ a ∈ after, ∀ p ∈ op.parts, p ∈ a.parts → ∃ k c, k.soft = true ∧ a = .elastic k c)
    (hsim : ∃ f g, Soften f g (m0.run (rigid before)) (m0.run before)) (hr : Reached (m0.run (rigid before)))
    (hben : Benign m0 (rigid (before ++ op :: after))) : InForce o (m0.run (rigid (before ++ op :: after))) := by
  have e : rigid (before ++ op :: after) = rigid before ++ o :: rigid after := by simp [rigid, h]
  refine ⟨regions, units, di, m0, rigid before, rigid after, hi, by rw [← e]; exact hben, ?_, ?_, by rw [e]⟩
  · obtain ⟨f, g, hs⟩ := hsim
    obtain ⟨_, he⟩ := step_sim hs.sim hr.wf.inter o (fun _ h => h.elim) (rigid_needs o)
    rw [← he]
    exact rigid_ok _ h hok
  · intro a ha p hp hpa
    obtain ⟨a', ha', hra⟩ := List.mem_filterMap.1 ha
    rw [rigid_parts h] at hp
    rw [rigid_parts hra] at hpa
    obtain ⟨k, c, hk, rfl⟩ := hl a' ha' p hp hpa
    simp only [Op.rigid, hk, if_true] at hra
    cases hra

end

end Verif
