import Verif.Proofs.SimClose
import Verif.Proofs.SimPrice
import Verif.Proofs.SimLp
import Verif.Proofs.Reads
import Verif.Spec.Replace

/-! The last call about a constraint set decides. -/

namespace Verif

/-! ### No violation variables without a violation cost -/

theorem andThen_def {r : Res} {F : Market → Res} {P : Market → Prop} (h : P r.1) (hF : P r.1 → P (F r.1).1) : P (r.andThen F).1 := by
  unfold Res.andThen
  split
  · exact hF h
  · exact h

theorem step_noDef {m : Market} {k : CKey} (h : m.deficits.get? k = none) {op : Op}
    (hv : Part.set k ∈ op.parts → op.vcost = none) : (m.step op).1.deficits.get? k = none := by
  by_cases hp : Part.set k ∈ op.parts
  · have hv := hv hp
    have uni : ∀ (m : Market) (j : CKey) (t : List Row × List ConUnit), m.deficits.get? k = none →
        (m.addUnitSet j t).1.deficits.get? k = none := fun m j t h => by rw [(addUnitSet_get m j t).2.2.2.2]; exact h
    have uniIf : ∀ (m : Market) (j : CKey) (b : Bool) (t : List Row × List ConUnit), m.deficits.get? k = none →
        (m.addUnitSetIf j b t).1.deficits.get? k = none := fun m j b t h => by
      unfold Market.addUnitSetIf
      split
      · exact uni m j t h
      · exact h
    have reg : ∀ (m : Market) (j : CKey) (t : List Row × List ConReg), m.deficits.get? k = none →
        (m.addRegSet j t).1.deficits.get? k = none := fun m j t h => by rw [(addRegSet_get m j t).2.2.2.2]; exact h
    unfold Market.step
    split
    · exact h
    cases op with
    | capacity l vc =>
      cases hv
      show (Market.setCapacity _ _ _).1.deficits.get? k = none
      unfold Market.setCapacity
      split
      · exact h
      split
      · exact h
      · exact andThen_def (P := fun m => m.deficits.get? k = none) (uni _ _ _ h) (fun h => h)
    | uigf l vc =>
      cases hv
      show (Market.setUigf _ _ _).1.deficits.get? k = none
      unfold Market.setUigf
      split
      · exact h
      split
      · exact h
      · exact andThen_def (P := fun m => m.deficits.get? k = none) (uni _ _ _ h) (fun h => h)
    | rampRates r sc ps rt vc =>
      cases hv
      simp only [Market.setRampRates]
      split
      · exact h
      split
      · exact h
      split
      · exact h
      split
      · exact h
      split
      · exact h
      refine andThen_def (P := fun m => m.deficits.get? k = none) (uni _ _ _ h) (fun h => ?_)
      refine andThen_def (P := fun m => m.deficits.get? k = none) (uni _ _ _ h) (fun h => ?_)
      refine andThen_def (P := fun m => m.deficits.get? k = none) ?_ (fun h => h)
      unfold Market.addBiRamps
      split
      · exact h
      · exact andThen_def (P := fun m => m.deficits.get? k = none) (uni _ _ _ h) (fun h => uni _ _ _ h)
    | fastStart p vc =>
      cases hv
      simp only [Market.setFastStart]
      split
      · exact h
      split
      · exact h
      · exact andThen_def (P := fun m => m.deficits.get? k = none) (uni _ _ _ h) (fun h => h)
    | removeFastStart =>
      simp only [Market.removeFastStart]
      split <;> split <;> first
        | exact h
        | (show (Dict.erase _ _).get? k = none
           by_cases e : CKey.fastStart = k
           · subst e; exact Dict.get?_erase_self _ _
           · rw [Dict.get?_erase_ne _ e]; exact h)
    | demand d vc =>
      cases hv
      simp only [Market.setDemand]
      split
      · exact h
      · exact andThen_def (P := fun m => m.deficits.get? k = none) (reg _ _ _ h) (fun h => h)
    | fcasReq r vc =>
      cases hv
      simp only [Market.setFcasReq]
      split
      · exact h
      · exact andThen_def (P := fun m => m.deficits.get? k = none) (reg _ _ _ h) (fun h => h)
    | fcasMaxAvail l vc =>
      cases hv
      simp only [Market.setFcasMaxAvail]
      split
      · exact h
      · exact andThen_def (P := fun m => m.deficits.get? k = none) (uni _ _ _ h) (fun h => h)
    | jointRamping r ps rt vc =>
      cases hv
      simp only [Market.setJointRamping]
      split
      · exact h
      split
      · exact h
      split
      · exact h
      split
      · exact h
      refine andThen_def (P := fun m => m.deficits.get? k = none) (uniIf _ _ _ _ h) (fun h => ?_)
      refine andThen_def (P := fun m => m.deficits.get? k = none) (uniIf _ _ _ _ h) (fun h => ?_)
      refine andThen_def (P := fun m => m.deficits.get? k = none) (uniIf _ _ _ _ h) (fun h => ?_)
      exact andThen_def (P := fun m => m.deficits.get? k = none) (uniIf _ _ _ _ h) (fun h => h)
    | jointCapacity t vc =>
      cases hv
      simp only [Market.setJointCapacity]
      split
      · exact h
      split
      · exact h
      · exact andThen_def (P := fun m => m.deficits.get? k = none) (uni _ _ _ h) (fun h => h)
    | energyReg t vc =>
      cases hv
      simp only [Market.setEnergyReg]
      split
      · exact h
      split
      · exact h
      · exact andThen_def (P := fun m => m.deficits.get? k = none) (uni _ _ _ h) (fun h => h)
    | losses fs bs =>
      show (m.setLosses fs bs).1.deficits.get? k = none
      have : (m.setLosses fs bs).1.deficits = m.deficits := by
        unfold Market.setLosses
        split
        · rfl
        dsimp only
        split
        · split <;> rfl
        · rfl
      rw [this]; exact h
    | generic g vc =>
      cases hv
      simp only [Market.setGeneric]
      split
      · exact h
      · show (if _ then _ else _ : Market).deficits.get? k = none
        split <;> exact h
    | elastic k c => cases hv
    | tieBreak c => cases hv
    | _ => simp [Op.parts] at hp
  · rw [(frame_steps (good := False) (step_steps m op (fun h => h.elim)) hp).deficits]; exact h

theorem run_noDef {m : Market} {k : CKey} (h : m.deficits.get? k = none) {ops : List Op}
    (hv : ∀ o ∈ ops, Part.set k ∈ o.parts → o.vcost = none) : (m.run ops).deficits.get? k = none := by
  induction ops generalizing m with
  | nil => exact h
  | cons op ops ih =>
    rw [run_cons]
    exact ih (step_noDef h (hv op (by simp))) (fun o ho => hv o (by simp [ho]))

theorem run_noBdu {m : Market} (hb : m.bidi = []) (h : NoBdu m) (ops : List Op) : NoBdu (m.run ops) := by
  induction ops generalizing m with
  | nil => exact h
  | cons op ops ih =>
    rw [run_cons]
    refine ih ?_ (noBdu_step hb h op)
    unfold Market.bidi at hb ⊢
    rw [(sameBase_step m op).2.1]; exact hb

theorem bidi_nil {m : Market} (hu : (m.units.map (fun u => (u.unit, u.dtype))).Nodup) (h : ∀ u ∈ m.units, ∀ v ∈ m.units, u.unit = v.unit → u.dtype = v.dtype) : m.bidi = [] := by
  unfold Market.bidi bidiOf
  have hn : (m.units.map (·.unit)).Nodup := by
    refine List.Nodup.map_on (fun u hu' v hv e => ?_) (List.Nodup.of_map _ hu)
    exact List.inj_on_of_nodup_map hu hu' hv (by rw [e, h u hu' v hv e])
  rw [List.filter_eq_nil_iff]
  intro u _
  have := List.nodup_iff_count_le_one.1 hn u
  simp only [decide_eq_true_eq]
  omega

/-! ### The replacing call -/

section
variable {K D : CKey → Prop} {f g : Nat → Nat} {m M : Market}

theorem SimG.mono (h : Sim K D f g m M) {K' D' : CKey → Prop} (hK : ∀ k, K k → K' k) (hD : ∀ k, D k → D' k) :
    Sim K' D' f g m M := by
  have w : ∀ {k}, ¬ K' k → ¬ K k := fun h' h => h' (hK _ h)
  exact { h with
    lossShares := fun a => h.lossShares (w a), losses := fun a => h.losses (w a), lossReg := fun a => h.lossReg (w a)
    weights := fun a => h.weights (w a), lossLhs := fun a => h.lossLhs (w a), dynRhs := fun a => h.dynRhs (w a)
    tieLhs := fun a => h.tieLhs (w a)
    deficits := fun k a => h.deficits k (fun b => a (hD _ b))
    unitCon := fun k a => h.unitCon k (w a)
    regCon := fun k a => h.regCon k (w a)
    conRhs := fun k a => h.conRhs k (w a)
    mktRhs := fun k a => h.mktRhs k (w a) }

theorem SimC.mono {r R : Res} (h : SimC K D f g r R) {K' D' : CKey → Prop} (hK : ∀ k, K k → K' k) (hD : ∀ k, D k → D' k) :
    SimC K' D' f g r R := ⟨h.1, fun e => (h.2 e).mono hK hD⟩

theorem step_close {op : Op} (h : Sim (fun k => Part.set k ∈ op.parts) (fun k => Part.set k ∈ op.parts) f g m M)
    (hm : Reached m) (hM : Reached M) (nm : m.bidi = [] → NoBdu m) (nM : M.bidi = [] → NoBdu M) (hr : op.replaces m.units)
    (hd : op.softens ∨ ∀ k, Part.set k ∈ op.parts → m.deficits.get? k = none ∧ M.deficits.get? k = none)
    (hok : (M.step op).2 = none) :
    Sim (fun _ => False) (fun _ => False) f g (m.step op).1 (M.step op).1 := by
  have hn : M.nanCon = false := by
    cases hn : M.nanCon with
    | false => rfl
    | true => unfold Market.step at hok; rw [if_pos hn] at hok; cases hok
  have hn' : m.nanCon = false := by rw [← h.nan]; exact hn
  suffices hs : SimC (fun _ => False) (fun _ => False) f g (m.step op) (M.step op) from hs.2 hok
  have one : ∀ {r R : Res} (k : CKey), op.parts = [Part.set k] →
      SimC (minus (fun k => Part.set k ∈ op.parts) k) (minus (fun k => Part.set k ∈ op.parts) k) f g r R →
      SimC (fun _ => False) (fun _ => False) f g r R := by
    intro r R k hk hs
    have : ∀ j, minus (fun k => Part.set k ∈ op.parts) k j → False := by
      rintro j ⟨h1, h2⟩
      rw [hk] at h1
      simp only [List.mem_singleton, Part.set.injEq] at h1
      exact h2 h1
    exact hs.mono this this
  unfold Market.step
  rw [if_neg (by simp [hn']), if_neg (by simp [hn])]
  have wm := hm.wf
  have wM := hM.wf
  cases op with
  | capacity l vc => exact one _ rfl (capacity_close h wm wM l vc (hd.imp id (fun h => h _ (by simp [Op.parts]))))
  | uigf l vc => exact one _ rfl (uigf_close h wm wM l vc (hd.imp id (fun h => h _ (by simp [Op.parts]))))
  | demand l vc => exact one _ rfl (demand_close h wm wM l vc (hd.imp id (fun h => h _ (by simp [Op.parts]))))
  | fcasReq l vc =>
    exact one _ rfl (fcasReq_close h wm wM l vc (hd.elim (fun h => h.imp id Or.inl) (fun h => Or.inr (Or.inr (h _ (by simp [Op.parts]))))))
  | generic l vc =>
    exact one _ rfl (generic_close h wm wM l vc (hd.elim (fun h => h.imp id Or.inl) (fun h => Or.inr (Or.inr (h _ (by simp [Op.parts]))))))
  | fcasMaxAvail l vc => exact one _ rfl (fcasMaxAvail_close h wm wM l vc (hd.imp id (fun h => h _ (by simp [Op.parts]))))
  | jointCapacity l vc => exact one _ rfl (jointCapacity_close h wm wM l vc (hd.imp id (fun h => h _ (by simp [Op.parts]))))
  | energyReg l vc => exact one _ rfl (energyReg_close h wm wM l vc (hd.imp id (fun h => h _ (by simp [Op.parts]))))
  | fastStart l vc => exact one _ rfl (fastStart_close h wm wM l vc hr (hd.imp id (fun h => h _ (by simp [Op.parts]))))
  | losses fs bs => exact one _ rfl (losses_close h wm wM fs bs (hd.elim (fun h => h.elim) (fun h => h _ (by simp [Op.parts]))))
  | tieBreak c => exact one _ rfl (tieBreak_close h wm wM c)
  | removeFastStart =>
    exact one _ rfl (removeFs_close h wm wM hm.pair hM.pair (by simp [Op.parts]) (by simp [Op.parts]))
  | rampRates r sc ps rt vc =>
    have hb := bidi_nil wm.units hr
    have hB : M.bidi = [] := by rw [bidi_sim h]; exact hb
    have := rampRates_close h wm wM hb (nm hb) (nM hB) r sc ps rt vc (hd.imp id (fun h =>
      ⟨(h .rampUp (by simp [Op.parts])).1, (h .rampUp (by simp [Op.parts])).2,
       (h .rampDown (by simp [Op.parts])).1, (h .rampDown (by simp [Op.parts])).2⟩))
    refine this.mono ?_ ?_ <;>
    · rintro k ⟨⟨⟨⟨h1, h2⟩, h3⟩, h4⟩, h5⟩
      simp only [Op.parts, List.mem_cons, Part.set.injEq, List.not_mem_nil, or_false] at h1
      rcases h1 with h1 | h1 | h1 | h1 <;> contradiction
  | _ => exact hr.elim

theorem replaces_parts {us : List UnitInfo} {op : Op} (hr : op.replaces us) (o : Op) (ha : op.about o = true) :
    ∀ p ∈ o.parts, ∃ k, p = Part.set k ∧ Part.set k ∈ op.parts := by
  simp only [Op.about, List.any_eq_true, decide_eq_true_eq] at ha
  obtain ⟨p, h1, h2⟩ := ha
  have one : ∀ {q : Part}, o.parts = [q] → ∀ p ∈ o.parts, ∃ k, p = Part.set k ∧ Part.set k ∈ op.parts := by
    intro q hq p' hp'
    rw [hq] at h1 hp'
    simp only [List.mem_singleton] at h1 hp'
    rw [hp', ← h1]
    have : ∃ k, p = Part.set k := by
      cases op <;> simp only [Op.replaces] at hr <;> simp only [Op.parts, List.mem_cons, List.not_mem_nil, or_false] at h2 <;>
        first
        | exact ⟨_, h2⟩
        | (rcases h2 with h2 | h2 | h2 | h2 <;> exact ⟨_, h2⟩)
    obtain ⟨k, rfl⟩ := this
    exact ⟨k, rfl, h2⟩
  cases o with
  | rampRates r sc ps rt vc =>
    cases op with
    | rampRates r' sc' ps' rt' vc' =>
      simp only [Op.parts, List.mem_cons, List.not_mem_nil, or_false]
      rintro p (rfl | rfl | rfl | rfl) <;> simp
    | _ => simp only [Op.replaces] at hr <;> simp_all [Op.parts]
  | jointRamping r ps rt vc =>
    cases op with
    | rampRates r' sc' ps' rt' vc' =>
      simp only [Op.parts, List.mem_cons, List.not_mem_nil, or_false] at h1 h2
      rcases h1 with rfl | rfl | rfl | rfl <;> simp at h2
    | _ => simp only [Op.replaces] at hr <;> simp_all [Op.parts]
  | _ => exact one rfl

theorem dispatchSame_of (h : SameUpTo f g m M) (hm : Reached m) (hM : Reached M) : DispatchSame M m := by
  have wm := hm.wf.con
  have wM := hM.wf.con
  have hb : (∃ lp, M.assemble = .ok lp) ↔ (∃ lp, m.assemble = .ok lp) := by
    rw [assemble_fine wm, assemble_fine wM]; exact fine_ren h wm wM
  have hrep : ∀ {lp LP : Lp}, m.assemble = .ok lp → M.assemble = .ok LP → ∀ {x X : Nat → ℚ}, (∀ v, X (f v) = x v) →
      M.report LP X = m.report lp x := by
    intro lp LP e E x X hX
    unfold Market.report
    rw [cost_ren h wm wM e E hX, unitDispatch_ren h hX, interFlows_ren h hX, regionSummary_ren h hX,
      funext (violationDegree_ren h hX)]
  refine ⟨hb, fun r => ⟨?_, ?_⟩, fun r => ⟨?_, ?_⟩, fun r ep fp => ⟨?_, ?_⟩⟩
  · rintro ⟨LP, X, E, hX, rfl⟩
    obtain ⟨lp, e⟩ := hb.1 ⟨LP, E⟩
    exact ⟨lp, fun v => X (f v), e, (feasible_ren h wm wM e E (fun _ => rfl)).1 hX, (hrep e E (fun _ => rfl)).symm⟩
  · rintro ⟨lp, x, e, hx, rfl⟩
    obtain ⟨LP, E⟩ := hb.2 ⟨lp, e⟩
    obtain ⟨X, hX⟩ := points_ren h x
    exact ⟨LP, X, E, (feasible_ren h wm wM e E hX).2 hx, hrep e E hX⟩
  · rintro ⟨LP, X, E, hX, rfl⟩
    obtain ⟨lp, e⟩ := hb.1 ⟨LP, E⟩
    exact ⟨lp, fun v => X (f v), e, (optimal_ren h wm wM e E (fun _ => rfl)).1 hX, (hrep e E (fun _ => rfl)).symm⟩
  · rintro ⟨lp, x, e, hx, rfl⟩
    obtain ⟨LP, E⟩ := hb.2 ⟨lp, e⟩
    obtain ⟨X, hX⟩ := points_ren h x
    exact ⟨LP, X, E, (optimal_ren h wm wM e E hX).2 hx, hrep e E hX⟩
  · rintro ⟨LP, X, S, Z, P, E, hX, hS, hP, rfl, rfl, rfl⟩
    obtain ⟨lp, e⟩ := hb.1 ⟨LP, E⟩
    obtain ⟨S', hS', hs⟩ := sort_back h.vars.inj hS
    exact ⟨lp, fun v => X (f v), S', fun v => Z (f v), fun c => P (g c), e, (optimal_ren h wm wM e E (fun _ => rfl)).1 hX, hS',
      (shadow_ren h wm wM e E (fun _ => rfl) (fun _ => rfl) (fun _ => rfl) hs).1 hP, (hrep e E (fun _ => rfl)).symm,
      (energyPrices_ren h (fun _ => rfl)).symm, (fcasPrices_ren h (fun _ => rfl)).symm⟩
  · rintro ⟨lp, x, S, z, p, e, hx, hS, hp, rfl, rfl, rfl⟩
    obtain ⟨LP, E⟩ := hb.2 ⟨lp, e⟩
    obtain ⟨X, hX⟩ := points_ren h x
    obtain ⟨Z, hZ⟩ := points_ren h z
    obtain ⟨P, hP⟩ : ∃ P : Nat → ℚ, ∀ c, P (g c) = p c := ⟨Function.extend g p 0, fun c => h.cons.inj.extend_apply p 0 c⟩
    exact ⟨LP, X, renSort f S, Z, P, E, (optimal_ren h wm wM e E hX).2 hx, renSort_sorts h.vars.inj hS,
      (shadow_ren h wm wM e E hX hZ hP (renSort_map h.vars.inj S)).2 hp, hrep e E hX, energyPrices_ren h hP, fcasPrices_ren h hP⟩

theorem sim_refl {Q : Part → Prop} (m : Market) : SimG Q K D id id m m := by
  have e : ∀ {α : Type} {r : α → α}, (∀ a, r a = a) → ∀ o : Option (List α), o = o.map (List.map r) := by
    intro α r hr o
    cases o with
    | none => rfl
    | some l => simp [funext hr]
  constructor <;> first
    | rfl
    | exact e (fun _ => rfl) _
    | (intro _; rfl)
    | (intro _; exact e (fun _ => rfl) _)
    | (intro _ _; exact e (fun _ => rfl) _)
    | exact ⟨fun _ _ h => h, fun _ h => h, fun _ _ => rfl⟩
    | skip
  all_goals
    intro k _
    cases m.deficits.get? k with
    | none => rfl
    | some d =>
      have e1 : DefVar.ren id = id := by funext d; rfl
      have e2 : Term.ren id id = id := by funext d; rfl
      simp [renDef, e1, e2]

end

/-- The calls about the parts of a replacing call can be left out before it. -/
theorem replaced {regions : List String} {units : List UnitInfo} {di : ℚ} {m0 : Market} {before after : List Op} {op : Op}
    (h0 : Market.init regions units di = .ok m0) (hb : Benign m0 (before ++ op :: after))
    (hok : ((m0.run before).step op).2 = none) (hr : op.replaces units)
    (hd : op.softens ∨ ∀ o ∈ before, op.about o = true → o.vcost = none) :
    DispatchSame (m0.run (before ++ op :: after)) (m0.run (before.filter (fun o => !op.about o) ++ op :: after)) := by
  have hi := (init_fresh h0).1
  have R0 : Reached m0 := ⟨_, _, _, m0, [], h0, trivial, rfl⟩
  obtain ⟨hb1, hb2, hb3⟩ := benign_append.1 hb
  have hn : (m0.run before).nanCon = false := by
    cases hn : (m0.run before).nanCon with
    | false => rfl
    | true => unfold Market.step at hok; rw [if_pos hn] at hok; cases hok
  obtain ⟨f, g, s, hbm⟩ := run_skip (K := fun k => Part.set k ∈ op.parts) (D := fun k => Part.set k ∈ op.parts) op.about
    (fun o ho k hk => by obtain ⟨k', e, h⟩ := replaces_parts hr o ho _ hk; cases e; exact h)
    (fun o ho p hp => by obtain ⟨k', e, _⟩ := replaces_parts hr o ho _ hp; exact Or.inr ⟨k', e⟩)
    (fun o ho k hk hp => by
      have hk : Part.set k ∈ op.parts := hk.elim id id
      have : op.about o = true := by
        simp only [Op.about, List.any_eq_true, decide_eq_true_eq]; exact ⟨_, hp, hk⟩
      rw [this] at ho; cases ho)
    (fun _ h => h) (fun _ _ _ _ h => False.elim h) (sim_refl (Q := fun _ => False) m0) R0 R0 hb1 hn
  have hM := R0.run hb1
  have hm := R0.run hbm
  have hun : (m0.run (before.filter (fun o => !op.about o))).units = units := by
    rw [(sameBase_run m0 _).2.1, hi]
  have nb : ∀ ops, (m0.run ops).bidi = [] → NoBdu (m0.run ops) := by
    intro ops hb
    refine run_noBdu ?_ ?_ ops
    · unfold Market.bidi at hb ⊢
      rwa [(sameBase_run m0 ops).2.1] at hb
    · rw [hi]; intro k _; exact ⟨rfl, rfl, rfl, rfl⟩
  have s2 := step_close s hm hM (nb _) (nb _) (by rw [hun]; exact hr) (hd.imp id (fun hd k hk => by
      have d0 : m0.deficits.get? k = none := by rw [hi]; rfl
      have ab : ∀ o, Part.set k ∈ o.parts → op.about o = true := fun o hp => by
        simp only [Op.about, List.any_eq_true, decide_eq_true_eq]; exact ⟨_, hp, hk⟩
      refine ⟨run_noDef d0 (fun o ho hp => ?_), run_noDef d0 (fun o ho hp => hd o ho (ab o hp))⟩
      have := (List.mem_filter.1 ho).2
      rw [ab o hp] at this; cases this)) hok
  obtain ⟨s3, hb4⟩ := run_sim (ops := after) s2 (hm.step (s.benign (fun _ h => h.elim) hb2)) (fun _ _ _ h => (h.elim id id).elim) (fun _ _ _ h => h.elim) hb3
  rw [run_append, run_append, run_cons, run_cons]
  exact dispatchSame_of s3 ((hm.step (s.benign (fun _ h => h.elim) hb2)).run hb4) ((hM.step hb2).run hb3)

end Verif
