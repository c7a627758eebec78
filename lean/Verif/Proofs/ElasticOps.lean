import Verif.Proofs.Elastic

/-! # Calls that make constraints elastic -/

namespace Verif

theorem deficits_unitSet (m : Market) (k : CKey) (t : List Row × List ConUnit) : (m.addUnitSet k t).1.deficits = m.deficits := by
  unfold Market.addUnitSet; dsimp only; split <;> rfl

theorem deficits_regSet (m : Market) (k : CKey) (t : List Row × List ConReg) : (m.addRegSet k t).1.deficits = m.deficits := by
  unfold Market.addRegSet; dsimp only; split <;> rfl

theorem deficits_unitSetIf (m : Market) (k : CKey) (b : Bool) (t : List Row × List ConUnit) :
    (m.addUnitSetIf k b t).1.deficits = m.deficits := by
  unfold Market.addUnitSetIf; split
  · exact deficits_unitSet ..
  · rfl

theorem deficits_andThen {r : Res} {f : Market → Res} {d : Dict CKey (List DefVar × List Term)} (h : r.1.deficits = d)
    (hf : ∀ m : Market, m.deficits = d → (f m).1.deficits = d) : (r.andThen f).1.deficits = d := by
  unfold Res.andThen
  split
  · exact hf _ h
  · exact h

/-- calls without violation cost create no violation variables -/
theorem deficits_step {m : Market} {op : Op} (h : op.vcost = none) :
    (m.step op).1.deficits = m.deficits ∨
      (op = .removeFastStart ∧ (m.step op).1.deficits = m.deficits.erase .fastStart) := by
  unfold Market.step
  split
  · exact Or.inl rfl
  cases op with
  | volumeBids b =>
    left
    simp only [Market.setVolumeBids]
    split <;> (try rfl)
    split <;> (try rfl)
    split <;> rfl
  | priceBids b =>
    left
    simp only [Market.setPriceBids]
    split <;> (try rfl)
    split <;> (try rfl)
    split <;> rfl
  | capacity l vc =>
    simp only [Op.vcost] at h; subst h
    left
    simp only [Market.setCapacity]
    split <;> (try rfl)
    split <;> (try rfl)
    exact deficits_andThen (deficits_unitSet ..) (fun m h => h)
  | uigf l vc =>
    simp only [Op.vcost] at h; subst h
    left
    simp only [Market.setUigf]
    split <;> (try rfl)
    split <;> (try rfl)
    exact deficits_andThen (deficits_unitSet ..) (fun m h => h)
  | rampRates r sc ps rt vc =>
    simp only [Op.vcost] at h; subst h
    left
    simp only [Market.setRampRates]
    split <;> (try rfl)
    split <;> (try rfl)
    split <;> (try rfl)
    split <;> (try rfl)
    split <;> (try rfl)
    refine deficits_andThen (deficits_unitSet ..) (fun m h => ?_)
    refine deficits_andThen ((deficits_unitSet ..).trans h) (fun m h => ?_)
    refine deficits_andThen ?_ (fun m h => h)
    unfold Market.addBiRamps
    split
    · exact h
    · exact deficits_andThen ((deficits_unitSet ..).trans h) (fun m h => (deficits_unitSet ..).trans h)
  | fastStart p vc =>
    simp only [Op.vcost] at h; subst h
    left
    simp only [Market.setFastStart]
    split <;> (try rfl)
    split <;> (try rfl)
    exact deficits_andThen (deficits_unitSet ..) (fun m h => h)
  | removeFastStart =>
    simp only [Market.removeFastStart]
    split <;> split <;> first | exact Or.inr rfl | exact Or.inl rfl | exact Or.inr ⟨trivial, rfl⟩
  | demand d vc =>
    simp only [Op.vcost] at h; subst h
    left
    simp only [Market.setDemand]
    split <;> (try rfl)
    exact deficits_andThen (deficits_regSet ..) (fun m h => h)
  | fcasReq r vc =>
    simp only [Op.vcost] at h; subst h
    left
    simp only [Market.setFcasReq]
    split <;> (try rfl)
    exact deficits_andThen (deficits_regSet ..) (fun m h => h)
  | fcasMaxAvail l vc =>
    simp only [Op.vcost] at h; subst h
    left
    simp only [Market.setFcasMaxAvail]
    split <;> (try rfl)
    exact deficits_andThen (deficits_unitSet ..) (fun m h => h)
  | jointRamping r ps rt vc =>
    simp only [Op.vcost] at h; subst h
    left
    simp only [Market.setJointRamping]
    split <;> (try rfl)
    split <;> (try rfl)
    split <;> (try rfl)
    split <;> (try rfl)
    refine deficits_andThen (deficits_unitSetIf ..) (fun m h => ?_)
    refine deficits_andThen ((deficits_unitSetIf ..).trans h) (fun m h => ?_)
    refine deficits_andThen ((deficits_unitSetIf ..).trans h) (fun m h => ?_)
    exact deficits_andThen ((deficits_unitSetIf ..).trans h) (fun m h => h)
  | jointCapacity t vc =>
    simp only [Op.vcost] at h; subst h
    left
    simp only [Market.setJointCapacity]
    split <;> (try rfl)
    split <;> (try rfl)
    exact deficits_andThen (deficits_unitSet ..) (fun m h => h)
  | energyReg t vc =>
    simp only [Op.vcost] at h; subst h
    left
    simp only [Market.setEnergyReg]
    split <;> (try rfl)
    split <;> (try rfl)
    exact deficits_andThen (deficits_unitSet ..) (fun m h => h)
  | interconnectors d =>
    left
    simp only [Market.setInterconnectors]
    split <;> (try rfl)
    split <;> rfl
  | losses f b =>
    left
    simp only [Market.setLosses]
    split <;> (try rfl)
    split <;> (try rfl)
    split <;> rfl
  | generic g vc =>
    simp only [Op.vcost] at h; subst h
    left
    simp only [Market.setGeneric]
    split <;> (try rfl)
    split <;> rfl
  | linkUnits g => left; simp only [Market.linkUnits]; split <;> rfl
  | linkRegions g => left; simp only [Market.linkRegions]; split <;> rfl
  | linkInters g => left; simp only [Market.linkInters]; split <;> rfl
  | elastic k c => simp [Op.vcost] at h
  | tieBreak c => simp [Op.vcost] at h

theorem deficits_never {k : CKey} {m : Market} {ops : List Op} (hm : m.deficits.get? k = none)
    (h : ∀ o ∈ ops, ¬ o.asksElastic k) : (m.run ops).deficits.get? k = none := by
  induction ops generalizing m with
  | nil => exact hm
  | cons op ops ih =>
    rw [run_cons]
    apply ih _ (fun o ho => h o (List.mem_cons_of_mem _ ho))
    have h1 := h op (List.mem_cons_self ..)
    unfold Op.asksElastic at h1
    by_cases hp : Part.set k ∈ op.parts
    · have hv : op.vcost = none := by
        cases hv : op.vcost with
        | none => rfl
        | some c => exact absurd ⟨by rw [hv]; rfl, hp⟩ h1
      rcases deficits_step (m := m) hv with e | ⟨_, e⟩
      · rw [e]; exact hm
      · rw [e]
        by_cases hk : k = .fastStart
        · subst hk; exact Dict.get?_erase_self _ _
        · rw [Dict.get?_erase_ne _ (fun h => hk h.symm)]; exact hm
    · have := (frame_run (m := m) (ops := [op]) (k := k) (by simpa using hp)).deficits
      simp only [Market.run, List.foldl_cons, List.foldl_nil] at this
      rw [this]; exact hm

theorem nanCon_unitSet (m : Market) (k : CKey) (t : List Row × List ConUnit) : (m.addUnitSet k t).1.nanCon = m.nanCon := by
  unfold Market.addUnitSet; dsimp only; split <;> rfl

theorem nanCon_regSet (m : Market) (k : CKey) (t : List Row × List ConReg) : (m.addRegSet k t).1.nanCon = m.nanCon := by
  unfold Market.addRegSet; dsimp only; split <;> rfl

theorem andThen_pair (r : Res) : r.andThen (fun m => (m, none)) = r := by
  unfold Res.andThen
  obtain ⟨a, b⟩ := r
  cases b <;> rfl

theorem andThen_split {r : Res} {k : CKey} {vc : VCost} (hn : r.1.nanCon = false)
    (hok : (r.andThen (fun m => m.elasticOpt k (some vc))).2 = none) :
    (r.andThen (fun m => m.elasticOpt k none)).2 = none ∧
    r.andThen (fun m => m.elasticOpt k (some vc)) =
      (r.andThen (fun m => m.elasticOpt k none)).1.step (.elastic k vc) := by
  obtain ⟨h1, h2⟩ := andThen_ok hok
  have e : r.andThen (fun m => m.elasticOpt k none) = r := andThen_pair r
  rw [e]
  refine ⟨h1, ?_⟩
  rw [h2]
  simp only [Market.step, hn, Bool.false_eq_true, if_false]
  rfl

/-- a setter with a violation cost is the setter without followed by `make_constraints_elastic` -/
theorem apart_step {op op1 : Op} {k : CKey} {vc : VCost} (h : op.apart = some (op1, k, vc)) {m : Market}
    (hok : (m.step op).2 = none) (hne : op ≠ .generic [] (some vc)) :
    (m.step op1).2 = none ∧ m.step op = (m.step op1).1.step (.elastic k vc) := by
  have hnan := step_ok hok
  unfold Op.apart at h
  split at h <;> simp only [Option.some.injEq, Prod.mk.injEq, reduceCtorEq] at h
  case h_1 l c =>
    obtain ⟨rfl, rfl, rfl⟩ := h
    rw [show m.step (.capacity l (some c)) = m.setCapacity l (some c) by simp [Market.step, hnan]] at hok ⊢
    rw [show m.step (.capacity l none) = m.setCapacity l none by simp [Market.step, hnan]]
    simp only [Market.setCapacity] at hok ⊢
    split at hok
    · simp at hok
    split at hok
    · simp at hok
    rename_i h1 h2
    simp only [h1, h2, if_false]
    exact andThen_split (by rw [nanCon_unitSet]; exact hnan) hok
  case h_2 l c =>
    obtain ⟨rfl, rfl, rfl⟩ := h
    rw [show m.step (.uigf l (some c)) = m.setUigf l (some c) by simp [Market.step, hnan]] at hok ⊢
    rw [show m.step (.uigf l none) = m.setUigf l none by simp [Market.step, hnan]]
    simp only [Market.setUigf] at hok ⊢
    split at hok
    · simp at hok
    split at hok
    · simp at hok
    rename_i h1 h2
    simp only [h1, h2, if_false]
    exact andThen_split (by rw [nanCon_unitSet]; exact hnan) hok
  case h_3 l c =>
    obtain ⟨rfl, rfl, rfl⟩ := h
    rw [show m.step (.demand l (some c)) = m.setDemand l (some c) by simp [Market.step, hnan]] at hok ⊢
    rw [show m.step (.demand l none) = m.setDemand l none by simp [Market.step, hnan]]
    simp only [Market.setDemand] at hok ⊢
    split at hok
    · simp at hok
    rename_i h1
    simp only [h1, if_false]
    exact andThen_split (by rw [nanCon_regSet]; exact hnan) hok
  case h_4 l c =>
    obtain ⟨rfl, rfl, rfl⟩ := h
    rw [show m.step (.fcasReq l (some c)) = m.setFcasReq l (some c) by simp [Market.step, hnan]] at hok ⊢
    rw [show m.step (.fcasReq l none) = m.setFcasReq l none by simp [Market.step, hnan]]
    simp only [Market.setFcasReq] at hok ⊢
    split at hok
    · simp at hok
    rename_i h1
    simp only [h1, if_false]
    exact andThen_split (by rw [nanCon_regSet]; exact hnan) hok
  case h_5 l c =>
    obtain ⟨rfl, rfl, rfl⟩ := h
    rw [show m.step (.fcasMaxAvail l (some c)) = m.setFcasMaxAvail l (some c) by simp [Market.step, hnan]] at hok ⊢
    rw [show m.step (.fcasMaxAvail l none) = m.setFcasMaxAvail l none by simp [Market.step, hnan]]
    simp only [Market.setFcasMaxAvail] at hok ⊢
    split at hok
    · simp at hok
    rename_i h1
    simp only [h1, if_false]
    exact andThen_split (by rw [nanCon_unitSet]; exact hnan) hok
  case h_6 l c =>
    obtain ⟨rfl, rfl, rfl⟩ := h
    rw [show m.step (.jointCapacity l (some c)) = m.setJointCapacity l (some c) by simp [Market.step, hnan]] at hok ⊢
    rw [show m.step (.jointCapacity l none) = m.setJointCapacity l none by simp [Market.step, hnan]]
    simp only [Market.setJointCapacity] at hok ⊢
    split at hok
    · simp at hok
    split at hok
    · simp at hok
    rename_i h1 h2
    simp only [h1, h2, if_false]
    exact andThen_split (by rw [nanCon_unitSet]; exact hnan) hok
  case h_7 l c =>
    obtain ⟨rfl, rfl, rfl⟩ := h
    rw [show m.step (.energyReg l (some c)) = m.setEnergyReg l (some c) by simp [Market.step, hnan]] at hok ⊢
    rw [show m.step (.energyReg l none) = m.setEnergyReg l none by simp [Market.step, hnan]]
    simp only [Market.setEnergyReg] at hok ⊢
    split at hok
    · simp at hok
    split at hok
    · simp at hok
    rename_i h1 h2
    simp only [h1, h2, if_false]
    exact andThen_split (by rw [nanCon_unitSet]; exact hnan) hok
  case h_8 g c =>
    obtain ⟨rfl, rfl, rfl⟩ := h
    rw [show m.step (.generic g (some c)) = m.setGeneric g (some c) by simp [Market.step, hnan]] at hok ⊢
    rw [show m.step (.generic g none) = m.setGeneric g none by simp [Market.step, hnan]]
    simp only [Market.setGeneric] at hok ⊢
    split at hok
    · simp at hok
    rename_i h1
    simp only [h1]
    have hgs : (saveIndex g m.nextCon (fun i g =>
      ({ cid := i, ctype := g.ctype, rhs := g.rhs, set := some g.set } : Row))).isEmpty = false := by
      rw [saveIndex_isEmpty]
      cases g with
      | nil => exact absurd rfl hne
      | cons => rfl
    rw [hgs]
    simp only [Bool.false_eq_true, if_false, Market.elasticOpt, true_and]
    simp [Market.step, hnan]


theorem apart_benign {op op1 : Op} {k : CKey} {vc : VCost} (h : op.apart = some (op1, k, vc)) :
    op.parts = [.set k] ∧ op1.parts = [.set k] ∧ ∀ m, op.benign m → op1.benign m := by
  unfold Op.apart at h
  split at h <;> simp only [Option.some.injEq, Prod.mk.injEq, reduceCtorEq] at h <;>
  · obtain ⟨rfl, rfl, rfl⟩ := h
    exact ⟨rfl, rfl, fun _ h => h⟩

/-- a setter with a violation cost in force makes the constraints elastic -/
theorem apart_inForce {op op1 : Op} {k : CKey} {vc : VCost} (h : op.apart = some (op1, k, vc)) {m : Market}
    (hi : InForce op m) (hne : op ≠ .generic [] (some vc)) : InForce (.elastic k vc) m := by
  obtain ⟨r, u, d, m0, before, after, h0, hb, hok, hp, rfl⟩ := hi
  obtain ⟨h1, h2⟩ := apart_step h hok hne
  obtain ⟨p0, p1, b1⟩ := apart_benign h
  have hb' := benign_append.1 hb
  have e : (m0.run (before ++ [op1])).step (.elastic k vc) = (m0.run before).step op := by
    rw [h2, run_append]
    rfl
  refine ⟨r, u, d, m0, before ++ [op1], after, h0, ?_, ?_, ?_, ?_⟩
  · rw [List.append_assoc, benign_append]
    refine ⟨hb'.1, b1 _ hb'.2.1, trivial, ?_⟩
    have h3 := hb'.2.2
    rw [h2] at h3
    exact h3
  · rw [e]; exact hok
  · intro o ho p hpp
    rw [p0] at hp
    exact hp o ho p hpp
  · rw [run_append m0 (before ++ [op1]), run_cons, e, run_append m0 before, run_cons]

end Verif
