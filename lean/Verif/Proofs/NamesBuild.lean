import Verif.Proofs.Names

/-! Giving other names commutes with the builders. -/

namespace Verif

section
variable (ρ : Names)

theorem unit_eq {a b : String} : ρ.unit a = ρ.unit b ↔ a = b := ρ.unit_inj.eq_iff
theorem region_eq {a b : String} : ρ.region a = ρ.region b ↔ a = b := ρ.region_inj.eq_iff
theorem inter_eq {a b : String} : ρ.inter a = ρ.inter b ↔ a = b := ρ.inter_inj.eq_iff
theorem set_eq {a b : String} : ρ.set a = ρ.set b ↔ a = b := ρ.set_inj.eq_iff

theorem create_named (ls : List Lim) (n : Nat) (d : CType) :
    createConstraints (ls.map (Lim.named ρ)) n d = consNamed ρ (createConstraints ls n d) :=
  Prod.ext (saveIndex_named (fun _ _ => by rfl) _ _) (saveIndex_named (fun _ _ => by rfl) _ _)

theorem capacity_named (ls : List Lim) (n : Nat) {b B : List String} (hb : ∀ u, ρ.unit u ∈ B ↔ u ∈ b) :
    capacityConstraints (ls.map (Lim.named ρ)) n B = consNamed ρ (capacityConstraints ls n b) := by
  unfold capacityConstraints
  dsimp only
  rw [create_named]
  refine Prod.ext (by rfl) (map_named (fun c => ?_) _)
  simp only [ConUnit.named, hb]

theorem rampUp_named (rs : List RampRow) (n : Nat) (di : ℚ) :
    rampUpConstraints (rs.map (RampRow.named ρ)) n di = consNamed ρ (rampUpConstraints rs n di) := by
  unfold rampUpConstraints
  rw [← create_named]
  congr 1
  exact map_named (fun _ => by rfl) _

theorem rampDown_named (rs : List RampRow) (n : Nat) (di : ℚ) :
    rampDownConstraints (rs.map (RampRow.named ρ)) n di = consNamed ρ (rampDownConstraints rs n di) := by
  unfold rampDownConstraints
  rw [← create_named]
  congr 1
  exact map_named (fun _ => by rfl) _

theorem consNamed_append (a b : List Row) (c d : List ConUnit) :
    consNamed ρ (a ++ b, c ++ d) = ((consNamed ρ (a, c)).1 ++ (consNamed ρ (b, d)).1, (consNamed ρ (a, c)).2 ++ (consNamed ρ (b, d)).2) := by
  simp only [consNamed, List.map_append]

theorem fsOne_named (ps : List FsProfile) : fsModeOne (ps.map (FsProfile.named ρ)) = (fsModeOne ps).map (Lim.named ρ) := by
  unfold fsModeOne
  rw [filter_named (q := fun p : FsProfile => decide (p.endMode = 0 ∨ p.endMode = 1)) (fun _ => by rfl)]
  exact map_named (fun _ => by rfl) _
theorem fsTwo_named (ps : List FsProfile) : fsModeTwo (ps.map (FsProfile.named ρ)) = (fsModeTwo ps).map (Lim.named ρ) := by
  unfold fsModeTwo
  rw [filter_named (q := fun p : FsProfile => decide (p.endMode = 2)) (fun _ => by rfl)]
  exact map_named (fun _ => by rfl) _
theorem fsThree_named (ps : List FsProfile) : fsModeThree (ps.map (FsProfile.named ρ)) = (fsModeThree ps).map (Lim.named ρ) := by
  unfold fsModeThree
  rw [filter_named (q := fun p : FsProfile => decide (p.endMode = 3)) (fun _ => by rfl)]
  exact map_named (fun _ => by rfl) _
theorem fsFour_named (ps : List FsProfile) : fsModeFour (ps.map (FsProfile.named ρ)) = (fsModeFour ps).map (Lim.named ρ) := by
  unfold fsModeFour
  rw [filter_named (q := fun p : FsProfile => decide (p.endMode = 4)) (fun _ => by rfl)]
  exact map_named (fun _ => by rfl) _

theorem fastStart_named (ps : List FsProfile) (n : Nat) :
    fastStartConstraints (ps.map (FsProfile.named ρ)) n = consNamed ρ (fastStartConstraints ps n) := by
  unfold fastStartConstraints
  simp only [fsOne_named, fsTwo_named, fsThree_named, fsFour_named, create_named, List.length_map, consNamed, List.map_append]

theorem mergeFs_named (us : List UnitInfo) (ps : List FsInput) :
    mergeFsProfiles (us.map (UnitInfo.named ρ)) (ps.map (FsInput.named ρ)) = (mergeFsProfiles us ps).map (FsProfile.named ρ) := by
  refine flatMap_named (fun u => ?_) _
  rw [filter_named (q := fun p : FsInput => decide (p.unit = u.unit)) (fun p => by rw [decide_eq_decide]; exact unit_eq ρ)]
  exact map_named (fun _ => by rfl) _

theorem energy_named (ds : List Demand) (n : Nat) :
    energyConstraints (ds.map (Demand.named ρ)) n = regsNamed ρ (energyConstraints ds n) :=
  Prod.ext (saveIndex_named (fun _ _ => by rfl) _ _) (saveIndex_named (fun _ _ => by rfl) _ _)

theorem fcasRows_named (rs : List FcasReq) (n : Nat) : fcasRows (rs.map (FcasReq.named ρ)) n = (fcasRows rs n).map (Row.named ρ) := by
  unfold fcasRows
  rw [dropDup_named (key := fun r : FcasReq => r.set) ρ.set_inj (fun _ => by rfl)]
  exact saveIndex_named (fun _ _ => by rfl) _ _

theorem fcas_named (rs : List FcasReq) (n : Nat) : fcasConstraints (rs.map (FcasReq.named ρ)) n = regsNamed ρ (fcasConstraints rs n) := by
  unfold fcasConstraints
  dsimp only
  rw [fcasRows_named]
  refine Prod.ext (by rfl) (flatMap_named (fun r => ?_) _)
  rw [filter_named (q := fun t : Row => decide (t.set = some r.set)) (fun t => ?_)]
  · exact map_named (fun _ => by rfl) _
  · rw [decide_eq_decide]
    show t.set.map ρ.set = some (ρ.set r.set) ↔ _
    cases t.set with
    | none => simp
    | some s => simp [ρ.set_inj.eq_iff]

theorem regRates_named (vs : List BidVar) (s : Service) (rs : List RampRow) (rate rate' : RampRow → ℚ)
    (hr : ∀ r, rate' (r.named ρ) = rate r) :
    regRates (vs.map (BidVar.named ρ)) s (rs.map (RampRow.named ρ)) rate' = (regRates vs s rs rate).map (RegRate.named ρ) := by
  unfold regRates
  rw [filter_named (q := fun v : BidVar => decide (v.service = s)) (fun _ => by rfl),
    map_named (s := fun e : String × DType × Service => (ρ.unit e.1, e.2)) (G := fun v : BidVar => (v.unit, v.dtype, v.service)) (fun _ => by rfl),
    List.dedup_map_of_injective (fst_inj ρ.unit_inj)]
  refine flatMap_named (fun k => ?_) _
  rw [filter_named (q := fun r : RampRow => decide (r.unit = k.1)) (fun r => by rw [decide_eq_decide]; exact unit_eq ρ)]
  refine map_named (fun r => ?_) _
  simp only [hr]
  rfl

theorem jrGeneric_named (cs : List (Nat × RegRate)) (s : JrSettings) (di : ℚ) :
    jrGeneric (cs.map (fun c => (c.1, c.2.named ρ))) s di = consNamed ρ (jrGeneric cs s di) := by
  unfold jrGeneric consNamed
  simp only [List.map_map, List.map_append]
  rfl

theorem jr_named (rs : List RegRate) (di : ℚ) (n : Nat) (g l : JrSettings) :
    jrConstructor (rs.map (RegRate.named ρ)) di n g l = consNamed ρ (jrConstructor rs di n g l) := by
  unfold jrConstructor
  dsimp only
  rw [saveIndex_named (s := fun c : Nat × RegRate => (c.1, c.2.named ρ)) (G := fun i r => (i, r)) (fun _ _ => by rfl),
    filter_named (q := fun c : Nat × RegRate => decide (c.2.dtype = .generator)) (fun _ => by rfl),
    filter_named (q := fun c : Nat × RegRate => decide (c.2.dtype = .load)) (fun _ => by rfl), jrGeneric_named, jrGeneric_named,
    consNamed_append]

theorem jrBdu_named (rs : List RegRate) (di : ℚ) (n : Nat) (ct : CType) (sgn : ℚ) :
    jrBdu (rs.map (RegRate.named ρ)) di n ct sgn = consNamed ρ (jrBdu rs di n ct sgn) := by
  unfold jrBdu
  dsimp only
  rw [dropDup_named (key := fun r : RegRate => r.unit) ρ.unit_inj (fun _ => by rfl),
    saveIndex_named (s := fun c : Nat × RegRate => (c.1, c.2.named ρ)) (G := fun i r => (i, r)) (fun _ _ => by rfl)]
  have e : ((saveIndex (dropDup (fun r : RegRate => r.unit) rs) n (fun i r => (i, r))).map (fun c : Nat × RegRate => (c.1, c.2.named ρ))).flatMap (fun c =>
      ((rs.map (RegRate.named ρ)).filter (fun r => decide (r.unit = c.2.unit))).map (fun r =>
        ({ cid := c.1, unit := r.unit, service := r.service, dtype := r.dtype, coef := sgn } : ConUnit))) =
      ((saveIndex (dropDup (fun r : RegRate => r.unit) rs) n (fun i r => (i, r))).flatMap (fun c =>
      (rs.filter (fun r => decide (r.unit = c.2.unit))).map (fun r =>
        ({ cid := c.1, unit := r.unit, service := r.service, dtype := r.dtype, coef := sgn } : ConUnit)))).map (ConUnit.named ρ) := by
    refine flatMap_named (fun c => ?_) _
    rw [filter_named (q := fun r : RegRate => decide (r.unit = c.2.unit)) (fun r => by rw [decide_eq_decide]; exact unit_eq ρ)]
    exact map_named (fun _ => by rfl) _
  rw [e]
  refine Prod.ext ?_ ?_
  · exact map_named (fun _ => by rfl) _
  · dsimp only [consNamed]
    rw [List.map_append]
    congr 1
    rw [List.map_map, List.map_map]
    rfl

theorem flatten_named {α β γ δ : Type} {r : α → β} {s : γ → δ} {F : Nat → β → List δ} {G : Nat → α → List γ} (h : ∀ i a, F i (r a) = (G i a).map s)
    (l : List α) (n : Nat) : (saveIndex (l.map r) n F).flatten = (saveIndex l n G).flatten.map s := by
  rw [saveIndex_named (s := List.map s) (G := G) h, List.map_flatten]

theorem jointCapacity_named (ts : List Trap) {b B : List String} (hb : ∀ u, ρ.unit u ∈ B ↔ u ∈ b) (n : Nat) :
    jointCapacityConstraints (ts.map (Trap.named ρ)) B n = consNamed ρ (jointCapacityConstraints ts b n) := by
  unfold jointCapacityConstraints
  dsimp only
  rw [List.length_map, consNamed_append]
  refine Prod.ext (congrArg₂ _ (saveIndex_named (fun _ _ => by rfl) _ _) (saveIndex_named (fun _ _ => by rfl) _ _))
    (congrArg₂ _ (flatten_named (fun i t => ?_) _ _) (flatten_named (fun i t => ?_) _ _))
  · unfold jcUpperMap
    by_cases h : t.unit ∈ b
    · have : (t.named ρ).unit ∈ B := (hb _).2 h
      rw [if_pos h, if_pos this]; rfl
    · have : (t.named ρ).unit ∉ B := mt (hb _).1 h
      rw [if_neg h, if_neg this]; rfl
  · unfold jcLowerMap
    by_cases h : t.unit ∈ b
    · have : (t.named ρ).unit ∈ B := (hb _).2 h
      rw [if_pos h, if_pos this]; rfl
    · have : (t.named ρ).unit ∉ B := mt (hb _).1 h
      rw [if_neg h, if_neg this]; rfl

theorem energyReg_named (ts : List Trap) (n : Nat) :
    energyRegConstraints (ts.map (Trap.named ρ)) n = consNamed ρ (energyRegConstraints ts n) := by
  unfold energyRegConstraints
  dsimp only
  rw [List.length_map, consNamed_append]
  exact Prod.ext (congrArg₂ _ (saveIndex_named (fun _ _ => by rfl) _ _) (saveIndex_named (fun _ _ => by rfl) _ _))
    (congrArg₂ _ (flatten_named (fun i t => by rfl) _ _) (flatten_named (fun i t => by rfl) _ _))

/-! ### Ramp rates -/

theorem composite_named (rs : List RampRow) (di : ℚ) {b B : List String} (hb : ∀ u, ρ.unit u ∈ B ↔ u ∈ b) :
    compositeRampRates (rs.map (RampRow.named ρ)) di B =
      ((compositeRampRates rs di b).1.map (RampRow.named ρ), (compositeRampRates rs di b).2.map (BiRamp.named ρ)) := by
  unfold compositeRampRates
  dsimp only
  rw [filter_named (r := RampRow.named ρ) (p := fun r : RampRow => decide (r.unit ∈ B)) (q := fun r : RampRow => decide (r.unit ∈ b))
      (fun r => by rw [decide_eq_decide]; exact hb _),
    filter_named (r := RampRow.named ρ) (p := fun r : RampRow => decide (r.dtype = .generator)) (q := fun r : RampRow => decide (r.dtype = .generator)) (fun _ => by rfl),
    filter_named (r := RampRow.named ρ) (p := fun r : RampRow => decide (r.dtype = .load)) (q := fun r : RampRow => decide (r.dtype = .load)) (fun _ => by rfl),
    filter_named (r := RampRow.named ρ) (p := fun r : RampRow => decide (r.unit ∉ B)) (q := fun r : RampRow => decide (r.unit ∉ b)) (fun r => by
      rw [decide_eq_decide, not_iff_not]; exact hb _)]
  refine Prod.ext (by rfl) ?_
  dsimp only
  rw [flatMap_named (s := fun e : String × ℚ × ℚ => (ρ.unit e.1, e.2)) (r := RampRow.named ρ)
      (G := fun g : RampRow => (((rs.filter (fun r => decide (r.unit ∈ b))).filter (fun r => decide (r.dtype = .load))).filter
        (fun l => decide (l.unit = g.unit))).map (fun l => (g.unit, compositeUp di l.init g.up l.down, l.init))) (fun g => ?_),
    flatMap_named (s := fun e : String × ℚ => (ρ.unit e.1, e.2)) (r := RampRow.named ρ)
      (G := fun l : RampRow => (((rs.filter (fun r => decide (r.unit ∈ b))).filter (fun r => decide (r.dtype = .generator))).filter
        (fun g => decide (g.unit = l.unit))).map (fun g => (l.unit, compositeDown di g.init l.up g.down))) (fun l => ?_)]
  · refine flatMap_named (fun d => ?_) _
    rw [filter_named (q := fun u : String × ℚ × ℚ => decide (u.1 = d.1)) (fun u => by rw [decide_eq_decide]; exact unit_eq ρ)]
    exact map_named (fun _ => by rfl) _
  · rw [filter_named (q := fun r : RampRow => decide (r.unit = l.unit)) (fun u => by rw [decide_eq_decide]; exact unit_eq ρ)]
    exact map_named (fun _ => by rfl) _
  · rw [filter_named (q := fun r : RampRow => decide (r.unit = g.unit)) (fun u => by rw [decide_eq_decide]; exact unit_eq ρ)]
    exact map_named (fun _ => by rfl) _

theorem leftMerge_named {α β γ δ : Type} {r : α → β} {s : γ → δ} {p : α → γ → Bool} {P : β → δ → Bool} (h : ∀ a c, P (r a) (s c) = p a c)
    (l : List α) (k : List γ) : leftMerge P (l.map r) (k.map s) = (leftMerge p l k).map (fun e => (r e.1, e.2.map s)) := by
  refine flatMap_named (fun a => ?_) _
  dsimp only
  rw [filter_named (q := p a) (fun c => h a c), List.isEmpty_map]
  split
  · rfl
  · exact map_named (fun _ => by rfl) _

theorem adjustScada_named (rs : List RampRow) (sc : List Scada) :
    adjustForScada (rs.map (RampRow.named ρ)) (sc.map (Scada.named ρ)) = (adjustForScada rs sc).map (RampRow.named ρ) := by
  unfold adjustForScada
  rw [leftMerge_named (p := fun r s => decide (s.unit = r.unit)) (fun a c => by rw [decide_eq_decide]; exact unit_eq ρ)]
  refine map_named (fun e => ?_) _
  obtain ⟨a, c⟩ := e
  cases c <;> rfl

theorem adjustScadaBi_named (rs : List BiRamp) (sc : List Scada) :
    adjustForScadaBi (rs.map (BiRamp.named ρ)) (sc.map (Scada.named ρ)) = (adjustForScadaBi rs sc).map (BiRamp.named ρ) := by
  unfold adjustForScadaBi
  rw [leftMerge_named (p := fun r s => decide (s.unit = r.unit)) (fun a c => by rw [decide_eq_decide]; exact unit_eq ρ)]
  refine map_named (fun e => ?_) _
  obtain ⟨a, c⟩ := e
  cases c <;> rfl

theorem scadaOpt_named {α : Type} {r : α → α} {F : List α → List Scada → List α}
    (h : ∀ l sc, F (l.map r) (sc.map (Scada.named ρ)) = (F l sc).map r) (l : List α) (sc : Option (List Scada)) :
    scadaOpt F (l.map r) (sc.map (List.map (Scada.named ρ))) = (scadaOpt F l sc).map r := by
  cases sc with
  | none => rfl
  | some sc => exact h l sc

theorem unitsOf_named (ps : List FsRamp) : (ps.map (FsRamp.named ρ)).map (·.unit) = (ps.map (·.unit)).map ρ.unit := map_named (fun _ => by rfl) _

theorem starting_named (rs : List RampRow) (ps : List FsRamp) :
    removeStarting012 (rs.map (RampRow.named ρ)) (ps.map (FsRamp.named ρ)) = (removeStarting012 rs ps).map (RampRow.named ρ) := by
  unfold removeStarting012
  rw [filter_named (q := fun p : FsRamp => decide (p.curMode = 0 ∨ p.curMode = 1 ∨ p.curMode = 2)) (fun _ => by rfl), unitsOf_named]
  refine filter_named (fun r => ?_) _
  rw [decide_eq_decide, not_iff_not]
  exact mem_units ρ

theorem ending_named (rs : List RampRow) (ps : List FsRamp) :
    removeEnding012 (rs.map (RampRow.named ρ)) (ps.map (FsRamp.named ρ)) = (removeEnding012 rs ps).map (RampRow.named ρ) := by
  unfold removeEnding012
  rw [filter_named (q := fun p : FsRamp => decide (p.endMode = 0 ∨ p.endMode = 1 ∨ p.endMode = 2)) (fun _ => by rfl), unitsOf_named]
  refine filter_named (fun r => ?_) _
  rw [decide_eq_decide, not_iff_not]
  exact mem_units ρ

theorem threeFour_named (rs : List RampRow) (ps : List FsRamp) (di : ℚ) :
    adjustModeThreeFour (rs.map (RampRow.named ρ)) (ps.map (FsRamp.named ρ)) di = (adjustModeThreeFour rs ps di).map (RampRow.named ρ) := by
  unfold adjustModeThreeFour
  dsimp only
  have e : (rs.map (RampRow.named ρ)).flatMap (fun r => ((ps.map (FsRamp.named ρ)).filter (fun p => decide (p.unit = r.unit))).filterMap (fun p =>
      p.since.map (fun s => { r with up := adjustedUp di r p.minLoading s }))) =
      (rs.flatMap (fun r => (ps.filter (fun p => decide (p.unit = r.unit))).filterMap (fun p =>
      p.since.map (fun s => { r with up := adjustedUp di r p.minLoading s })))).map (RampRow.named ρ) := by
    refine flatMap_named (fun r => ?_) _
    rw [filter_named (q := fun p : FsRamp => decide (p.unit = r.unit)) (fun u => by rw [decide_eq_decide]; exact unit_eq ρ),
      List.filterMap_map, List.map_filterMap]
    apply List.filterMap_congr
    intro p _
    rw [Option.map_map]
    rfl
  rw [e, List.map_append]
  congr 1
  refine filter_named (fun r => ?_) _
  rw [decide_eq_decide, not_iff_not, map_named (s := ρ.unit) (G := fun r : RampRow => r.unit) (fun _ => by rfl)]
  exact mem_units ρ

theorem adjustFast_named (rs : List RampRow) (rt : RunType) (ps : Option (List FsRamp)) (di : ℚ) :
    adjustForFastStart (rs.map (RampRow.named ρ)) rt (ps.map (List.map (FsRamp.named ρ))) di =
      (adjustForFastStart rs rt ps di).map (List.map (RampRow.named ρ)) := by
  cases rt <;> cases ps <;> first | rfl | skip
  · exact congrArg Except.ok (starting_named ρ _ _)
  · simp only [adjustForFastStart, Option.map_some, ending_named, threeFour_named, Except.map]

theorem biRamp_named (rs : List BiRamp) (up : Bool) (n : Nat) (di : ℚ) :
    biRampConstraints (rs.map (BiRamp.named ρ)) up n di = consNamed ρ (biRampConstraints rs up n di) := by
  unfold biRampConstraints
  dsimp only
  rw [dropDup_named (key := fun r : BiRamp => r.unit) ρ.unit_inj (fun _ => by rfl),
    saveIndex_named (s := fun c : Nat × String => (c.1, ρ.unit c.2)) (G := fun i (r : BiRamp) => (i, r.unit)) (fun _ _ => by rfl)]
  have e : ∀ d : DType, (rs.map (BiRamp.named ρ)).flatMap (fun r => (((saveIndex (dropDup (fun r : BiRamp => r.unit) rs) n (fun i r => (i, r.unit))).map
      (fun c : Nat × String => (c.1, ρ.unit c.2))).filter (fun c => decide (c.2 = r.unit))).map (fun c =>
        ({ cid := c.1, unit := r.unit, service := .energy, dtype := d, coef := 1 } : ConUnit))) =
      (rs.flatMap (fun r => ((saveIndex (dropDup (fun r : BiRamp => r.unit) rs) n (fun i r => (i, r.unit))).filter (fun c => decide (c.2 = r.unit))).map (fun c =>
        ({ cid := c.1, unit := r.unit, service := .energy, dtype := d, coef := 1 } : ConUnit)))).map (ConUnit.named ρ) := by
    intro d
    refine flatMap_named (fun r => ?_) _
    rw [filter_named (q := fun c : Nat × String => decide (c.2 = r.unit)) (fun u => by rw [decide_eq_decide]; exact unit_eq ρ)]
    exact map_named (fun _ => by rfl) _
  rw [e, e]
  refine Prod.ext (saveIndex_named (fun _ _ => by rfl) _ _) ?_
  show _ = List.map _ (_ ++ _)
  rw [List.map_append]

/-! ### Bids -/

theorem bidUnitMap_named (vs : List BidVar) (us : List UnitInfo) {b B : List String} (hb : ∀ u, ρ.unit u ∈ B ↔ u ∈ b) :
    bidUnitMap (vs.map (BidVar.named ρ)) (us.map (UnitInfo.named ρ)) B = (bidUnitMap vs us b).map (VarUnit.named ρ) := by
  refine flatMap_named (fun v => ?_) _
  rw [filter_named (q := fun u : UnitInfo => decide (u.unit = v.unit ∧ u.dtype = v.dtype)) (fun u => by
    rw [decide_eq_decide]; exact and_congr (unit_eq ρ) Iff.rfl)]
  refine map_named (fun u => ?_) _
  simp only [VarUnit.named, BidVar.named, hb]

theorem bidRegMap_named (vs : List BidVar) (us : List UnitInfo) :
    bidRegMap (vs.map (BidVar.named ρ)) (us.map (UnitInfo.named ρ)) = (bidRegMap vs us).map (VarReg.named ρ) := by
  refine flatMap_named (fun v => ?_) _
  rw [filter_named (q := fun u : UnitInfo => decide (u.unit = v.unit ∧ u.dtype = v.dtype)) (fun u => by
    rw [decide_eq_decide]; exact and_congr (unit_eq ρ) Iff.rfl)]
  exact map_named (fun _ => by rfl) _

theorem bidCosts_named (vs : List BidVar) (ps : List BidRow) :
    bidCosts (vs.map (BidVar.named ρ)) (ps.map (BidRow.named ρ)) = (bidCosts vs ps).map (BidCost.named ρ) := by
  refine flatMap_named (fun v => ?_) _
  rw [filter_named (q := fun p : BidRow => decide (p.unit = v.unit ∧ p.service = v.service ∧ p.dtype = v.dtype)) (fun u => by
    rw [decide_eq_decide]; exact and_congr (unit_eq ρ) Iff.rfl)]
  refine flatMap_named (fun p => ?_) _
  rw [List.map_map]
  rfl

theorem scale_named (cs : List BidCost) (us : List UnitInfo) :
    scaleByLossFactors (cs.map (BidCost.named ρ)) (us.map (UnitInfo.named ρ)) = (scaleByLossFactors cs us).map (BidCost.named ρ) := by
  refine flatMap_named (fun c => ?_) _
  rw [filter_named (q := fun u : UnitInfo => decide (u.unit = c.unit ∧ u.dtype = c.dtype)) (fun u => by
    rw [decide_eq_decide]; exact and_congr (unit_eq ρ) Iff.rfl)]
  exact map_named (fun _ => by rfl) _

theorem energyUnits_named (b : List BidRow) : energyUnits (b.map (BidRow.named ρ)) = (energyUnits b).map ρ.unit := by
  unfold energyUnits
  rw [filter_named (q := fun b : BidRow => decide (b.service = .energy)) (fun _ => by rfl)]
  exact map_named (fun _ => by rfl) _

theorem biInputs_named {b B : List String} (hb : ∀ u, ρ.unit u ∈ B ↔ u ∈ b) (us : List String) :
    biInputsOk B (us.map ρ.unit) = biInputsOk b us := by
  unfold biInputsOk
  dsimp only
  rw [filter_named (q := fun u => decide (u ∈ b)) (fun u => by rw [decide_eq_decide]; exact hb u),
    List.dedup_map_of_injective ρ.unit_inj, List.length_map, List.length_map]

/-! ### Interconnectors -/

theorem interVars_named (ds : List InterDef) (n : Nat) :
    interVariables (ds.map (InterDef.named ρ)) n = (interVariables ds n).map (InterVar.named ρ) := saveIndex_named (fun _ _ => by rfl) _ _

theorem interMap_named (ds : List InterDef) (n : Nat) : interMap (ds.map (InterDef.named ρ)) n = (interMap ds n).map (InterMap.named ρ) := by
  unfold interMap
  rw [List.map_append]
  exact congrArg₂ _ (saveIndex_named (fun _ _ => by rfl) _ _) (saveIndex_named (fun _ _ => by rfl) _ _)

theorem link_eq {a b c d : String} : (ρ.inter a = ρ.inter b ∧ ρ.inter c = ρ.inter d) ↔ (a = b ∧ c = d) :=
  and_congr (inter_eq ρ) (inter_eq ρ)

theorem mergeFrom_named (fs : List LossFn) (ds : List InterDef) :
    mergeFromRegion (fs.map (LossFn.named ρ)) (ds.map (InterDef.named ρ)) = (mergeFromRegion fs ds).map (LossFnR.named ρ) := by
  refine flatMap_named (fun f => ?_) _
  rw [filter_named (q := fun d : InterDef => decide (d.inter = f.inter ∧ d.link = f.link)) (fun u => by
    rw [decide_eq_decide]; exact link_eq ρ)]
  exact map_named (fun _ => by rfl) _

theorem lossAux_named (vs : List InterVar) (fs : List LossFnR) (n : Nat) :
    lossVariablesAux (vs.map (InterVar.named ρ)) (fs.map (LossFnR.named ρ)) n =
      (lossVariablesAux vs fs n).map (fun e => (e.1.named ρ, e.2.named ρ)) := by
  unfold lossVariablesAux
  rw [saveIndex_named (s := LossVar.named ρ) (G := fun i (v : InterVar) =>
    ({ inter := v.inter, link := v.link, vid := i, lb := -1 * Max.max |v.lb| (|v.ub|), ub := Max.max |v.lb| (|v.ub|) } : LossVar))
    (fun _ _ => by rfl)]
  refine flatMap_named (fun v => ?_) _
  rw [filter_named (q := fun f : LossFnR => decide (f.inter = v.inter ∧ f.link = v.link)) (fun u => by
    rw [decide_eq_decide]; exact link_eq ρ)]
  exact map_named (fun _ => by rfl) _

theorem lossVars_named (vs : List InterVar) (fs : List LossFnR) (n : Nat) :
    lossVariables (vs.map (InterVar.named ρ)) (fs.map (LossFnR.named ρ)) n = (lossVariables vs fs n).map (LossVar.named ρ) := by
  unfold lossVariables
  rw [lossAux_named]
  exact map_named (fun _ => by rfl) _

theorem lossMap_named (vs : List InterVar) (im : List InterMap) (fs : List LossFnR) (n : Nat) :
    lossMap (vs.map (InterVar.named ρ)) (im.map (InterMap.named ρ)) (fs.map (LossFnR.named ρ)) n = (lossMap vs im fs n).map (VarReg.named ρ) := by
  unfold lossMap
  rw [lossAux_named]
  refine flatMap_named (fun p => ?_) _
  rw [filter_named (q := fun r : InterMap => decide (r.inter = p.1.inter ∧ r.link = p.1.link)) (fun u => by
    rw [decide_eq_decide]; exact link_eq ρ)]
  refine map_named (fun r => ?_) _
  simp only [VarReg.named, LossVar.named, LossFnR.named, InterMap.named, region_eq ρ]

theorem weights_named (bs : List BreakPt) (n : Nat) :
    weightVariables (bs.map (BreakPt.named ρ)) n = (weightVariables bs n).map (WeightVar.named ρ) := saveIndex_named (fun _ _ => by rfl) _ _

theorem conIds_named (ws : List WeightVar) (n : Nat) :
    weightConIds (ws.map (WeightVar.named ρ)) n = (weightConIds ws n).map (fun c => (c.1, ρ.inter c.2.1, ρ.inter c.2.2)) := by
  unfold weightConIds
  rw [dropDup_named (key := fun w : WeightVar => (w.inter, w.link)) (pair_inj ρ.inter_inj ρ.inter_inj) (fun _ => by rfl)]
  exact saveIndex_named (fun _ _ => by rfl) _ _

theorem weightTerms_named (ws : List WeightVar) (n : Nat) {coef coef' : WeightVar → ℚ} (hc : ∀ w, coef' (w.named ρ) = coef w) :
    weightTerms (ws.map (WeightVar.named ρ)) n coef' = weightTerms ws n coef := by
  unfold weightTerms
  rw [conIds_named]
  refine flatMap_same (fun w => ?_) _
  rw [filter_named (q := fun c : Nat × String × String => decide (c.2.1 = w.inter ∧ c.2.2 = w.link)) (fun u => by
    rw [decide_eq_decide]; exact link_eq ρ)]
  refine map_same (fun c => ?_) _
  rw [hc]
  rfl

theorem sumToOne_named (ws : List WeightVar) (n : Nat) :
    weightsSumToOne (ws.map (WeightVar.named ρ)) n = ((weightsSumToOne ws n).1, (weightsSumToOne ws n).2.map (Row.named ρ)) := by
  unfold weightsSumToOne
  refine Prod.ext (weightTerms_named ρ ws n (fun _ => by rfl)) ?_
  dsimp only
  rw [conIds_named]
  exact map_named (fun _ => by rfl) _

theorem linkLoss_named (ws : List WeightVar) (ls : List LossVar) (fs : List LossFnR) (n : Nat) :
    linkLossToWeights (ws.map (WeightVar.named ρ)) (ls.map (LossVar.named ρ)) (fs.map (LossFnR.named ρ)) n = linkLossToWeights ws ls fs n := by
  unfold linkLossToWeights
  dsimp only
  rw [conIds_named]
  refine Prod.ext (flatMap_same (fun w => ?_) _) (flatMap_same (fun c => ?_) _)
  · rw [filter_named (q := fun c : Nat × String × String => decide (c.2.1 = w.inter ∧ c.2.2 = w.link)) (fun u => by
      rw [decide_eq_decide]; exact link_eq ρ)]
    refine flatMap_same (fun c => ?_) _
    rw [filter_named (q := fun f : LossFnR => decide (f.inter = w.inter ∧ f.link = w.link)) (fun u => by
      rw [decide_eq_decide]; exact link_eq ρ)]
    exact map_same (fun _ => by rfl) _
  · rw [filter_named (q := fun l : LossVar => decide (l.inter = c.2.1 ∧ l.link = c.2.2)) (fun u => by
      rw [decide_eq_decide]; exact link_eq ρ)]
    exact map_same (fun _ => by rfl) _

theorem linkFlow_named (ws : List WeightVar) (vs : List InterVar) (n : Nat) :
    linkWeightsToFlow (ws.map (WeightVar.named ρ)) (vs.map (InterVar.named ρ)) n = linkWeightsToFlow ws vs n := by
  unfold linkWeightsToFlow
  refine Prod.ext (weightTerms_named ρ ws n (fun _ => by rfl)) ?_
  dsimp only
  rw [conIds_named]
  refine flatMap_same (fun c => ?_) _
  rw [filter_named (q := fun l : InterVar => decide (l.inter = c.2.1 ∧ l.link = c.2.2)) (fun u => by
    rw [decide_eq_decide]; exact link_eq ρ)]
  exact map_same (fun _ => by rfl) _

end

end Verif
