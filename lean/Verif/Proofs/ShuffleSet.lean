import Verif.Proofs.ShuffleOps
import Verif.Proofs.JointRamp

/-! Setters of constraints, given the same tables with the rows in another order. -/

namespace Verif

section
variable {f g : Nat → Nat} {m M : Market} {n : Nat}

theorem saveIndex_flatten_perm {α β : Type} (L : List α) (n : Nat) {F G : Nat → α → List β} (h : ∀ i, ∀ a ∈ L, (F i a).Perm (G i a)) :
    (saveIndex L n F).flatten.Perm (saveIndex L n G).flatten := by
  induction L generalizing n with
  | nil => exact .refl _
  | cons a L ih =>
    simp only [saveIndex, List.flatten_cons]
    exact (h n a (by simp)).append (ih (n + 1) (fun i b hb => h i b (by simp [hb])))

/-- joining two tables from either side -/
theorem flatMap_swap {α β γ : Type} (A : List α) (B : List β) (p : α → β → Bool) (F : α → β → γ) :
    (A.flatMap (fun a => (B.filter (p a)).map (F a))).Perm (B.flatMap (fun b => (A.filter (fun a => p a b)).map (fun a => F a b))) := by
  induction A with
  | nil => simp
  | cons a A ih =>
    have e : B.flatMap (fun b => ((a :: A).filter (fun a => p a b)).map (fun a => F a b)) =
        B.flatMap (fun b => (if p a b then [F a b] else []) ++ (A.filter (fun a => p a b)).map (fun a => F a b)) := by
      congr 1; funext b
      by_cases h : p a b <;> simp [h]
    have e2 : B.flatMap (fun b => if p a b then [F a b] else []) = (B.filter (p a)).map (F a) := by
      clear ih e
      induction B with
      | nil => rfl
      | cons b B ihB => by_cases h : p a b <;> simp [h, ihB]
    rw [List.flatMap_cons, e]
    refine List.Perm.trans ?_ (List.flatMap_append_perm B _ _)
    rw [e2]
    exact ih.append_left _

theorem RegP.of_index {α : Type} {L L' : List α} (hL : L'.Perm L) (F : α → Row) (G : α → List ConReg) {t T : List Row × List ConReg}
    (h1 : t.1.Perm (saveIndex L n (fun i a => { F a with cid := i })))
    (h2 : t.2.Perm (saveIndex L n (fun i a => (G a).map (fun c => { c with cid := i }))).flatten)
    (H1 : T.1.Perm (saveIndex L' n (fun i a => { F a with cid := i })))
    (H2 : T.2.Perm (saveIndex L' n (fun i a => (G a).map (fun c => { c with cid := i }))).flatten) : RegP n t T where
  ex := by
    obtain ⟨σ, hσ, hF⟩ := saveIndex_perm hL n
    refine ⟨σ, L.length, hσ, ?_, ?_, ?_⟩
    · refine H1.trans ((hF _).trans (List.Perm.trans ?_ (h1.map _).symm))
      rw [map_saveIndex]
      exact .refl _
    · refine H2.trans ((hF _).flatten.trans (List.Perm.trans ?_ (h2.map _).symm))
      rw [List.map_flatten, map_saveIndex]
      refine .of_eq (congrArg _ (saveIndex_ext (fun i a _ _ _ => ?_)))
      rw [List.map_map]
      rfl
    · refine (h1.map _).trans ?_
      rw [map_saveIndex, saveIndex_ids]
  sub := by
    intro c hc
    obtain ⟨l, hl, hc'⟩ := List.mem_flatten.1 (h2.mem_iff.1 hc)
    obtain ⟨i, a, ha, rfl⟩ := mem_saveIndex.1 hl
    obtain ⟨c', _, rfl⟩ := List.mem_map.1 hc'
    exact ⟨_, h1.mem_iff.2 (mem_saveIndex.2 ⟨i, a, ha, rfl⟩), rfl⟩

theorem energy_shuf {ds DS : List Demand} (h : DS.Perm ds) (n : Nat) : RegP n (energyConstraints ds n) (energyConstraints DS n) := by
  refine RegP.of_index h (fun d => { cid := 0, ctype := .eq, rhs := d.demand, region := some d.region })
    (fun d => [{ cid := 0, region := d.region, service := .energy, coef := 1 }]) (.refl _) ?_ (.refl _) ?_
  · simp only [List.map_cons, List.map_nil, flatten_single]; exact .refl _
  · simp only [List.map_cons, List.map_nil, flatten_single]; exact .refl _

/-- the map rows of one FCAS requirement set -/
def fcasMap (rs : List FcasReq) (s : String) : List ConReg :=
  (rs.filter (fun r => decide (s = r.set))).map (fun r => { cid := 0, region := r.region, service := r.service, coef := 1 })

theorem fcas_index (rs : List FcasReq) (n : Nat) :
    (fcasConstraints rs n).1 = saveIndex ((dropDup (·.set) rs).map (fun r => (r.set, r.ctype, r.volume))) n
      (fun i a => { cid := i, ctype := a.2.1, rhs := a.2.2, set := some a.1 }) ∧
    (fcasConstraints rs n).2.Perm (saveIndex ((dropDup (·.set) rs).map (fun r => (r.set, r.ctype, r.volume))) n
      (fun i a => (fcasMap rs a.1).map (fun c => { c with cid := i }))).flatten := by
  constructor
  · rw [saveIndex_of_map]; rfl
  · unfold fcasConstraints
    dsimp only
    refine (flatMap_swap rs (fcasRows rs n) (fun r t => decide (t.set = some r.set))
      (fun r t => ({ cid := t.cid, region := r.region, service := r.service, coef := 1 } : ConReg))).trans (.of_eq ?_)
    unfold fcasRows
    rw [List.flatMap_def, map_saveIndex, saveIndex_of_map]
    congr 1
    refine saveIndex_ext (fun i r _ _ _ => ?_)
    dsimp only
    unfold fcasMap
    rw [List.map_map]
    simp only [Option.some.injEq]
    rfl

theorem fcas_shuf {rs RS : List FcasReq} (h : RS.Perm rs)
    (hs : ∀ a ∈ rs, ∀ b ∈ rs, a.set = b.set → a.volume = b.volume ∧ a.ctype = b.ctype) (n : Nat) :
    RegP n (fcasConstraints rs n) (fcasConstraints RS n) := by
  have hp := dropDup_perm (key := fun r : FcasReq => r.set) (π := fun r => (r.set, r.ctype, r.volume)) (ρ := Prod.fst) h (fun _ => rfl)
    (fun a ha b hb e => by obtain ⟨e1, e2⟩ := hs a ha b hb e; rw [e1, e2]; exact congrArg (fun s => (s, _)) e)
  refine RegP.of_index hp (fun a => { cid := 0, ctype := a.2.1, rhs := a.2.2, set := some a.1 }) (fun a => fcasMap rs a.1)
    (.of_eq (fcas_index rs n).1) (fcas_index rs n).2 (.of_eq (fcas_index RS n).1) ((fcas_index RS n).2.trans ?_)
  refine saveIndex_flatten_perm _ _ (fun i a _ => ?_)
  exact ((h.filter _).map _).map _

/-- the map rows of a joint ramping constraint of a bidirectional unit -/
def bduMap (rs : List RegRate) (sgn : ℚ) (u : String) : List ConUnit :=
  (rs.filter (fun r => decide (r.unit = u))).map (fun r => ⟨0, r.unit, r.service, r.dtype, sgn⟩) ++
    (rs.filter (fun r => decide (r.unit = u))).map (fun r => ⟨0, r.unit, .energy, r.dtype, 1⟩)

theorem jrBdu_index (rs : List RegRate) (di : ℚ) (n : Nat) (ct : CType) (sgn : ℚ) :
    (jrBdu rs di n ct sgn).1 = saveIndex ((dropDup (·.unit) rs).map (fun r => (r.unit, r.init, r.rate))) n
      (fun i a => { cid := i, ctype := ct, rhs := a.2.1 + sgn * (a.2.2 * di / 60) }) ∧
    (jrBdu rs di n ct sgn).2.Perm (saveIndex ((dropDup (·.unit) rs).map (fun r => (r.unit, r.init, r.rate))) n
      (fun i a => (bduMap rs sgn a.1).map (fun c => { c with cid := i }))).flatten := by
  constructor
  · rw [saveIndex_of_map]
    unfold jrBdu
    dsimp only
    rw [map_saveIndex]
  · unfold jrBdu
    dsimp only
    rw [List.map_flatMap]
    refine (List.flatMap_append_perm _ _ _).trans (.of_eq ?_)
    rw [List.flatMap_def, map_saveIndex, saveIndex_of_map]
    congr 1
    refine saveIndex_ext (fun i r _ _ _ => ?_)
    dsimp only
    unfold bduMap
    rw [List.map_append, List.map_map, List.map_map, List.map_map]
    rfl

theorem jrBdu_shuf {rs RS : List RegRate} (h : RS.Perm rs) (hs : ∀ a ∈ rs, ∀ b ∈ rs, a.unit = b.unit → a.init = b.init ∧ a.rate = b.rate)
    (di : ℚ) (n : Nat) (ct : CType) (sgn : ℚ) : UnitP n (jrBdu rs di n ct sgn) (jrBdu RS di n ct sgn) := by
  have hp := dropDup_perm (key := fun r : RegRate => r.unit) (π := fun r => (r.unit, r.init, r.rate)) (ρ := Prod.fst) h (fun _ => rfl)
    (fun a ha b hb e => by obtain ⟨e1, e2⟩ := hs a ha b hb e; rw [e1, e2]; exact congrArg (fun s => (s, _)) e)
  refine UnitP.of_index hp (fun a => { cid := 0, ctype := ct, rhs := a.2.1 + sgn * (a.2.2 * di / 60) }) (fun a => bduMap rs sgn a.1)
    (.of_eq (jrBdu_index rs di n ct sgn).1) (jrBdu_index rs di n ct sgn).2 (.of_eq (jrBdu_index RS di n ct sgn).1)
    ((jrBdu_index RS di n ct sgn).2.trans ?_)
  refine saveIndex_flatten_perm _ _ (fun i a _ => ?_)
  exact ((((h.filter _).map _).append ((h.filter _).map _))).map _

theorem flatten_pair {α β : Type} (l : List α) (n : Nat) (F G : Nat → α → β) :
    (saveIndex l n F ++ saveIndex l n G).Perm (saveIndex l n (fun i a => [F i a, G i a])).flatten := by
  induction l generalizing n with
  | nil => exact .refl _
  | cons a l ih =>
    simp only [saveIndex, List.flatten_cons, List.cons_append, List.nil_append]
    exact (List.perm_middle.trans ((ih (n + 1)).cons _)).cons _

theorem biRamp_shuf {rs RS : List BiRamp} (h : RS.Perm rs) (hn : (rs.map (·.unit)).Nodup) (isUp : Bool) (n : Nat) (di : ℚ) :
    UnitP n (biRampConstraints rs isUp n di) (biRampConstraints RS isUp n di) := by
  have hN : (RS.map (·.unit)).Nodup := (h.map _).nodup_iff.2 hn
  refine UnitP.of_index h (fun r => Row.mk 0 (if isUp then .le else .ge)
      (if isUp then r.init + r.up * (di / 60) else r.init - r.down * (di / 60)) none none)
    (fun r => [⟨0, r.unit, .energy, .load, 1⟩, ⟨0, r.unit, .energy, .generator, 1⟩]) ?_ ?_ ?_ ?_
  · rw [biRamp_map hn]
  · rw [biRamp_map hn]; exact flatten_pair _ _ _ _
  · rw [biRamp_map hN]
  · rw [biRamp_map hN]; exact flatten_pair _ _ _ _

/-! ### Ramp rates -/

theorem composite_perm {rs RS : List RampRow} (h : RS.Perm rs) (di : ℚ) {b B : List String} (hb : ∀ u, u ∈ B ↔ u ∈ b) :
    (compositeRampRates RS di B).1.Perm (compositeRampRates rs di b).1 ∧
    (compositeRampRates RS di B).2.Perm (compositeRampRates rs di b).2 := by
  simp only [compositeRampRates, hb]
  have h1 := h.filter (fun r => decide (r.unit ∈ b))
  have hg := h1.filter (fun r => decide (r.dtype = .generator))
  have hl := h1.filter (fun r => decide (r.dtype = .load))
  refine ⟨h.filter _, ?_⟩
  refine flatMap_perm (flatMap_perm hl (fun l => (hg.filter _).map _)) (fun d => ?_)
  exact ((flatMap_perm hg (fun l => (hl.filter _).map _)).filter _).map _

theorem leftMerge_perm {α β : Type} (p : α → β → Bool) {l L : List α} {r R : List β} (hl : L.Perm l) (hr : R.Perm r) :
    (leftMerge p L R).Perm (leftMerge p l r) := by
  unfold leftMerge
  refine flatMap_perm hl (fun a => ?_)
  dsimp only
  have h := hr.filter (p a)
  rw [isEmpty_perm h]
  split
  · exact .refl _
  · exact h.map _

theorem scada_perm {rs RS : List RampRow} (h : RS.Perm rs) {sc SC : Option (List Scada)} (hs : optSame List.Perm sc SC) :
    (scadaOpt adjustForScada RS SC).Perm (scadaOpt adjustForScada rs sc) := by
  cases sc <;> cases SC <;> first | exact hs.elim | exact h | skip
  exact (leftMerge_perm _ h (List.Perm.symm hs)).map _

theorem scadaBi_perm {rs RS : List BiRamp} (h : RS.Perm rs) {sc SC : Option (List Scada)} (hs : optSame List.Perm sc SC) :
    (scadaOpt adjustForScadaBi RS SC).Perm (scadaOpt adjustForScadaBi rs sc) := by
  cases sc <;> cases SC <;> first | exact hs.elim | exact h | skip
  exact (leftMerge_perm _ h (List.Perm.symm hs)).map _

theorem fastStartRamps_perm {rs RS : List RampRow} (h : RS.Perm rs) (rt : RunType) {ps PS : Option (List FsRamp)}
    (hp : optSame List.Perm ps PS) (di : ℚ) :
    (∃ e, adjustForFastStart rs rt ps di = .error e ∧ adjustForFastStart RS rt PS di = .error e) ∨
    ∃ q Q, adjustForFastStart rs rt ps di = .ok q ∧ adjustForFastStart RS rt PS di = .ok Q ∧ Q.Perm q := by
  have hrem : ∀ (p P : List FsRamp) (F : FsRamp → Bool), p.Perm P → (RS.filter (fun r => decide (r.unit ∉ (P.filter F).map (·.unit)))).Perm
      (rs.filter (fun r => decide (r.unit ∉ (p.filter F).map (·.unit)))) := by
    intro p P F hpP
    refine (h.filter _).trans (.of_eq (List.filter_congr (fun r _ => ?_)))
    rw [decide_eq_decide, ((hpP.filter F).map _).mem_iff]
  cases rt with
  | noFastStart => exact Or.inr ⟨_, _, rfl, rfl, h⟩
  | other => exact Or.inl ⟨_, rfl, rfl⟩
  | first =>
    cases ps <;> cases PS <;> first | exact hp.elim | exact Or.inl ⟨_, rfl, rfl⟩ | skip
    exact Or.inr ⟨_, _, rfl, rfl, hrem _ _ _ hp⟩
  | second =>
    cases ps <;> cases PS <;> first | exact hp.elim | exact Or.inl ⟨_, rfl, rfl⟩ | skip
    rename_i p P
    refine Or.inr ⟨_, _, rfl, rfl, ?_⟩
    have hq := hrem _ _ (fun p => decide (p.endMode = 0 ∨ p.endMode = 1 ∨ p.endMode = 2)) hp
    unfold adjustModeThreeFour
    dsimp only
    have hadj := flatMap_perm hq (F := fun r => (P.filter (fun p => decide (p.unit = r.unit))).filterMap (fun p =>
      p.since.map (fun s => { r with up := adjustedUp di r p.minLoading s }))) (G := fun r => (p.filter (fun p => decide (p.unit = r.unit))).filterMap (fun p =>
      p.since.map (fun s => { r with up := adjustedUp di r p.minLoading s }))) (fun r => ((List.Perm.symm hp).filter _).filterMap _)
    refine hadj.append ((hq.filter _).trans (.of_eq (List.filter_congr (fun r _ => ?_))))
    rw [decide_eq_decide]
    exact not_congr (hadj.map _).mem_iff

end

end Verif
