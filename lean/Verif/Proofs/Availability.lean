import Verif.Proofs.Exact
import Verif.Proofs.Blocks
import Verif.Proofs.Reads
import Verif.Proofs.Merit
import Verif.Proofs.Outputs
import Verif.Proofs.Prices
import Verif.Spec.Availability

/-! For C34: a unit that is not bidirectional has at most one coefficient per FCAS and constraint. -/

namespace Verif

/-- entries of the unit level map that would give two coefficients -/
def Apart (bidi : List String) (a b : ConUnit) : Prop :=
  a.unit ∉ bidi → a.service ≠ .energy → ¬ (a.cid = b.cid ∧ a.unit = b.unit ∧ a.service = b.service ∧ a.dtype = b.dtype)

def Once (bidi : List String) (es : List ConUnit) : Prop := es.Pairwise (Apart bidi)

section
variable {bidi : List String}

theorem once_of {es : List ConUnit} (h : ∀ a ∈ es, a.unit ∈ bidi ∨ a.service = .energy) : Once bidi es := by
  refine List.pairwise_of_forall_mem_list ?_
  intro a ha b _ h1 h2
  rcases h a ha with h | h
  · exact absurd h h1
  · exact absurd h h2

theorem once_append {a b : List ConUnit} (ha : Once bidi a) (hb : Once bidi b) (h : ∀ x ∈ a, ∀ y ∈ b, Apart bidi x y) : Once bidi (a ++ b) :=
  List.pairwise_append.2 ⟨ha, hb, h⟩

theorem mem_flatten_saveIndex {α : Type} {rows : List α} {n : Nat} {f : Nat → α → List ConUnit} (hc : ∀ i a, ∀ e ∈ f i a, e.cid = i) {e : ConUnit}
    (h : e ∈ (saveIndex rows n f).flatten) : n ≤ e.cid ∧ e.cid < n + rows.length := by
  obtain ⟨l, hl, he⟩ := List.mem_flatten.1 h
  obtain ⟨i, r, _, h1, h2, rfl⟩ := mem_saveIndex_lt hl
  rw [hc i r e he]
  exact ⟨h1, h2⟩

theorem once_flatten {α : Type} {rows : List α} {n : Nat} {f : Nat → α → List ConUnit} (hc : ∀ i a, ∀ e ∈ f i a, e.cid = i)
    (ho : ∀ i, ∀ a ∈ rows, Once bidi (f i a)) : Once bidi (saveIndex rows n f).flatten := by
  induction rows generalizing n with
  | nil => exact List.Pairwise.nil
  | cons r rows ih =>
    rw [saveIndex, List.flatten_cons]
    refine once_append (ho n r (by simp)) (ih (fun i a ha => ho i a (by simp [ha]))) ?_
    intro x hx y hy _ _ hh
    have h1 := hc n r x hx
    have h2 := (mem_flatten_saveIndex hc hy).1
    omega

theorem once_index {α : Type} {rows : List α} {n : Nat} {f : Nat → α → ConUnit} (hc : ∀ i a, (f i a).cid = i) : Once bidi (saveIndex rows n f) := by
  have := once_flatten (bidi := bidi) (rows := rows) (n := n) (f := fun i a => [f i a]) (by simp [hc]) (fun i a _ => List.pairwise_singleton _ _)
  rwa [flatten_saveIndex_singleton] at this

theorem once_createConstraints (ls : List Lim) (n : Nat) (d : CType) : Once bidi (createConstraints ls n d).2 := by
  unfold createConstraints
  exact once_index (by simp)

theorem once_capacity (ls : List Lim) (n : Nat) (b : List String) : Once bidi (capacityConstraints ls n b).2 := by
  unfold capacityConstraints createConstraints
  dsimp only
  rw [map_saveIndex]
  exact once_index (by simp)

theorem once_fastStart (ps : List FsProfile) (n : Nat) : Once bidi (fastStartConstraints ps n).2 := by
  apply once_of
  intro a ha
  right
  unfold fastStartConstraints createConstraints at ha
  simp only [List.mem_append] at ha
  rcases ha with (((ha | ha) | ha) | ha) | ha <;>
  · obtain ⟨i, l, hl, rfl⟩ := mem_saveIndex.1 ha
    have hl := List.mem_of_getElem? hl
    simp only [fsModeOne, fsModeTwo, fsModeThree, fsModeFour, List.mem_map] at hl
    obtain ⟨p, _, rfl⟩ := hl
    rfl

theorem once_biRamp (rs : List BiRamp) (up : Bool) (n : Nat) (di : ℚ) : Once bidi (biRampConstraints rs up n di).2 := by
  apply once_of
  intro a ha
  right
  unfold biRampConstraints at ha
  simp only [List.mem_append, List.mem_flatMap, List.mem_map] at ha
  rcases ha with ⟨r, _, c, _, rfl⟩ | ⟨r, _, c, _, rfl⟩ <;> rfl

theorem jrGeneric_mem {cs : List (Nat × RegRate)} {s : JrSettings} {di : ℚ} {e : ConUnit} (h : e ∈ (jrGeneric cs s di).2) :
    ∃ c ∈ cs, e.cid = c.1 ∧ e.dtype = c.2.dtype := by
  unfold jrGeneric at h
  simp only [List.mem_append, List.mem_map] at h
  rcases h with ⟨c, hc, rfl⟩ | ⟨c, hc, rfl⟩ <;> exact ⟨c, hc, rfl, rfl⟩

theorem once_jrGeneric {cs : List (Nat × RegRate)} (hn : (cs.map Prod.fst).Nodup) (s : JrSettings) (di : ℚ) : Once bidi (jrGeneric cs s di).2 := by
  unfold jrGeneric
  dsimp only
  refine once_append ?_ ?_ ?_
  · unfold Once
    rw [List.pairwise_map]
    rw [List.Nodup, List.pairwise_map] at hn
    refine hn.imp ?_
    intro a b hab _ _ hh
    exact hab hh.1
  · apply once_of
    intro a ha
    obtain ⟨c, _, rfl⟩ := List.mem_map.1 ha
    exact Or.inr rfl
  · intro x hx y hy _ h2 hh
    obtain ⟨c, _, rfl⟩ := List.mem_map.1 hy
    exact h2 hh.2.2.1

theorem once_jr (rs : List RegRate) (di : ℚ) (n : Nat) (g l : JrSettings) : Once bidi (jrConstructor rs di n g l).2 := by
  unfold jrConstructor
  dsimp only
  have hn : ((saveIndex rs n (fun i r => (i, r))).map Prod.fst).Nodup := by
    rw [map_saveIndex, saveIndex_ids]; exact List.nodup_range'
  have hf : ∀ p : Nat × RegRate → Bool, (((saveIndex rs n (fun i r => (i, r))).filter p).map Prod.fst).Nodup :=
    fun p => hn.sublist (List.filter_sublist.map _)
  refine once_append (once_jrGeneric (hf _) _ _) (once_jrGeneric (hf _) _ _) ?_
  intro x hx y hy _ _ hh
  obtain ⟨c, hc, _, h1⟩ := jrGeneric_mem hx
  obtain ⟨c', hc', _, h2⟩ := jrGeneric_mem hy
  have e1 := of_decide_eq_true (List.mem_filter.1 hc).2
  have e2 := of_decide_eq_true (List.mem_filter.1 hc').2
  rw [h1, h2, e1, e2] at hh
  exact absurd hh.2.2.2 (by decide)

theorem once_jrBdu (rs : List RegRate) (hb : ∀ r ∈ rs, r.unit ∈ bidi) (di : ℚ) (n : Nat) (ty : CType) (sgn : ℚ) :
    Once bidi (jrBdu rs di n ty sgn).2 := by
  apply once_of
  intro a ha
  unfold jrBdu at ha
  simp only [List.mem_append, List.mem_flatMap, List.mem_map] at ha
  rcases ha with ⟨c, _, r, hr, rfl⟩ | ⟨a, _, rfl⟩
  · exact Or.inl (hb r (List.mem_filter.1 hr).1)
  · exact Or.inr rfl

theorem once_twice {ts : List Trap} {n : Nat} {f g : Nat → Trap → List ConUnit} (hf : ∀ i a, ∀ e ∈ f i a, e.cid = i) (hg : ∀ i a, ∀ e ∈ g i a, e.cid = i)
    (h1 : ∀ i, ∀ a ∈ ts, Once bidi (f i a)) (h2 : ∀ i, ∀ a ∈ ts, Once bidi (g i a)) :
    Once bidi ((saveIndex ts n f).flatten ++ (saveIndex ts (n + ts.length) g).flatten) := by
  refine once_append (once_flatten hf h1) (once_flatten hg h2) ?_
  intro x hx y hy _ _ hh
  have a1 := (mem_flatten_saveIndex hf hx).2
  have a2 := (mem_flatten_saveIndex hg hy).1
  omega

theorem once_jointCapacity (ts : List Trap) (hs : ∀ t ∈ ts, t.service.isContingency = true) (n : Nat) : Once bidi (jointCapacityConstraints ts bidi n).2 := by
  unfold jointCapacityConstraints
  dsimp only
  have hc1 : ∀ i a, ∀ e ∈ jcUpperMap bidi i a, e.cid = i := by
    intro i a e he
    unfold jcUpperMap at he
    by_cases hb : a.unit ∈ bidi
    · rw [if_pos hb] at he
      simp at he
      rcases he with rfl | rfl | rfl | rfl | rfl <;> rfl
    · rw [if_neg hb] at he
      simp at he
      rcases he with rfl | rfl | rfl <;> rfl
  have hc2 : ∀ i a, ∀ e ∈ jcLowerMap bidi i a, e.cid = i := by
    intro i a e he
    unfold jcLowerMap at he
    by_cases hb : a.unit ∈ bidi
    · rw [if_pos hb] at he
      simp at he
      rcases he with rfl | rfl | rfl | rfl | rfl <;> rfl
    · rw [if_neg hb] at he
      simp at he
      rcases he with rfl | rfl | rfl <;> rfl
  refine once_twice hc1 hc2 ?_ ?_
  · intro i t ht
    have := hs t ht
    by_cases hb : t.unit ∈ bidi
    · apply once_of
      intro a ha
      left
      unfold jcUpperMap at ha
      rw [if_pos hb] at ha
      simp at ha
      rcases ha with rfl | rfl | rfl | rfl | rfl <;> exact hb
    · unfold jcUpperMap Once
      rw [if_neg hb, List.append_nil]
      have h1 : ∀ q : Service, q = (if t.dtype = .generator then .raiseReg else .lowerReg) → t.service ≠ q := by
        rintro q rfl h
        rw [h] at this
        split at this <;> simp [Service.isContingency] at this
      simp only [List.pairwise_cons, List.mem_cons, List.not_mem_nil, or_false, forall_eq_or_imp, forall_eq, Apart]
      refine ⟨⟨fun _ h => absurd rfl h, fun _ h => absurd rfl h⟩, fun _ _ hh => h1 _ rfl hh.2.2.1, by simp⟩
  · intro i t ht
    have := hs t ht
    by_cases hb : t.unit ∈ bidi
    · apply once_of
      intro a ha
      left
      unfold jcLowerMap at ha
      rw [if_pos hb] at ha
      simp at ha
      rcases ha with rfl | rfl | rfl | rfl | rfl <;> exact hb
    · unfold jcLowerMap Once
      rw [if_neg hb, List.append_nil]
      have h1 : ∀ q : Service, q = (if t.dtype = .generator then .lowerReg else .raiseReg) → t.service ≠ q := by
        rintro q rfl h
        rw [h] at this
        split at this <;> simp [Service.isContingency] at this
      simp only [List.pairwise_cons, List.mem_cons, List.not_mem_nil, or_false, forall_eq_or_imp, forall_eq, Apart]
      refine ⟨⟨fun _ h => absurd rfl h, fun _ h => absurd rfl h⟩, fun _ _ hh => h1 _ rfl hh.2.2.1, by simp⟩

theorem once_energyReg (ts : List Trap) (n : Nat) : Once bidi (energyRegConstraints ts n).2 := by
  unfold energyRegConstraints
  dsimp only
  refine once_twice ?_ ?_ ?_ ?_
  · intro i a e he; simp at he; rcases he with rfl | rfl <;> rfl
  · intro i a e he; simp at he; rcases he with rfl | rfl <;> rfl
  · intro i t _
    unfold Once
    simp only [List.pairwise_cons, List.mem_cons, List.not_mem_nil, or_false, forall_eq, Apart]
    exact ⟨fun _ h => absurd rfl h, by simp⟩
  · intro i t _
    unfold Once
    simp only [List.pairwise_cons, List.mem_cons, List.not_mem_nil, or_false, forall_eq, Apart]
    exact ⟨fun _ h => absurd rfl h, by simp⟩

end

/-- at most one coefficient per unit, FCAS and constraint -/
def OneCoef (m : Market) : Prop := ∀ k es, m.unitCon.get? k = some es → Once m.bidi es

theorem bidi_of_units {m m' : Market} (h : m'.units = m.units) : m'.bidi = m.bidi := by unfold Market.bidi; rw [h]

theorem OneCoef.same {m m' : Market} (h : OneCoef m) (hu : m'.units = m.units) (hc : m'.unitCon = m.unitCon) : OneCoef m' := by
  intro k es he
  rw [bidi_of_units hu]
  rw [hc] at he
  exact h k es he

theorem OneCoef.add {m : Market} (h : OneCoef m) (k : CKey) {t : List Row × List ConUnit} (ht : Once m.bidi t.2) : OneCoef (m.addUnitSet k t).1 := by
  intro k' es he
  have h1 : (m.addUnitSet k t).1.unitCon = m.unitCon.set k t.2 := by
    unfold Market.addUnitSet; dsimp only; split <;> rfl
  have h2 : (m.addUnitSet k t).1.units = m.units := by
    unfold Market.addUnitSet; dsimp only; split <;> rfl
  rw [bidi_of_units h2]
  rw [h1] at he
  by_cases hk : k = k'
  · subst hk
    rw [Dict.get?_set_self] at he
    injection he with he
    rw [← he]; exact ht
  · rw [Dict.get?_set_ne _ _ hk] at he
    exact h k' es he

theorem OneCoef.addIf {m : Market} (h : OneCoef m) (k : CKey) (b : Bool) {t : List Row × List ConUnit} (ht : Once m.bidi t.2) :
    OneCoef (m.addUnitSetIf k b t).1 := by
  unfold Market.addUnitSetIf
  split
  · exact h.add k ht
  · exact h

theorem OneCoef.elastic {m : Market} (h : OneCoef m) (k : CKey) (c : VCost) : OneCoef (m.makeElastic k c).1 := by
  unfold Market.makeElastic
  split
  · exact h
  split
  · exact h
  split
  · exact h
  dsimp only
  split <;> exact h.same rfl rfl

theorem OneCoef.elasticOpt {m : Market} (h : OneCoef m) (k : CKey) (c : Option VCost) : OneCoef (m.elasticOpt k c).1 := by
  cases c with
  | none => exact h
  | some c => exact h.elastic k c

theorem OneCoef.elasticIf {m : Market} (h : OneCoef m) (k : CKey) (c : VCost) : OneCoef (m.elasticIfPresent k c).1 := by
  unfold Market.elasticIfPresent
  split
  · exact h.elastic k c
  · exact h

theorem OneCoef.andThen {r : Res} {f : Market → Res} (h : OneCoef r.1) (hf : OneCoef r.1 → OneCoef (f r.1).1) : OneCoef (r.andThen f).1 := by
  unfold Res.andThen
  cases r.2 with
  | none => exact hf h
  | some e => exact h

theorem oneCoef_step {m : Market} (hw : KeyWF m) (h : OneCoef m) (op : Op) : OneCoef (m.step op).1 := by
  -- sets the call is not about
  have hframe : (∀ k, Part.set k ∈ op.parts → k.isUnit = false) → OneCoef (m.step op).1 := by
    intro hk k es he
    have hb := sameBase_step m op
    rw [bidi_of_units hb.2.1]
    by_cases hp : Part.set k ∈ op.parts
    · have hkey : KeyWF (m.step op).1 := steps_invariant (good := False) (P := KeyWF) (fun _ _ _ p => keyWF_prim p) (step_steps m op (fun h => h.elim)) hw
      rw [unitCon_none hkey (hk k hp)] at he
      cases he
    · have := (frame_steps (good := False) (step_steps m op (fun h => h.elim)) hp).unitCon
      rw [this] at he
      exact h k es he
  cases op with
  | capacity l vc =>
    unfold Market.step
    split
    · exact h
    simp only [Market.setCapacity]
    split
    · exact h
    split
    · exact h
    · exact (h.add _ (once_capacity ..)).andThen (fun h => h.elasticOpt _ _)
  | uigf l vc =>
    unfold Market.step
    split
    · exact h
    simp only [Market.setUigf]
    split
    · exact h
    split
    · exact h
    · exact (h.add _ (once_createConstraints ..)).andThen (fun h => h.elasticOpt _ _)
  | rampRates r sc ps rt vc =>
    unfold Market.step
    split
    · exact h
    simp only [Market.setRampRates]
    split
    · exact h
    split
    · exact h
    split
    · exact h
    split
    · exact h
    split
    · exact h
    · refine (h.add _ (once_createConstraints ..)).andThen (fun h => ?_)
      refine (h.add _ (once_createConstraints ..)).andThen (fun h => ?_)
      refine OneCoef.andThen ?_ (fun h => ?_)
      · unfold Market.addBiRamps
        split
        · exact h
        · exact (h.add _ (once_biRamp ..)).andThen (fun h => h.add _ (once_biRamp ..))
      · unfold Market.elasticRamps
        split
        · exact h
        · refine (h.elastic _ _).andThen (fun h => ?_)
          refine (h.elastic _ _).andThen (fun h => ?_)
          exact (h.elasticIf _ _).andThen (fun h => h.elasticIf _ _)
  | fastStart p vc =>
    unfold Market.step
    split
    · exact h
    simp only [Market.setFastStart]
    split
    · exact h
    split
    · exact h
    · exact (h.add _ (once_fastStart ..)).andThen (fun h => h.elasticOpt _ _)
  | removeFastStart =>
    unfold Market.step
    split
    · exact h
    have hu : (m.removeFastStart).1.units = m.units := by
      unfold Market.removeFastStart; dsimp only; split <;> split <;> rfl
    have hc : (m.removeFastStart).1.unitCon = m.unitCon ∨ (m.removeFastStart).1.unitCon = m.unitCon.erase .fastStart := by
      unfold Market.removeFastStart; dsimp only; split <;> split <;> first | exact Or.inl rfl | exact Or.inr rfl
    rcases hc with hc | hc
    · exact h.same hu hc
    · intro k es he
      simp only at he
      rw [bidi_of_units hu]
      rw [hc] at he
      by_cases hk : CKey.fastStart = k
      · subst hk; rw [Dict.get?_erase_self] at he; cases he
      · rw [Dict.get?_erase_ne _ hk] at he; exact h k es he
  | fcasMaxAvail l vc =>
    unfold Market.step
    split
    · exact h
    simp only [Market.setFcasMaxAvail]
    split
    · exact h
    · exact (h.add _ (once_createConstraints ..)).andThen (fun h => h.elasticOpt _ _)
  | jointRamping r ps rt vc =>
    unfold Market.step
    split
    · exact h
    simp only [Market.setJointRamping]
    split
    · exact h
    split
    · exact h
    split
    · exact h
    split
    · exact h
    · have hu : ∀ (m' : Market) (k : CKey) (b : Bool) (t : List Row × List ConUnit), (m'.addUnitSetIf k b t).1.bidi = m'.bidi := by
        intro m' k b t
        apply bidi_of_units
        unfold Market.addUnitSetIf
        split
        · unfold Market.addUnitSet; dsimp only; split <;> rfl
        · rfl
      refine (h.addIf _ _ (once_jr ..)).andThen (fun h => ?_)
      refine (h.addIf _ _ (once_jrBdu _ ?_ ..)).andThen (fun h => ?_)
      · intro r hr; rw [hu]; exact of_decide_eq_true (List.mem_filter.1 hr).2
      refine (h.addIf _ _ (once_jr ..)).andThen (fun h => ?_)
      refine (h.addIf _ _ (once_jrBdu _ ?_ ..)).andThen (fun h => ?_)
      · intro r hr; rw [hu, hu, hu]; exact of_decide_eq_true (List.mem_filter.1 hr).2
      unfold Market.elasticJr
      split
      · exact h
      · refine (h.elastic _ _).andThen (fun h => ?_)
        refine (h.elastic _ _).andThen (fun h => ?_)
        exact (h.elasticIf _ _).andThen (fun h => h.elasticIf _ _)
  | jointCapacity t vc =>
    unfold Market.step
    split
    · exact h
    simp only [Market.setJointCapacity]
    split
    · exact h
    rename_i hok
    split
    · exact h
    · refine (h.add _ (once_jointCapacity t ?_ _)).andThen (fun h => h.elasticOpt _ _)
      intro a ha
      simp only [Bool.not_eq_true', Bool.not_eq_false, Market.trapsOk, Bool.and_eq_true, List.all_eq_true] at hok
      exact (hok.1 a ha).2
  | energyReg t vc =>
    unfold Market.step
    split
    · exact h
    simp only [Market.setEnergyReg]
    split
    · exact h
    split
    · exact h
    · exact (h.add _ (once_energyReg ..)).andThen (fun h => h.elasticOpt _ _)
  | elastic k c =>
    unfold Market.step
    split
    · exact h
    exact h.elastic k c
  | _ => exact hframe (by simp [Op.parts, CKey.isUnit])

theorem Reached.oneCoef {m : Market} (h : Reached m) : OneCoef m := by
  obtain ⟨r, u, d, m0, ops, h1, h2, rfl⟩ := h
  have h0 : OneCoef m0 := by
    unfold Market.init at h1
    split at h1
    · injection h1 with h1
      subst h1
      intro k es he
      simp [Dict.get?] at he
    · cases h1
  have hw : KeyWF m0 := (wf_run (ops := []) h1 trivial).key
  clear h1 h2
  induction ops generalizing m0 with
  | nil => exact h0
  | cons op ops ih =>
    exact ih (m0.step op).1 (oneCoef_step hw h0 op)
      (steps_invariant (good := False) (P := KeyWF) (fun _ _ _ p => keyWF_prim p) (step_steps m0 op (fun h => h.elim)) hw)

theorem ownTerms_unit {m : Market} (hw : WF m) {k : CKey} (hk : k.isUnit = true) :
    m.ownTerms k = ((m.deficits.get? k).elim [] (·.2)) ++ createLhsUnit ((m.unitCon.get? k).getD []) (m.bidUnit.getD []) := by
  have h1 : k ≠ .interpWeights := by rintro rfl; simp [CKey.isUnit] at hk
  have h2 : k ≠ .tieBreak := by rintro rfl; simp [CKey.isUnit] at hk
  have h3 : k ≠ .generic := by rintro rfl; simp [CKey.isUnit] at hk
  have h4 : k ≠ .fcas := by rintro rfl; simp [CKey.isUnit] at hk
  have h5 : m.regCon.get? k = none := by
    apply get?_none_of_keys
    rintro e he rfl
    have := hw.key.2 e he
    have h' := isUnit_not_market hk
    rw [this] at h'; cases h'
  unfold Market.ownTerms Market.genericRows
  rw [if_neg h1, if_neg h2, if_neg h3, if_neg h4, h5]
  simp [setIds, genericTermsFor_nil, createLhsReg]

theorem dispatched_other {m : Market} (hw : VarWF m) {u : String} {s : Service} {d : DType} {x y : Nat → ℚ} (h : m.onlyChanges u s d x y)
    {u' : String} {s' : Service} {d' : DType} (hne : ¬ (u' = u ∧ s' = s ∧ d' = d)) : m.dispatched y u' s' d' = m.dispatched x u' s' d' := by
  unfold Market.dispatched
  apply sum_map_congr
  intro b hb
  have hb := List.mem_filter.1 hb
  have hbk := of_decide_eq_true hb.2
  apply h
  intro b' hb' h1 h2 h3 hv
  have : b' = b := List.inj_on_of_nodup_map (bids_nodup hw) hb' hb.1 hv
  subst this
  exact hne ⟨hbk.1.symm.trans h1, hbk.2.1.symm.trans h2, hbk.2.2.symm.trans h3⟩

/-- the coefficient of (unit, service, dispatch type) in a constraint of a unit level set -/
def entryCoef (es : List ConUnit) (c : Nat) (u : String) (s : Service) (d : DType) : ℚ :=
  ((es.filter (fun e => decide (e.cid = c ∧ e.unit = u ∧ e.service = s ∧ e.dtype = d))).map ConUnit.coef).sum

theorem row_change {m : Market} (hm : Reached m) {k : CKey} (hk : k.isUnit = true) {c : Nat} (hc : InTab m k c) {u : String} {s : Service} {d : DType}
    (hs : s ≠ .energy) {x y : Nat → ℚ} (h : m.onlyChanges u s d x y) (hl : m.lists u d ∨ m.dispatched y u s d = m.dispatched x u s d) :
    rowVal m.terms y c = rowVal m.terms x c + entryCoef ((m.unitCon.get? k).getD []) c u s d * (m.dispatched y u s d - m.dispatched x u s d) := by
  have hw := hm.wf
  rw [rowVal_own hw.con hc, rowVal_own hw.con hc, ownTerms_unit hw hk, rowVal_append, rowVal_append, rowVal_createLhsUnit, rowVal_createLhsUnit]
  have hdef : rowVal ((m.deficits.get? k).elim [] (·.2)) y c = rowVal ((m.deficits.get? k).elim [] (·.2)) x c := by
    cases hd : m.deficits.get? k with
    | none => rfl
    | some e =>
      apply rowVal_agree
      intro t ht
      apply h
      intro b hb _ _ _ hv
      have h1 := (hm.refs.bids (List.mem_map_of_mem hb)).2
      apply h1
      rw [hv]
      exact List.mem_flatMap.2 ⟨(k, e), Dict.mem_of_get? hd, hm.refs.own _ (Dict.mem_of_get? hd) t ht⟩
  rw [hdef]
  have hmap : ∀ e : ConUnit, m.mapVal y e.unit e.service e.dtype = m.mapVal x e.unit e.service e.dtype +
      (if e.unit = u ∧ e.service = s ∧ e.dtype = d then m.dispatched y u s d - m.dispatched x u s d else 0) := by
    intro e
    by_cases hll : m.lists e.unit e.dtype
    · rw [mapVal_eq hw hll, mapVal_eq hw hll]
      split
      · rename_i he
        obtain ⟨h1, h2, h3⟩ := he
        have hside : m.side e.unit e.service e.dtype = 1 := by
          unfold Market.side; rw [if_neg]; rintro ⟨_, hh, _⟩; exact hs (h2.symm.trans hh)
        rw [hside, h1, h2, h3]; ring
      · rename_i he
        rw [dispatched_other hw.var h he]; ring
    · have hn : ∀ v ∈ m.bidUnit.getD [], decide (v.unit = e.unit ∧ v.service = e.service ∧ v.dtype = e.dtype) = false := by
        intro v hv
        rw [decide_eq_false_iff_not]
        intro hc
        exact hll ((mem_bidUnit_iff hw).1 ⟨v, hv, hc⟩).1
      have : ∀ z, m.mapVal z e.unit e.service e.dtype = 0 := by
        intro z
        unfold Market.mapVal
        rw [filter_nil_of hn]
        simp
      rw [this, this]
      split
      · rename_i he
        rcases hl with hl | hl
        · rw [he.1, he.2.2] at hll; exact absurd hl hll
        · rw [hl]; ring
      · ring
  have hsum : m.unitLhs y ((m.unitCon.get? k).getD []) c = m.unitLhs x ((m.unitCon.get? k).getD []) c +
      entryCoef ((m.unitCon.get? k).getD []) c u s d * (m.dispatched y u s d - m.dispatched x u s d) := by
    unfold Market.unitLhs entryCoef
    generalize (m.unitCon.get? k).getD [] = es
    induction es with
    | nil => simp
    | cons e es ih =>
      by_cases h1 : e.cid = c
      · rw [List.filter_cons_of_pos (by simpa using h1)]
        simp only [List.map_cons, List.sum_cons, ih, hmap e]
        by_cases h2 : e.unit = u ∧ e.service = s ∧ e.dtype = d
        · rw [if_pos h2, List.filter_cons_of_pos (by simp [h1, h2])]
          simp only [List.map_cons, List.sum_cons]
          ring
        · rw [if_neg h2, List.filter_cons_of_neg (by simp only [decide_eq_true_eq]; exact fun hh => h2 hh.2)]
          ring
      · rw [List.filter_cons_of_neg (by simpa using h1),
          List.filter_cons_of_neg (by simp only [decide_eq_true_eq]; exact fun hh => h1 hh.1)]
        exact ih
  rw [hsum]
  ring

theorem filter_once {bidi : List String} {es : List ConUnit} (h : Once bidi es) {e : ConUnit} (he : e ∈ es) (hu : e.unit ∉ bidi) (hs : e.service ≠ .energy) :
    es.filter (fun a => decide (a.cid = e.cid ∧ a.unit = e.unit ∧ a.service = e.service ∧ a.dtype = e.dtype)) = [e] := by
  induction es with
  | nil => simp at he
  | cons a es ih =>
    have h1 := List.pairwise_cons.1 h
    by_cases hae : a.cid = e.cid ∧ a.unit = e.unit ∧ a.service = e.service ∧ a.dtype = e.dtype
    · rw [List.filter_cons_of_pos (by simpa using hae)]
      have hno : ∀ b ∈ es, decide (b.cid = e.cid ∧ b.unit = e.unit ∧ b.service = e.service ∧ b.dtype = e.dtype) = false := by
        intro b hb
        rw [decide_eq_false_iff_not]
        intro hbe
        apply h1.1 b hb (by rw [hae.2.1]; exact hu) (by rw [hae.2.2.1]; exact hs)
        exact ⟨hae.1.trans hbe.1.symm, hae.2.1.trans hbe.2.1.symm, hae.2.2.1.trans hbe.2.2.1.symm, hae.2.2.2.trans hbe.2.2.2.symm⟩
      rw [filter_nil_of hno]
      rcases List.mem_cons.1 he with rfl | he
      · rfl
      · have := hno e he
        simp at this
    · rw [List.filter_cons_of_neg (by simpa using hae)]
      rcases List.mem_cons.1 he with rfl | he
      · exact absurd ⟨rfl, rfl, rfl, rfl⟩ hae
      · exact ih h1.2 he

/-! ### the minimum -/

theorem foldl_minInf (l : List (Option ℚ)) (a : Option ℚ) :
    (l.foldl minInf a = none ↔ a = none ∧ ∀ b ∈ l, b = none) ∧
    ∀ v, l.foldl minInf a = some v → (some v = a ∨ some v ∈ l) ∧ (∀ w, some w = a ∨ some w ∈ l → v ≤ w) := by
  induction l generalizing a with
  | nil =>
    refine ⟨by simp, ?_⟩
    intro v hv
    simp only [List.foldl_nil] at hv
    refine ⟨Or.inl hv.symm, ?_⟩
    intro w hw
    rcases hw with hw | hw
    · rw [hv] at hw; injection hw with hw; rw [hw]
    · simp at hw
  | cons b l ih =>
    rw [List.foldl_cons]
    obtain ⟨i1, i2⟩ := ih (minInf a b)
    have hmin : (minInf a b = none ↔ a = none ∧ b = none) ∧ (∀ v, minInf a b = some v → (some v = a ∨ some v = b)) ∧
        ∀ w, some w = a ∨ some w = b → ∃ v, minInf a b = some v ∧ v ≤ w := by
      cases a with
      | none =>
        cases b with
        | none => simp [minInf]
        | some b => simp [minInf]
      | some a =>
        cases b with
        | none => simp [minInf]
        | some b =>
          refine ⟨by simp [minInf], ?_, ?_⟩
          · intro v hv
            simp only [minInf, Option.some.injEq] at hv
            rcases min_choice a b with hm | hm <;> rw [hm] at hv <;> subst hv <;> simp
          · intro w hw
            refine ⟨min a b, rfl, ?_⟩
            rcases hw with hw | hw <;> injection hw with hw <;> subst hw
            · exact min_le_left _ _
            · exact min_le_right _ _
    constructor
    · rw [i1, hmin.1]
      simp only [List.forall_mem_cons, and_assoc]
    · intro v hv
      obtain ⟨j1, j2⟩ := i2 v hv
      constructor
      · rcases j1 with j1 | j1
        · rcases hmin.2.1 v j1.symm with h | h
          · exact Or.inl h
          · exact Or.inr (by rw [h]; simp)
        · exact Or.inr (List.mem_cons_of_mem _ j1)
      · intro w hw
        rcases hw with hw | hw
        · obtain ⟨v', h1, h2⟩ := hmin.2.2 w (Or.inl hw)
          exact (j2 v' (Or.inl h1.symm)).trans h2
        · rcases List.mem_cons.1 hw with hw | hw
          · obtain ⟨v', h1, h2⟩ := hmin.2.2 w (Or.inr hw)
            exact (j2 v' (Or.inl h1.symm)).trans h2
          · exact j2 w (Or.inr hw)

theorem slack_eq {m : Market} (hw : ConWF m) {lp : Lp} (hl : m.assemble = .ok lp) {x : Nat → ℚ} {k : CKey} {rows : List Row} (hr : m.conRhs.get? k = some rows)
    {r : Row} (hrm : r ∈ rows) (ht : ∃ t ∈ m.terms, t.cid = r.cid) : lp.slack x r.cid = |r.rhs - rowVal m.terms x r.cid| := by
  have hrow := lpRow_of hw hl (conRow_mem hr hrm) ht
  have hn := lpRows_nodup hl
  unfold Lp.slack
  have hf : lp.rows.find? (fun q => decide (q.cid = r.cid)) = some { cid := r.cid, coefs := groupCoefs m.terms r.cid, ctype := r.ctype, rhs := .const r.rhs } := by
    have := filter_key_unique hn hrow
    rw [← List.head?_filter]
    simp only at this
    rw [this]; rfl
  rw [hf]
  simp only [linVal_groupCoefs, Rhs.eval]

end Verif
