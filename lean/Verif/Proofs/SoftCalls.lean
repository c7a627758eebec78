import Verif.Proofs.SoftOps
import Verif.Proofs.SoftRamp
import Verif.Proofs.SoftFast
import Verif.Proofs.SoftJoint
import Verif.Proofs.SoftTie

/-! The calls with a violation cost, one by one. -/

namespace Verif

variable {ops : List Op} {m : Market}

theorem forSet_of {vc : VCost} {r : Row} {s : String} (h : r.set = some s) : vc.of r = vc.forSet s := by
  cases vc with
  | num c => rfl
  | table t =>
    simp only [VCost.of, VCost.forSet, h, Option.some.injEq]
    congr 2
    funext c
    simp [eq_comm]

theorem unitLhs_limit (hw : WF m) (ls : List Lim) (n : Nat) (dir : CType) (x : Nat → ℚ) {i : Nat} {l : Lim}
    (hi : ls[i]? = some l) (hs : m.side l.unit l.service l.dtype = 1) :
    m.unitLhs x (createConstraints ls n dir).2 (n + i) = m.output x l.unit l.service l.dtype := by
  have hf : ((createConstraints ls n dir).2.filter (fun c => decide (c.cid = n + i))) =
      [{ cid := n + i, unit := l.unit, service := l.service, dtype := l.dtype, coef := 1 }] :=
    filter_saveIndex ls n _ ConUnit.cid (fun _ _ => rfl) hi
  unfold Market.unitLhs
  rw [hf]
  simp [mapVal_side hw, hs]

theorem unitLhs_capacity (hw : WF m) (ls : List Lim) (n : Nat) (x : Nat → ℚ) {i : Nat} {l : Lim}
    (hi : ls[i]? = some l) (hs : l.service = .energy) :
    m.unitLhs x (capacityConstraints ls n m.bidi).2 (n + i) = m.output x l.unit l.service l.dtype := by
  have e : (capacityConstraints ls n m.bidi).2 = saveIndex ls n (fun i l =>
      ({ cid := i, unit := l.unit, service := l.service, dtype := l.dtype, coef := if l.dtype = .load ∧ l.unit ∈ m.bidi then -1 else 1 } : ConUnit)) := by
    unfold capacityConstraints createConstraints
    simp only [map_saveIndex]
  unfold Market.unitLhs
  rw [e, filter_saveIndex ls n _ ConUnit.cid (fun _ _ => rfl) hi]
  simp only [List.map_cons, List.map_nil, List.sum_cons, List.sum_nil, mapVal_side hw, Market.side, hs, true_and, add_zero]
  by_cases h : l.unit ∈ m.bidi <;> by_cases h' : l.dtype = .load <;> simp [h, h']

/-- limits with a violation cost -/
theorem priced_limits (hw : WF m) {os : List Op} {op op1 : Op} {k : CKey} {c : ℚ} (h : op.apart = some (op1, k, .num c))
    (hi : InForce op m) (hne : op ≠ .generic [] (some (.num c))) (hk : k.isUnit = true) (hc : 0 ≤ c) {ls : List Lim}
    {T : Nat → List ConUnit}
    (ht : ∀ m1, InForce op1 m1 → m.bidi = m1.bidi → ∃ n, m1.conRhs.get? k = some (createConstraints ls n .le).1 ∧
      m1.unitCon.get? k = some (T n))
    (hT : ∀ n x i l, ls[i]? = some l → m.unitLhs x (T n) (n + i) = m.output x l.unit l.service l.dtype)
    (hF : ∀ x, op.misses m os x = ls.map (fun l => (c, max 0 (m.output x l.unit l.service l.dtype - l.val)))) :
    ∃ n, Priced m os op ⟨k, .num c, n⟩ := by
  obtain ⟨m1, i1, i2, i3, i4, i5, i6, a, ha, e⟩ := apart_before h hi hne
  obtain ⟨n, t1, t2⟩ := ht m1 i1 i2
  refine priced_unit h hi hne hk hw hc (t := ((createConstraints ls n .le).1, T n)) (fun _ _ _ _ _ => ⟨i3.trans t1, i4.trans t2⟩) ?_
  intro x
  rw [hF]
  refine forall₂_index (fun i l hl => ⟨rfl, fun _ => ?_⟩)
  dsimp only
  rw [hT n x i l hl]
  rfl

theorem MadeBy.capacity_priced (h : MadeBy ops m) {ls : List Lim} {c : ℚ} (ho : Op.capacity ls (some (.num c)) ∈ ops) (hc : 0 ≤ c) :
    ∃ n, Priced m ops (.capacity ls (some (.num c))) ⟨.unitBidCapacity, .num c, n⟩ := by
  have hi := h.inForce ho
  obtain ⟨m1, i1, _⟩ := apart_before (op := .capacity ls (some (.num c))) rfl hi (by simp)
  have hen := (capacity_imposed i1).choose_spec.2
  refine priced_limits h.wf (op := .capacity ls (some (.num c))) rfl hi (by simp) rfl hc (ls := ls)
    (T := fun n => (capacityConstraints ls n m.bidi).2) ?_ (fun n x i l hl => unitLhs_capacity h.wf ls n x hl (hen l (List.mem_of_getElem? hl))) ?_
  · intro m1 i1 hb
    obtain ⟨n, hi, _⟩ := capacity_imposed i1
    rw [← hb] at hi
    exact ⟨n, hi.rhs, hi.map⟩
  · intro x
    simp only [Op.misses]
    exact List.map_congr_left (fun l hl => by rw [hen l hl])

theorem MadeBy.uigf_priced (h : MadeBy ops m) {ls : List Lim} {c : ℚ} (ho : Op.uigf ls (some (.num c)) ∈ ops) (hc : 0 ≤ c) :
    ∃ n, Priced m ops (.uigf ls (some (.num c))) ⟨.uigf, .num c, n⟩ := by
  have hi := h.inForce ho
  obtain ⟨m1, i1, _⟩ := apart_before (op := .uigf ls (some (.num c))) rfl hi (by simp)
  have hen := (uigf_imposed i1).choose_spec.2
  refine priced_limits h.wf (op := .uigf ls (some (.num c))) rfl hi (by simp) rfl hc (ls := ls)
    (T := fun n => (createConstraints ls n .le).2) ?_ (fun n x i l hl => unitLhs_limit h.wf ls n .le x hl
      (by simp [Market.side, (hen l (List.mem_of_getElem? hl)).2])) ?_
  · intro m1 i1 hb
    obtain ⟨n, hi, _⟩ := uigf_imposed i1
    exact ⟨n, hi.rhs, hi.map⟩
  · intro x
    simp only [Op.misses]
    exact List.map_congr_left (fun l hl => by rw [(hen l hl).1, (hen l hl).2])

theorem MadeBy.fcasMaxAvail_priced (h : MadeBy ops m) {ls : List Lim} {c : ℚ} (ho : Op.fcasMaxAvail ls (some (.num c)) ∈ ops) (hc : 0 ≤ c) :
    ∃ n, Priced m ops (.fcasMaxAvail ls (some (.num c))) ⟨.fcasMaxAvail, .num c, n⟩ := by
  have hi := h.inForce ho
  obtain ⟨m1, i1, _⟩ := apart_before (op := .fcasMaxAvail ls (some (.num c))) rfl hi (by simp)
  have hen := (fcasMaxAvail_imposed i1).choose_spec.2
  refine priced_limits h.wf (op := .fcasMaxAvail ls (some (.num c))) rfl hi (by simp) rfl hc (ls := ls)
    (T := fun n => (createConstraints ls n .le).2) ?_ (fun n x i l hl => unitLhs_limit h.wf ls n .le x hl
      (by simp [Market.side, (hen l (List.mem_of_getElem? hl)).1])) ?_
  · intro m1 i1 hb
    obtain ⟨n, hi, _⟩ := fcasMaxAvail_imposed i1
    exact ⟨n, hi.rhs, hi.map⟩
  · intro x
    rfl

theorem rightEdge_eq (t : Trap) (q : ℚ) : t.rightEdge q = t.emax - t.upperCoef * q := by
  unfold Trap.rightEdge Trap.upperCoef
  ring

theorem leftEdge_eq (t : Trap) (q : ℚ) : t.leftEdge q = t.emin + t.lowerCoef * q := by
  unfold Trap.leftEdge Trap.lowerCoef
  ring

/-- two blocks of trapezium rows with a violation cost -/
theorem priced_blocks (hw : WF m) {os : List Op} {op op1 : Op} {k : CKey} {c : ℚ} (h : op.apart = some (op1, k, .num c))
    (hi : InForce op m) (hne : op ≠ .generic [] (some (.num c))) (hk : k.isUnit = true) (hc : 0 ≤ c) {ts : List Trap}
    {f g : Nat → Trap → List ConUnit} (hf : ∀ i t c, c ∈ f i t → c.cid = i) (hg : ∀ i t c, c ∈ g i t → c.cid = i)
    (ht : ∀ m1, InForce op1 m1 → m.bidi = m1.bidi → ∃ n, m1.conRhs.get? k = some (saveIndex ts n (fun i t => ({ cid := i, ctype := .le, rhs := t.emax } : Row)) ++
        saveIndex ts (n + ts.length) (fun i t => ({ cid := i, ctype := .ge, rhs := t.emin } : Row))) ∧
      m1.unitCon.get? k = some ((saveIndex ts n f).flatten ++ (saveIndex ts (n + ts.length) g).flatten))
    {U L : (Nat → ℚ) → Trap → ℚ} (hF : ∀ x, op.misses m os x = ts.map (fun t => (c, U x t)) ++ ts.map (fun t => (c, L x t)))
    (hU : ∀ x i, ∀ t ∈ ts, max 0 (m.entryVal x (f i t) - t.emax) = U x t) (hL : ∀ x i, ∀ t ∈ ts, max 0 (t.emin - m.entryVal x (g i t)) = L x t) :
    ∃ n, Priced m os op ⟨k, .num c, n⟩ := by
  obtain ⟨m1, i1, i2, i3, i4, i5, i6, a, ha, e⟩ := apart_before h hi hne
  obtain ⟨n, t1, t2⟩ := ht m1 i1 i2
  have hes := two_entries ts n f g hf hg
  have hv : ∀ x, ∀ e ∈ (saveIndex ts n (fun i t => (({ cid := i, ctype := .le, rhs := t.emax } : Row), f i t)) ++
        saveIndex ts (n + ts.length) (fun i t => (({ cid := i, ctype := .ge, rhs := t.emin } : Row), g i t))),
      m.unitLhs x ((saveIndex ts n f).flatten ++ (saveIndex ts (n + ts.length) g).flatten) e.1.cid = m.entryVal x e.2 := by
    intro x e he
    unfold Market.unitLhs Market.entryVal
    exact sum_perm (hes.lhs he) _
  refine priced_unit h hi hne hk hw hc (t := (_, _)) (fun _ _ _ _ _ => ⟨i3.trans t1, i4.trans t2⟩) ?_
  intro x
  rw [hF]
  refine forall₂_app (forall₂_index (fun i t hl => ⟨rfl, fun _ => ?_⟩)) (forall₂_index (fun i t hl => ⟨rfl, fun _ => ?_⟩))
  · have := hv x _ (List.mem_append_left _ (mem_saveIndex.2 ⟨i, t, hl, rfl⟩))
    dsimp only at this ⊢
    rw [this]
    exact hU x _ t (List.mem_of_getElem? hl)
  · have := hv x _ (List.mem_append_right _ (mem_saveIndex.2 ⟨i, t, hl, rfl⟩))
    dsimp only at this ⊢
    rw [this]
    exact hL x _ t (List.mem_of_getElem? hl)

theorem MadeBy.jointCapacity_priced (h : MadeBy ops m) {ts : List Trap} {c : ℚ} (ho : Op.jointCapacity ts (some (.num c)) ∈ ops) (hc : 0 ≤ c) :
    ∃ n, Priced m ops (.jointCapacity ts (some (.num c))) ⟨.jointCapacity, .num c, n⟩ := by
  have hb : ∀ t ∈ ts, t.unit ∈ m.bidi → t.dtype = .generator ∧ ¬ m.bidsFor t.unit .lowerReg .load := h.oneWay _ ho
  have hs : ∀ t ∈ ts, t.service ≠ .energy := by
    obtain ⟨m1, i1, _⟩ := apart_before (op := .jointCapacity ts (some (.num c))) rfl (h.inForce ho) (by simp)
    exact fun t ht => not_energy_of_contingency ((jointCapacity_imposed i1).choose_spec.2 t ht).2
  refine priced_blocks h.wf (op := .jointCapacity ts (some (.num c))) rfl (h.inForce ho) (by simp) rfl hc (ts := ts)
    (f := jcUpperMap m.bidi) (g := jcLowerMap m.bidi) (fun i t c => (jcMap_cid).1) (fun i t c => (jcMap_cid).2) ?_ (fun x => rfl) ?_ ?_
  · intro m1 i1 hb
    obtain ⟨n, hi, _⟩ := jointCapacity_imposed i1
    rw [← hb] at hi
    exact ⟨n, hi.rhs, hi.map⟩
  · intro x i t ht
    rw [jcUpper_value h.wf i (hs t ht) (fun hbi => (hb t ht hbi).1), rightEdge_eq]
    congr 1
    ring
  · intro x i t ht
    rw [jcLower_value h.wf i (hs t ht) (hb t ht), leftEdge_eq]
    congr 1
    ring

theorem MadeBy.energyReg_priced (h : MadeBy ops m) {ts : List Trap} {c : ℚ} (ho : Op.energyReg ts (some (.num c)) ∈ ops) (hc : 0 ≤ c) :
    ∃ n, Priced m ops (.energyReg ts (some (.num c))) ⟨.energyReg, .num c, n⟩ := by
  have hs : ∀ t ∈ ts, t.service ≠ .energy := by
    obtain ⟨m1, i1, _⟩ := apart_before (op := .energyReg ts (some (.num c))) rfl (h.inForce ho) (by simp)
    exact fun t ht => not_energy_of_regulation ((energyReg_imposed i1).choose_spec.2 t ht).2
  refine priced_blocks h.wf (op := .energyReg ts (some (.num c))) rfl (h.inForce ho) (by simp) rfl hc (ts := ts)
    (f := fun i t => [(⟨i, t.unit, .energy, t.dtype, 1⟩ : ConUnit), ⟨i, t.unit, t.service, t.dtype, t.upperCoef⟩])
    (g := fun i t => [(⟨i, t.unit, .energy, t.dtype, 1⟩ : ConUnit), ⟨i, t.unit, t.service, t.dtype, -1 * t.lowerCoef⟩])
    (fun i t c hc => by simp at hc; rcases hc with rfl | rfl <;> rfl) (fun i t c hc => by simp at hc; rcases hc with rfl | rfl <;> rfl)
    ?_ (fun x => rfl) ?_ ?_
  · intro m1 i1 hb
    obtain ⟨n, hi, _⟩ := energyReg_imposed i1
    exact ⟨n, hi.rhs, hi.map⟩
  · intro x i t ht
    rw [er_value h.wf i (hs t ht), rightEdge_eq]
    congr 1
    ring
  · intro x i t ht
    rw [er_value h.wf i (hs t ht), leftEdge_eq]
    congr 1
    ring

theorem MadeBy.demand_priced (h : MadeBy ops m) {ds : List Demand} {c : ℚ} (ho : Op.demand ds (some (.num c)) ∈ ops) (hc : 0 ≤ c) :
    ∃ n, Priced m ops (.demand ds (some (.num c))) ⟨.demand, .num c, n⟩ := by
  have hi := h.inForce ho
  obtain ⟨m1, i1, i2, i3, i4, i5, i6, a, ha, e⟩ := apart_before (op := .demand ds (some (.num c))) rfl hi (by simp)
  obtain ⟨n, hreg⟩ := demand_imposed i1
  have t1 := i5.trans hreg.rhs
  have t2 := i6.trans hreg.map
  have hr : m.rowsOf .demand = some (energyConstraints ds n).1 := by unfold Market.rowsOf; rw [t1]
  refine priced_of (op := .demand ds (some (.num c))) rfl hi (by simp) trivial hr
    ((apart_nonempty (op := .demand ds (some (.num c))) rfl (by simp) ha).2 rfl (by rw [← e]; exact hreg.rhs)) ?_
  intro x
  refine forall₂_index (fun i d hd => ⟨rfl, hc, ?_⟩)
  unfold Market.rowViolation
  dsimp only
  rw [originalLhs_demand hi.demandSet h.wf t1 t2 h.lossFunctions h.proper x hd]
  rfl

theorem MadeBy.fcas_priced (h : MadeBy ops m) {rs : List FcasReq} {vc : VCost} (ho : Op.fcasReq rs (some vc) ∈ ops)
    (hc : vc.covers (rs.map FcasReq.set)) (hs : ∀ r ∈ rs, r.service ≠ .energy) :
    ∃ n, Priced m ops (.fcasReq rs (some vc)) ⟨.fcas, vc, n⟩ := by
  have hi := h.inForce ho
  obtain ⟨m1, i1, i2, i3, i4, i5, i6, a, ha, e⟩ := apart_before (op := .fcasReq rs (some vc)) rfl hi (by simp)
  obtain ⟨n, hreg⟩ := fcas_imposed i1
  have t1 := i5.trans hreg.rhs
  have t2 := i6.trans hreg.map
  have hr : m.rowsOf .fcas = some (fcasConstraints rs n).1 := by unfold Market.rowsOf; rw [t1]
  refine priced_of (op := .fcasReq rs (some vc)) rfl hi (by simp) hc.1 hr
    ((apart_nonempty (op := .fcasReq rs (some vc)) rfl (by simp) ha).2 rfl (by rw [← e]; exact hreg.rhs)) ?_
  intro x
  refine forall₂_index (fun i d hd => ?_)
  obtain ⟨pre, post, ers, _⟩ := mem_dropDup_first.1 (List.mem_of_getElem? hd)
  obtain ⟨p, hp, h0⟩ := hc.2 d.set (List.mem_map_of_mem (by rw [ers]; simp))
  rw [forSet_of (s := d.set) rfl, hp]
  refine ⟨rfl, h0, ?_⟩
  unfold Market.rowViolation
  dsimp only
  rw [originalLhs_fcas h.wf t1 t2 hs h.lossFunctions x hd]

theorem MadeBy.generic_priced (h : MadeBy ops m) {gs : List GenericRow} {vc : VCost} (ho : Op.generic gs (some vc) ∈ ops)
    (hc : vc.covers (gs.map GenericRow.set)) (hs : gs ≠ []) :
    ∃ n, Priced m ops (.generic gs (some vc)) ⟨.generic, vc, n⟩ := by
  have hi := h.inForce ho
  have hne : Op.generic gs (some vc) ≠ .generic [] (some vc) := by simpa using hs
  obtain ⟨m1, i1, i2, i3, i4, i5, i6, a, ha, e⟩ := apart_before (op := .generic gs (some vc)) rfl hi hne
  obtain ⟨n, _, hreg, _⟩ := generic_rows i1
  have t1 := i3.trans hreg
  have hr : m.rowsOf .generic = some (saveIndex gs n (fun i g => ({ cid := i, ctype := g.ctype, rhs := g.rhs, set := some g.set } : Row))) := by
    unfold Market.rowsOf; rw [noMkt h.wf (k := .generic) rfl]; exact t1
  refine priced_of (op := .generic gs (some vc)) rfl hi hne hc.1 hr
    ((apart_nonempty (op := .generic gs (some vc)) rfl hne ha).1 rfl (by rw [← e]; exact hreg)) ?_
  intro x
  refine forall₂_index (fun i d hd => ?_)
  obtain ⟨p, hp, h0⟩ := hc.2 d.set (List.mem_map_of_mem (List.mem_of_getElem? hd))
  rw [forSet_of (s := d.set) rfl, hp]
  refine ⟨rfl, h0, ?_⟩
  have := originalLhs_generic h.wf t1 (mem_saveIndex.2 ⟨i, d, hd, rfl⟩) rfl x
  unfold Market.rowViolation
  dsimp only at this ⊢
  rw [this]

/-- every call with a violation cost is a list of elastic sets with prices -/
theorem MadeBy.pricedBy (h : MadeBy ops m) {op : Op} (ho : op ∈ ops) (hl : op.lax) : ∃ L, PricedBy m ops op L := by
  unfold Op.lax at hl
  split at hl
  · exact ⟨_, (h.capacity_priced ho hl).choose_spec.by⟩
  · exact ⟨_, (h.uigf_priced ho hl).choose_spec.by⟩
  · exact ⟨_, (h.fcasMaxAvail_priced ho hl).choose_spec.by⟩
  · exact ⟨_, (h.demand_priced ho hl).choose_spec.by⟩
  · exact ⟨_, (h.jointCapacity_priced ho hl.1).choose_spec.by⟩
  · exact ⟨_, (h.energyReg_priced ho hl.1).choose_spec.by⟩
  · exact h.ramp_priced ho hl
  · exact h.fastStart_priced ho hl
  · exact h.jr_priced ho hl
  · exact ⟨_, (h.fcas_priced ho hl.1 hl.2).choose_spec.by⟩
  · exact ⟨_, (h.generic_priced ho hl.1 hl.2).choose_spec.by⟩
  · exact h.tie_priced ho hl
  · exact hl.elim

end Verif
