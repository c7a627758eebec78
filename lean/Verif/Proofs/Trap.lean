import Verif.Proofs.Blocks
import Verif.Spec.Trap

/-! Joint capacity and energy and regulation capacity constraints. -/

namespace Verif

theorem two_entries (ts : List Trap) (n : Nat) (f g : Nat → Trap → List ConUnit)
    (hf : ∀ i t c, c ∈ f i t → c.cid = i) (hg : ∀ i t c, c ∈ g i t → c.cid = i) :
    Entries (saveIndex ts n (fun i t => ({ cid := i, ctype := .le, rhs := t.emax } : Row)) ++
        saveIndex ts (n + ts.length) (fun i t => ({ cid := i, ctype := .ge, rhs := t.emin } : Row)),
      (saveIndex ts n f).flatten ++ (saveIndex ts (n + ts.length) g).flatten)
      (saveIndex ts n (fun i t => (({ cid := i, ctype := .le, rhs := t.emax } : Row), f i t)) ++
        saveIndex ts (n + ts.length) (fun i t => (({ cid := i, ctype := .ge, rhs := t.emin } : Row), g i t))) where
  rows := by simp only [List.map_append, map_saveIndex]; exact List.Perm.refl _
  maps := by simp only [List.flatMap_append, flatMap_saveIndex]; exact List.Perm.refl _
  own := by
    intro e he c hc
    rcases List.mem_append.1 he with h | h <;> obtain ⟨i, t, _, rfl⟩ := mem_saveIndex.1 h
    · exact hf _ _ _ hc
    · exact hg _ _ _ hc
  nodup := by
    simp only [List.map_append, map_saveIndex, saveIndex_ids]
    rw [List.nodup_append]
    refine ⟨nodup_range' _ _, nodup_range' _ _, ?_⟩
    intro a ha b hb
    simp only [List.mem_range'_1] at ha hb
    omega

/-- both blocks of constraints in terms of the inputs -/
theorem two_blocks_iff {m : Market} {k : CKey} {ts : List Trap} {n : Nat} {f g : Nat → Trap → List ConUnit}
    (hf : ∀ i t c, c ∈ f i t → c.cid = i) (hg : ∀ i t c, c ∈ g i t → c.cid = i)
    (h : Imposed m k (saveIndex ts n (fun i t => ({ cid := i, ctype := .le, rhs := t.emax } : Row)) ++
        saveIndex ts (n + ts.length) (fun i t => ({ cid := i, ctype := .ge, rhs := t.emin } : Row)),
      (saveIndex ts n f).flatten ++ (saveIndex ts (n + ts.length) g).flatten))
    {lp : Lp} (hl : m.assemble = .ok lp) {x : Nat → ℚ} {U L : Trap → Prop}
    (hU : ∀ i, ∀ t ∈ ts, ((∃ c ∈ f i t, m.lists c.unit c.dtype ∧ m.bidsFor c.unit c.service c.dtype) →
      m.entryVal x (f i t) ≤ t.emax) ↔ U t)
    (hL : ∀ i, ∀ t ∈ ts, ((∃ c ∈ g i t, m.lists c.unit c.dtype ∧ m.bidsFor c.unit c.service c.dtype) →
      t.emin ≤ m.entryVal x (g i t)) ↔ L t) :
    m.obeys lp x k ↔ ∀ t ∈ ts, U t ∧ L t := by
  rw [h.entries_iff (two_entries ts n f g hf hg) hl]
  simp only [List.mem_append, or_imp, forall_and]
  rw [forall_saveIndex (rows := ts) (n := n) (Q := U) (P := fun e => (∃ c ∈ e.2, m.lists c.unit c.dtype ∧ m.bidsFor c.unit c.service c.dtype) →
        e.1.ctype.holds (m.entryVal x e.2) e.1.rhs)
      (f := fun i t => (({ cid := i, ctype := .le, rhs := t.emax } : Row), f i t)) hU,
    forall_saveIndex (rows := ts) (n := n + ts.length) (Q := L) (P := fun e => (∃ c ∈ e.2, m.lists c.unit c.dtype ∧ m.bidsFor c.unit c.service c.dtype) →
        e.1.ctype.holds (m.entryVal x e.2) e.1.rhs)
      (f := fun i t => (({ cid := i, ctype := .ge, rhs := t.emin } : Row), g i t)) hL]

/-- the constraints of one trapezium -/
theorem two_blocks_mp {m : Market} {k : CKey} {ts : List Trap} {n : Nat} {f g : Nat → Trap → List ConUnit}
    (hf : ∀ i t c, c ∈ f i t → c.cid = i) (hg : ∀ i t c, c ∈ g i t → c.cid = i)
    (h : Imposed m k (saveIndex ts n (fun i t => ({ cid := i, ctype := .le, rhs := t.emax } : Row)) ++
        saveIndex ts (n + ts.length) (fun i t => ({ cid := i, ctype := .ge, rhs := t.emin } : Row)),
      (saveIndex ts n f).flatten ++ (saveIndex ts (n + ts.length) g).flatten))
    {lp : Lp} (hl : m.assemble = .ok lp) {x : Nat → ℚ} (hx : m.obeys lp x k) {t : Trap} (ht : t ∈ ts) :
    ∃ i j, ((∃ c ∈ f i t, m.lists c.unit c.dtype ∧ m.bidsFor c.unit c.service c.dtype) →
      m.entryVal x (f i t) ≤ t.emax) ∧
      ((∃ c ∈ g j t, m.lists c.unit c.dtype ∧ m.bidsFor c.unit c.service c.dtype) →
      t.emin ≤ m.entryVal x (g j t)) := by
  rw [h.entries_iff (two_entries ts n f g hf hg) hl] at hx
  obtain ⟨i, _, h1⟩ := mem_saveIndex' ht n (fun i t => (({ cid := i, ctype := .le, rhs := t.emax } : Row), f i t))
  obtain ⟨j, _, h2⟩ := mem_saveIndex' ht (n + ts.length) (fun i t => (({ cid := i, ctype := .ge, rhs := t.emin } : Row), g i t))
  exact ⟨_, _, hx _ (List.mem_append_left _ h1), hx _ (List.mem_append_right _ h2)⟩

theorem right_edge_iff {t : Trap} (_ : 0 < t.maxAvail) (e q : ℚ) :
    e + t.upperCoef * q ≤ t.emax ↔ e ≤ t.rightEdge q := by
  have : t.rightEdge q = t.emax - t.upperCoef * q := by
    unfold Trap.rightEdge Trap.upperCoef
    ring
  rw [this]
  constructor <;> intro h <;> linarith

theorem left_edge_iff {t : Trap} (_ : 0 < t.maxAvail) (e q : ℚ) :
    t.emin ≤ e - t.lowerCoef * q ↔ t.leftEdge q ≤ e := by
  have : t.leftEdge q = t.emin + t.lowerCoef * q := by
    unfold Trap.leftEdge Trap.lowerCoef
    ring
  rw [this]
  constructor <;> intro h <;> linarith

theorem mapVal_not_bidi {m : Market} (hw : WF m) {u : String} {d : DType} (hb : u ∉ m.bidi) (hl : m.lists u d)
    (s : Service) (x : Nat → ℚ) : m.mapVal x u s d = m.dispatched x u s d := by
  rw [mapVal_eq hw hl, side_of_not_bidi hb, one_mul]

theorem upReg_eq (d : DType) : (if d = .generator then Service.raiseReg else Service.lowerReg) = d.upReg := by
  cases d <;> rfl

theorem downReg_eq (d : DType) : (if d = .generator then Service.lowerReg else Service.raiseReg) = d.downReg := by
  cases d <;> rfl

theorem jointCapacity_imposed {ts : List Trap} {m : Market} (h : InForce (.jointCapacity ts none) m) :
    ∃ n, Imposed m .jointCapacity (jointCapacityConstraints ts m.bidi n) ∧
      ∀ t ∈ ts, 0 ≤ t.maxAvail ∧ t.service.isContingency = true := by
  obtain ⟨a, ha, hm, hn, hok, hb, hs⟩ := step_inForce h
  have hs : SameSet .jointCapacity _ m := hs (.set .jointCapacity) (by simp [Op.parts])
  have hbi : m.bidi = a.bidi := by unfold Market.bidi; rw [hb.2.1]
  rw [hbi]
  simp only [Market.step, hn, Market.setJointCapacity, Bool.false_eq_true, if_false] at hok hs
  by_cases c1 : (!a.trapsOk ts Service.isContingency) = true
  · rw [if_pos c1] at hok; simp at hok
  rw [if_neg c1] at hok hs
  by_cases c2 : ts.isEmpty = true
  · rw [if_pos c2] at hok; simp at hok
  rw [if_neg c2] at hok hs
  obtain ⟨_, he⟩ := andThen_ok hok
  rw [he] at hs
  refine ⟨a.nextCon, imposed_of ha.con hm rfl (freshUnit_jointCapacity _ _ _) hs, ?_⟩
  simp only [Bool.not_eq_true', Bool.not_eq_false, Market.trapsOk, Bool.and_eq_true, List.all_eq_true, decide_eq_true_eq] at c1
  exact fun t ht => ⟨(c1.1 t ht).1.2, (c1.1 t ht).2⟩

theorem energyReg_imposed {ts : List Trap} {m : Market} (h : InForce (.energyReg ts none) m) :
    ∃ n, Imposed m .energyReg (energyRegConstraints ts n) ∧
      ∀ t ∈ ts, 0 ≤ t.maxAvail ∧ t.service.isRegulation = true := by
  obtain ⟨a, ha, hm, hn, hok, hb, hs⟩ := step_inForce h
  have hs : SameSet .energyReg _ m := hs (.set .energyReg) (by simp [Op.parts])
  simp only [Market.step, hn, Market.setEnergyReg, Bool.false_eq_true, if_false] at hok hs
  by_cases c1 : (!a.trapsOk ts Service.isRegulation) = true
  · rw [if_pos c1] at hok; simp at hok
  rw [if_neg c1] at hok hs
  by_cases c2 : ts.isEmpty = true
  · rw [if_pos c2] at hok; simp at hok
  rw [if_neg c2] at hok hs
  obtain ⟨_, he⟩ := andThen_ok hok
  rw [he] at hs
  refine ⟨a.nextCon, imposed_of ha.con hm rfl (freshUnit_energyReg _ _) hs, ?_⟩
  simp only [Bool.not_eq_true', Bool.not_eq_false, Market.trapsOk, Bool.and_eq_true, List.all_eq_true, decide_eq_true_eq] at c1
  exact fun t ht => ⟨(c1.1 t ht).1.2, (c1.1 t ht).2⟩

theorem jcUpper_iff {m : Market} (hw : WF m) {x : Nat → ℚ} {i : Nat} {t : Trap} (hb : t.unit ∉ m.bidi) (hp : 0 < t.maxAvail) :
    ((∃ c ∈ jcUpperMap m.bidi i t, m.lists c.unit c.dtype ∧ m.bidsFor c.unit c.service c.dtype) →
      m.entryVal x (jcUpperMap m.bidi i t) ≤ t.emax) ↔
    (m.lists t.unit t.dtype → (m.bidsFor t.unit .energy t.dtype ∨ m.bidsFor t.unit t.service t.dtype ∨ m.bidsFor t.unit t.dtype.upReg t.dtype) →
        m.dispatched x t.unit .energy t.dtype + m.dispatched x t.unit t.dtype.upReg t.dtype ≤
          t.rightEdge (m.dispatched x t.unit t.service t.dtype)) := by
  simp only [jcUpperMap, if_neg hb, List.append_nil, List.mem_cons, List.not_mem_nil, or_false, upReg_eq]
  constructor
  · intro ha hls hbid
    have := ha (by
      rcases hbid with hbid | hbid | hbid
      · exact ⟨_, Or.inl rfl, hls, hbid⟩
      · exact ⟨_, Or.inr (Or.inl rfl), hls, hbid⟩
      · exact ⟨_, Or.inr (Or.inr rfl), hls, hbid⟩)
    rw [← right_edge_iff hp]
    simp only [Market.entryVal, List.map_cons, List.map_nil, List.sum_cons, List.sum_nil, mapVal_not_bidi hw hb hls] at this
    linarith
  · rintro ha ⟨c, hc, hls, hbid⟩
    have hcu : c.unit = t.unit ∧ c.dtype = t.dtype := by rcases hc with rfl | rfl | rfl <;> exact ⟨rfl, rfl⟩
    rw [hcu.1, hcu.2] at hls
    have := ha hls (by
      rcases hc with rfl | rfl | rfl
      · exact Or.inl hbid
      · exact Or.inr (Or.inl hbid)
      · exact Or.inr (Or.inr hbid))
    rw [← right_edge_iff hp] at this
    simp only [Market.entryVal, List.map_cons, List.map_nil, List.sum_cons, List.sum_nil, mapVal_not_bidi hw hb hls]
    linarith

theorem jcLower_iff {m : Market} (hw : WF m) {x : Nat → ℚ} {i : Nat} {t : Trap} (hb : t.unit ∉ m.bidi) (hp : 0 < t.maxAvail) :
    ((∃ c ∈ jcLowerMap m.bidi i t, m.lists c.unit c.dtype ∧ m.bidsFor c.unit c.service c.dtype) →
      t.emin ≤ m.entryVal x (jcLowerMap m.bidi i t)) ↔
    (m.lists t.unit t.dtype → (m.bidsFor t.unit .energy t.dtype ∨ m.bidsFor t.unit t.service t.dtype ∨ m.bidsFor t.unit t.dtype.downReg t.dtype) →
        t.leftEdge (m.dispatched x t.unit t.service t.dtype) ≤
          m.dispatched x t.unit .energy t.dtype - m.dispatched x t.unit t.dtype.downReg t.dtype) := by
  simp only [jcLowerMap, if_neg hb, List.append_nil, List.mem_cons, List.not_mem_nil, or_false, downReg_eq]
  constructor
  · intro ha hls hbid
    have := ha (by
      rcases hbid with hbid | hbid | hbid
      · exact ⟨_, Or.inl rfl, hls, hbid⟩
      · exact ⟨_, Or.inr (Or.inl rfl), hls, hbid⟩
      · exact ⟨_, Or.inr (Or.inr rfl), hls, hbid⟩)
    rw [← left_edge_iff hp]
    simp only [Market.entryVal, List.map_cons, List.map_nil, List.sum_cons, List.sum_nil, mapVal_not_bidi hw hb hls] at this
    linarith
  · rintro ha ⟨c, hc, hls, hbid⟩
    have hcu : c.unit = t.unit ∧ c.dtype = t.dtype := by rcases hc with rfl | rfl | rfl <;> exact ⟨rfl, rfl⟩
    rw [hcu.1, hcu.2] at hls
    have := ha hls (by
      rcases hc with rfl | rfl | rfl
      · exact Or.inl hbid
      · exact Or.inr (Or.inl hbid)
      · exact Or.inr (Or.inr hbid))
    rw [← left_edge_iff hp] at this
    simp only [Market.entryVal, List.map_cons, List.map_nil, List.sum_cons, List.sum_nil, mapVal_not_bidi hw hb hls]
    linarith

/-- net position of a bidirectional unit in the upper slope constraint of a generator trapezium, and in the
lower slope constraint as the code builds it -/
theorem jointCapacity_bidi {ts : List Trap} {m : Market} {n : Nat}
    (h : Imposed m .jointCapacity (jointCapacityConstraints ts m.bidi n)) {lp : Lp} (hl : m.assemble = .ok lp) {x : Nat → ℚ}
    (hx : m.obeys lp x .jointCapacity) {t : Trap} (ht : t ∈ ts) (hb : t.unit ∈ m.bidi) (hd : t.dtype = .generator)
    (hp : 0 < t.maxAvail) (hbid : m.bidsFor t.unit .energy .generator ∨ m.bidsFor t.unit t.service .generator)
    (hs : t.service ≠ .energy) :
    m.netOutput x t.unit + (m.dispatched x t.unit .raiseReg .generator + m.dispatched x t.unit .raiseReg .load) ≤
      t.rightEdge (m.dispatched x t.unit t.service .generator) ∧
    t.leftEdge (m.dispatched x t.unit t.service .generator) ≤
      m.netOutput x t.unit - m.dispatched x t.unit .lowerReg .generator + m.dispatched x t.unit .lowerReg .load := by
  obtain ⟨i, j, k1, k2⟩ := two_blocks_mp (fun i t c => (jcMap_cid).1) (fun i t c => (jcMap_cid).2) h hl hx ht
  have hg := bidi_lists h.wf hb .generator
  have hld := bidi_lists h.wf hb .load
  have k1 := k1 (by
    rcases hbid with hbid | hbid
    · exact ⟨⟨i, t.unit, .energy, t.dtype, 1⟩, by simp [jcUpperMap], by rw [hd]; exact hg, by rw [hd]; exact hbid⟩
    · exact ⟨⟨i, t.unit, t.service, t.dtype, t.upperCoef⟩, by simp [jcUpperMap], by rw [hd]; exact hg, by rw [hd]; exact hbid⟩)
  have k2 := k2 (by
    rcases hbid with hbid | hbid
    · exact ⟨⟨j, t.unit, .energy, t.dtype, 1⟩, by simp [jcLowerMap], by rw [hd]; exact hg, by rw [hd]; exact hbid⟩
    · exact ⟨⟨j, t.unit, t.service, t.dtype, -1 * t.lowerCoef⟩, by simp [jcLowerMap], by rw [hd]; exact hg, by rw [hd]; exact hbid⟩)
  rw [← right_edge_iff hp, ← left_edge_iff hp]
  simp only [Market.entryVal, jcUpperMap, jcLowerMap, hd, hb, if_true, List.cons_append, List.nil_append, List.map_cons, List.map_nil,
    List.sum_cons, List.sum_nil, mapVal_eq h.wf hg, mapVal_eq h.wf hld, Market.side] at k1 k2
  simp only [and_true, and_self, if_true, hs, and_false, if_false, reduceCtorEq] at k1 k2
  unfold Market.netOutput
  constructor <;> linarith

/-- the constraints of a trapezium of the load side of a bidirectional unit as the code builds them -/
theorem jointCapacity_bidi_load {ts : List Trap} {m : Market} {n : Nat}
    (h : Imposed m .jointCapacity (jointCapacityConstraints ts m.bidi n)) {lp : Lp} (hl : m.assemble = .ok lp) {x : Nat → ℚ}
    (hx : m.obeys lp x .jointCapacity) {t : Trap} (ht : t ∈ ts) (hb : t.unit ∈ m.bidi) (hd : t.dtype = .load)
    (hp : 0 < t.maxAvail) (hbid : m.bidsFor t.unit .energy .load ∨ m.bidsFor t.unit t.service .load)
    (hs : t.service ≠ .energy) :
    -(2 * m.dispatched x t.unit .energy .load) + 2 * m.dispatched x t.unit .lowerReg .load ≤
      t.rightEdge (m.dispatched x t.unit t.service .load) ∧
    t.leftEdge (m.dispatched x t.unit t.service .load) ≤ -(2 * m.dispatched x t.unit .energy .load) := by
  obtain ⟨i, j, k1, k2⟩ := two_blocks_mp (fun i t c => (jcMap_cid).1) (fun i t c => (jcMap_cid).2) h hl hx ht
  have hld := bidi_lists h.wf hb .load
  have k1 := k1 (by
    rcases hbid with hbid | hbid
    · exact ⟨⟨i, t.unit, .energy, t.dtype, 1⟩, by simp [jcUpperMap], by rw [hd]; exact hld, by rw [hd]; exact hbid⟩
    · exact ⟨⟨i, t.unit, t.service, t.dtype, t.upperCoef⟩, by simp [jcUpperMap], by rw [hd]; exact hld, by rw [hd]; exact hbid⟩)
  have k2 := k2 (by
    rcases hbid with hbid | hbid
    · exact ⟨⟨j, t.unit, .energy, t.dtype, 1⟩, by simp [jcLowerMap], by rw [hd]; exact hld, by rw [hd]; exact hbid⟩
    · exact ⟨⟨j, t.unit, t.service, t.dtype, -1 * t.lowerCoef⟩, by simp [jcLowerMap], by rw [hd]; exact hld, by rw [hd]; exact hbid⟩)
  rw [← right_edge_iff hp, ← left_edge_iff hp]
  simp only [Market.entryVal, jcUpperMap, jcLowerMap, hd, hb, if_true, List.cons_append, List.nil_append, List.map_cons, List.map_nil,
    List.sum_cons, List.sum_nil, mapVal_eq h.wf hld, Market.side] at k1 k2
  simp only [and_true, and_self, if_true, hs, and_false, if_false, reduceCtorEq] at k1 k2
  constructor <;> linarith

theorem erUpper_iff {m : Market} (hw : WF m) {x : Nat → ℚ} {i : Nat} {t : Trap} (hb : t.unit ∉ m.bidi) (hp : 0 < t.maxAvail) :
    ((∃ c ∈ [(⟨i, t.unit, .energy, t.dtype, 1⟩ : ConUnit), ⟨i, t.unit, t.service, t.dtype, t.upperCoef⟩],
        m.lists c.unit c.dtype ∧ m.bidsFor c.unit c.service c.dtype) →
      m.entryVal x [(⟨i, t.unit, .energy, t.dtype, 1⟩ : ConUnit), ⟨i, t.unit, t.service, t.dtype, t.upperCoef⟩] ≤ t.emax) ↔
    (m.lists t.unit t.dtype → (m.bidsFor t.unit .energy t.dtype ∨ m.bidsFor t.unit t.service t.dtype) →
        m.dispatched x t.unit .energy t.dtype ≤ t.rightEdge (m.dispatched x t.unit t.service t.dtype)) := by
  simp only [List.mem_cons, List.not_mem_nil, or_false]
  constructor
  · intro ha hls hbid
    have := ha (by
      rcases hbid with hbid | hbid
      · exact ⟨_, Or.inl rfl, hls, hbid⟩
      · exact ⟨_, Or.inr rfl, hls, hbid⟩)
    rw [← right_edge_iff hp]
    simp only [Market.entryVal, List.map_cons, List.map_nil, List.sum_cons, List.sum_nil, mapVal_not_bidi hw hb hls] at this
    linarith
  · rintro ha ⟨c, hc, hls, hbid⟩
    have hcu : c.unit = t.unit ∧ c.dtype = t.dtype := by rcases hc with rfl | rfl <;> exact ⟨rfl, rfl⟩
    rw [hcu.1, hcu.2] at hls
    have := ha hls (by
      rcases hc with rfl | rfl
      · exact Or.inl hbid
      · exact Or.inr hbid)
    rw [← right_edge_iff hp] at this
    simp only [Market.entryVal, List.map_cons, List.map_nil, List.sum_cons, List.sum_nil, mapVal_not_bidi hw hb hls]
    linarith

theorem erLower_iff {m : Market} (hw : WF m) {x : Nat → ℚ} {i : Nat} {t : Trap} (hb : t.unit ∉ m.bidi) (hp : 0 < t.maxAvail) :
    ((∃ c ∈ [(⟨i, t.unit, .energy, t.dtype, 1⟩ : ConUnit), ⟨i, t.unit, t.service, t.dtype, -1 * t.lowerCoef⟩],
        m.lists c.unit c.dtype ∧ m.bidsFor c.unit c.service c.dtype) →
      t.emin ≤ m.entryVal x [(⟨i, t.unit, .energy, t.dtype, 1⟩ : ConUnit), ⟨i, t.unit, t.service, t.dtype, -1 * t.lowerCoef⟩]) ↔
    (m.lists t.unit t.dtype → (m.bidsFor t.unit .energy t.dtype ∨ m.bidsFor t.unit t.service t.dtype) →
        t.leftEdge (m.dispatched x t.unit t.service t.dtype) ≤ m.dispatched x t.unit .energy t.dtype) := by
  simp only [List.mem_cons, List.not_mem_nil, or_false]
  constructor
  · intro ha hls hbid
    have := ha (by
      rcases hbid with hbid | hbid
      · exact ⟨_, Or.inl rfl, hls, hbid⟩
      · exact ⟨_, Or.inr rfl, hls, hbid⟩)
    rw [← left_edge_iff hp]
    simp only [Market.entryVal, List.map_cons, List.map_nil, List.sum_cons, List.sum_nil, mapVal_not_bidi hw hb hls] at this
    linarith
  · rintro ha ⟨c, hc, hls, hbid⟩
    have hcu : c.unit = t.unit ∧ c.dtype = t.dtype := by rcases hc with rfl | rfl <;> exact ⟨rfl, rfl⟩
    rw [hcu.1, hcu.2] at hls
    have := ha hls (by
      rcases hc with rfl | rfl
      · exact Or.inl hbid
      · exact Or.inr hbid)
    rw [← left_edge_iff hp] at this
    simp only [Market.entryVal, List.map_cons, List.map_nil, List.sum_cons, List.sum_nil, mapVal_not_bidi hw hb hls]
    linarith

/-- one trapezium of an energy and regulation capacity call, any unit: sides with their signs -/
theorem energyReg_one {ts : List Trap} {m : Market} {n : Nat}
    (h : Imposed m .energyReg (energyRegConstraints ts n)) {lp : Lp} (hl : m.assemble = .ok lp) {x : Nat → ℚ}
    (hx : m.obeys lp x .energyReg) {t : Trap} (ht : t ∈ ts) (hp : 0 < t.maxAvail) (hls : m.lists t.unit t.dtype)
    (hbid : m.bidsFor t.unit .energy t.dtype ∨ m.bidsFor t.unit t.service t.dtype) (hs : t.service ≠ .energy) :
    t.leftEdge (m.dispatched x t.unit t.service t.dtype) ≤ m.side t.unit .energy t.dtype * m.dispatched x t.unit .energy t.dtype ∧
    m.side t.unit .energy t.dtype * m.dispatched x t.unit .energy t.dtype ≤ t.rightEdge (m.dispatched x t.unit t.service t.dtype) := by
  obtain ⟨i, j, k1, k2⟩ := two_blocks_mp (fun i t c hc => by
      simp only [List.mem_cons, List.not_mem_nil, or_false] at hc; rcases hc with rfl | rfl <;> rfl)
    (fun i t c hc => by
      simp only [List.mem_cons, List.not_mem_nil, or_false] at hc; rcases hc with rfl | rfl <;> rfl) h hl hx ht
  have k1 := k1 (by
    rcases hbid with hbid | hbid
    · exact ⟨⟨i, t.unit, .energy, t.dtype, 1⟩, by simp, hls, hbid⟩
    · exact ⟨⟨i, t.unit, t.service, t.dtype, t.upperCoef⟩, by simp, hls, hbid⟩)
  have k2 := k2 (by
    rcases hbid with hbid | hbid
    · exact ⟨⟨j, t.unit, .energy, t.dtype, 1⟩, by simp, hls, hbid⟩
    · exact ⟨⟨j, t.unit, t.service, t.dtype, -1 * t.lowerCoef⟩, by simp, hls, hbid⟩)
  rw [← right_edge_iff hp, ← left_edge_iff hp]
  simp only [Market.entryVal, List.map_cons, List.map_nil, List.sum_cons, List.sum_nil, mapVal_eq h.wf hls] at k1 k2
  have e : m.side t.unit t.service t.dtype = 1 := by simp [Market.side, hs]
  rw [e] at k1 k2
  constructor <;> linarith

end Verif
