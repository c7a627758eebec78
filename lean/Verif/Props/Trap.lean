import Verif.Proofs.Trap
import Verif.Proofs.Bids
import Verif.Props.Limits

/-!
# C17, C18: FCAS enablement stays inside the trapezium

`Trap.inside`, `Trap.leftEdge`, `Trap.rightEdge`, `upReg` and `downReg` are in `Verif/Spec/Trap.lean`.
Trapeziums with a maximum availability of 0 are excluded: the Python divides by it.
-/

namespace Verif

/-- **C17**, exact form for units that are not bidirectional: the joint capacity constraints of the program say
that energy dispatch plus (minus) the regulation that moves it up (down) is between the edges of the trapezium
at the contingency enablement, and nothing else. -/
theorem C17_joint_capacity_exact {ts : List Trap} {m : Market} (h : InForce (.jointCapacity ts none) m)
    (hb : ∀ t ∈ ts, t.unit ∉ m.bidi) (hp : ∀ t ∈ ts, 0 < t.maxAvail) {lp : Lp} (hl : m.assemble = .ok lp) {x : Nat → ℚ} :
    m.obeys lp x .jointCapacity ↔ ∀ t ∈ ts,
      (m.lists t.unit t.dtype → (m.bidsFor t.unit .energy t.dtype ∨ m.bidsFor t.unit t.service t.dtype ∨
          m.bidsFor t.unit t.dtype.upReg t.dtype) →
        m.dispatched x t.unit .energy t.dtype + m.dispatched x t.unit t.dtype.upReg t.dtype ≤
          t.rightEdge (m.dispatched x t.unit t.service t.dtype)) ∧
      (m.lists t.unit t.dtype → (m.bidsFor t.unit .energy t.dtype ∨ m.bidsFor t.unit t.service t.dtype ∨
          m.bidsFor t.unit t.dtype.downReg t.dtype) →
        t.leftEdge (m.dispatched x t.unit t.service t.dtype) ≤
          m.dispatched x t.unit .energy t.dtype - m.dispatched x t.unit t.dtype.downReg t.dtype) := by
  obtain ⟨n, hi, _⟩ := jointCapacity_imposed h
  exact two_blocks_iff (fun i t c => (jcMap_cid).1) (fun i t c => (jcMap_cid).2) hi hl
    (fun i t ht => jcUpper_iff hi.wf (hb t ht) (hp t ht)) (fun i t ht => jcLower_iff hi.wf (hb t ht) (hp t ht))

/-- **C17** for units that are not bidirectional: with the maximum availability and the joint capacity
constraints in force, the contingency enablement of a unit is inside its trapezium for all energy levels from
the target less the regulation that moves it down to the target plus the regulation that moves it up.
Missing: bidirectional units, for which the lower slope constraint is wrong, see below. -/
theorem C17_contingency_inside_trapezium_partial {ts : List Trap} {ls : List Lim} {m : Market}
    (h : InForce (.jointCapacity ts none) m) (h' : InForce (.fcasMaxAvail ls none) m) {lp : Lp}
    (hl : m.assemble = .ok lp) {x : Nat → ℚ} (hx : Feasible lp x) {t : Trap} (ht : t ∈ ts)
    (hm : { unit := t.unit, service := t.service, dtype := t.dtype, val := t.maxAvail } ∈ ls)
    (hb : t.unit ∉ m.bidi) (hp : 0 < t.maxAvail) (hu : m.lists t.unit t.dtype) (hv : m.bidsFor t.unit t.service t.dtype) :
    t.inside (m.dispatched x t.unit .energy t.dtype - m.dispatched x t.unit t.dtype.downReg t.dtype)
      (m.dispatched x t.unit .energy t.dtype + m.dispatched x t.unit t.dtype.upReg t.dtype)
      (m.dispatched x t.unit t.service t.dtype) := by
  obtain ⟨n, hi, _⟩ := jointCapacity_imposed h
  obtain ⟨i, j, k1, k2⟩ := two_blocks_mp (fun i t c => (jcMap_cid).1) (fun i t c => (jcMap_cid).2) hi hl (hx.obeys m _) ht
  exact ⟨dispatched_nonneg hl hx .., C15_fcas_max_availability h' hl hx hm hu,
    (jcLower_iff hi.wf hb hp).1 k2 hu (Or.inr (Or.inl hv)), (jcUpper_iff hi.wf hb hp).1 k1 hu (Or.inr (Or.inl hv))⟩

/-- **C17** for bidirectional units, the part that is true: the right edge holds for net output plus the raise
regulation of both sides; the left edge holds for net output less the lower regulation of the generator side
only, and only when the lower regulation of the load side is added. -/
theorem C17_bidirectional_edges_partial {ts : List Trap} {m : Market} (h : InForce (.jointCapacity ts none) m) {lp : Lp}
    (hl : m.assemble = .ok lp) {x : Nat → ℚ} (hx : Feasible lp x) {t : Trap} (ht : t ∈ ts) (hb : t.unit ∈ m.bidi)
    (hd : t.dtype = .generator) (hp : 0 < t.maxAvail) (hv : m.bidsFor t.unit t.service .generator) :
    m.netOutput x t.unit + (m.dispatched x t.unit .raiseReg .generator + m.dispatched x t.unit .raiseReg .load) ≤
      t.rightEdge (m.dispatched x t.unit t.service .generator) ∧
    t.leftEdge (m.dispatched x t.unit t.service .generator) ≤
      m.netOutput x t.unit - m.dispatched x t.unit .lowerReg .generator + m.dispatched x t.unit .lowerReg .load := by
  obtain ⟨n, hi, hs⟩ := jointCapacity_imposed h
  refine jointCapacity_bidi hi hl (hx.obeys m _) ht hb hd hp (Or.inr hv) ?_
  intro e
  have := (hs t ht).2
  rw [e] at this; cases this

/-- **C17** fails for bidirectional units: the lower regulation of the load side enters the lower slope
constraint with the wrong sign (`fcas_constraints.py:301`), so a feasible solution can leave the trapezium: a
unit at rest is enabled for 10 MW of lower regulation and 10 MW of lower contingency service although the
trapezium requires 10 MW of net generation for the latter alone. -/
theorem C17_bidirectional_left_edge_fails : ∃ (ts : List Trap) (t : Trap) (m : Market) (lp : Lp) (x : Nat → ℚ),
    InForce (.jointCapacity ts none) m ∧ m.assemble = .ok lp ∧ Feasible lp x ∧ t ∈ ts ∧ t.unit ∈ m.bidi ∧
    t.dtype = .generator ∧ 0 < t.maxAvail ∧ m.bidsFor t.unit t.service .generator ∧
    ¬ t.leftEdge (m.dispatched x t.unit t.service .generator) ≤
      m.netOutput x t.unit - (m.dispatched x t.unit .lowerReg .generator + m.dispatched x t.unit .lowerReg .load) := by
  let t : Trap := { unit := "B", service := .lower6s, maxAvail := 10, emin := 0, lbp := 10, hbp := 90, emax := 100 }
  let s : Scenario := {
    regions := ["NSW"], units := [{ unit := "B", region := "NSW" }, { unit := "B", region := "NSW", dtype := .load }],
    before := [.volumeBids [{ unit := "B", bands := [("1", 100)] }, { unit := "B", dtype := .load, bands := [("1", 100)] },
      { unit := "B", service := .lower6s, bands := [("1", 10)] },
      { unit := "B", service := .lowerReg, dtype := .load, bands := [("1", 20)] }]],
    op := .jointCapacity [t] none, sol := [0, 0, 10, 10] }
  have hw : s.ok (fun m => decide (t.unit ∈ m.bidi) && decide (m.bidsFor t.unit t.service .generator) &&
      decide (¬ t.leftEdge (m.dispatched s.x t.unit t.service .generator) ≤
        m.netOutput s.x t.unit - (m.dispatched s.x t.unit .lowerReg .generator + m.dispatched s.x t.unit .lowerReg .load))) = true := by
    decide +kernel
  obtain ⟨m, lp, h1, h2, h3, h4⟩ := Scenario.witness hw
  simp only [Bool.and_eq_true, decide_eq_true_eq] at h4
  exact ⟨[t], t, m, lp, s.x, h1, h2, h3, by simp, h4.1.1, rfl, by decide, h4.1.2, h4.2⟩

/-- **C17** fails for trapeziums of the load side of bidirectional units: the constraints count the consumption twice and do not
count the generation (`fcas_constraints.py:274-301`).  A unit that consumes 10 MW is enabled although the trapezium allows no enablement
at a consumption of less than 15 MW. -/
theorem C17_bidirectional_load_side_fails : ∃ (ts : List Trap) (t : Trap) (m : Market) (lp : Lp) (x : Nat → ℚ),
    InForce (.jointCapacity ts none) m ∧ m.assemble = .ok lp ∧ Feasible lp x ∧ t ∈ ts ∧ t.unit ∈ m.bidi ∧
    t.dtype = .load ∧ 0 < t.maxAvail ∧ m.bidsFor t.unit t.service .load ∧ 0 < m.dispatched x t.unit t.service .load ∧
    ¬ m.netOutput x t.unit ≤ t.rightEdge (m.dispatched x t.unit t.service .load) := by
  let t : Trap := { unit := "B", service := .raise6s, dtype := .load, maxAvail := 10, emin := -100, lbp := -100, hbp := -15, emax := -15 }
  let s : Scenario := {
    regions := ["NSW"], units := [{ unit := "B", region := "NSW" }, { unit := "B", region := "NSW", dtype := .load }],
    before := [.volumeBids [{ unit := "B", bands := [("1", 100)] }, { unit := "B", dtype := .load, bands := [("1", 100)] },
      { unit := "B", service := .raise6s, dtype := .load, bands := [("1", 10)] }]],
    op := .jointCapacity [t] none, sol := [0, 10, 10] }
  have hw : s.ok (fun m => decide (t.unit ∈ m.bidi) && decide (m.bidsFor t.unit t.service .load) &&
      decide (0 < m.dispatched s.x t.unit t.service .load ∧ ¬ m.netOutput s.x t.unit ≤ t.rightEdge (m.dispatched s.x t.unit t.service .load))) = true := by
    decide +kernel
  obtain ⟨m, lp, h1, h2, h3, h4⟩ := Scenario.witness hw
  simp only [Bool.and_eq_true, decide_eq_true_eq] at h4
  exact ⟨[t], t, m, lp, s.x, h1, h2, h3, by simp, h4.1.1, rfl, by decide, h4.1.2, h4.2.1, h4.2.2⟩

/-- **C17** for trapeziums of the load side of bidirectional units, what the constraints say: the consumption and the lower regulation of the
load side count twice, at the left edge the raise regulation of the load side does not count, and the generator side never counts. -/
theorem C17_bidirectional_load_side_partial {ts : List Trap} {m : Market} (h : InForce (.jointCapacity ts none) m) {lp : Lp}
    (hl : m.assemble = .ok lp) {x : Nat → ℚ} (hx : Feasible lp x) {t : Trap} (ht : t ∈ ts) (hb : t.unit ∈ m.bidi)
    (hd : t.dtype = .load) (hp : 0 < t.maxAvail) (hv : m.bidsFor t.unit t.service .load) :
    -(2 * m.dispatched x t.unit .energy .load) + 2 * m.dispatched x t.unit .lowerReg .load ≤
      t.rightEdge (m.dispatched x t.unit t.service .load) ∧
    t.leftEdge (m.dispatched x t.unit t.service .load) ≤ -(2 * m.dispatched x t.unit .energy .load) := by
  obtain ⟨n, hi, hs⟩ := jointCapacity_imposed h
  refine jointCapacity_bidi_load hi hl (hx.obeys m _) ht hb hd hp (Or.inr hv) ?_
  intro e
  have := (hs t ht).2
  rw [e] at this; cases this

/-- **C18**, exact form for units that are not bidirectional. -/
theorem C18_energy_regulation_exact {ts : List Trap} {m : Market} (h : InForce (.energyReg ts none) m)
    (hb : ∀ t ∈ ts, t.unit ∉ m.bidi) (hp : ∀ t ∈ ts, 0 < t.maxAvail) {lp : Lp} (hl : m.assemble = .ok lp) {x : Nat → ℚ} :
    m.obeys lp x .energyReg ↔ ∀ t ∈ ts,
      (m.lists t.unit t.dtype → (m.bidsFor t.unit .energy t.dtype ∨ m.bidsFor t.unit t.service t.dtype) →
        m.dispatched x t.unit .energy t.dtype ≤ t.rightEdge (m.dispatched x t.unit t.service t.dtype)) ∧
      (m.lists t.unit t.dtype → (m.bidsFor t.unit .energy t.dtype ∨ m.bidsFor t.unit t.service t.dtype) →
        t.leftEdge (m.dispatched x t.unit t.service t.dtype) ≤ m.dispatched x t.unit .energy t.dtype) := by
  obtain ⟨n, hi, _⟩ := energyReg_imposed h
  refine two_blocks_iff (fun i t c hc => ?_) (fun i t c hc => ?_) hi hl
    (fun i t ht => erUpper_iff hi.wf (hb t ht) (hp t ht)) (fun i t ht => erLower_iff hi.wf (hb t ht) (hp t ht))
  · simp only [List.mem_cons, List.not_mem_nil, or_false] at hc; rcases hc with rfl | rfl <;> rfl
  · simp only [List.mem_cons, List.not_mem_nil, or_false] at hc; rcases hc with rfl | rfl <;> rfl

/-- **C18** With the maximum availability and the energy and regulation capacity constraints in force,
regulation enablement is inside the trapezium at the energy target (for the load side of a bidirectional unit:
at minus the consumption). -/
theorem C18_regulation_inside_trapezium {ts : List Trap} {ls : List Lim} {m : Market}
    (h : InForce (.energyReg ts none) m) (h' : InForce (.fcasMaxAvail ls none) m) {lp : Lp}
    (hl : m.assemble = .ok lp) {x : Nat → ℚ} (hx : Feasible lp x) {t : Trap} (ht : t ∈ ts)
    (hm : { unit := t.unit, service := t.service, dtype := t.dtype, val := t.maxAvail } ∈ ls)
    (hp : 0 < t.maxAvail) (hu : m.lists t.unit t.dtype) (hv : m.bidsFor t.unit t.service t.dtype)
    {e : ℚ} (he : e = if t.unit ∈ m.bidi ∧ t.dtype = .load then - m.dispatched x t.unit .energy t.dtype
      else m.dispatched x t.unit .energy t.dtype) :
    t.inside e e (m.dispatched x t.unit t.service t.dtype) := by
  obtain ⟨n, hi, hs⟩ := energyReg_imposed h
  have hne : t.service ≠ .energy := by
    intro e
    have := (hs t ht).2
    rw [e] at this; cases this
  obtain ⟨k1, k2⟩ := energyReg_one hi hl (hx.obeys m _) ht hp hu (Or.inr hv) hne
  have : m.side t.unit .energy t.dtype * m.dispatched x t.unit .energy t.dtype = e := by
    rw [he]; unfold Market.side
    by_cases c : t.unit ∈ m.bidi ∧ t.dtype = .load
    · simp [c]
    · rw [if_neg c, if_neg (fun h => c ⟨h.1, h.2.2⟩), one_mul]
  rw [this] at k1 k2
  exact ⟨dispatched_nonneg hl hx .., C15_fcas_max_availability h' hl hx hm hu, k1, k2⟩

/-! ### Instances: a generator and a load with contingency and regulation offers -/

def trapUnits : List UnitInfo := [{ unit := "A", region := "NSW" }, { unit := "L", region := "NSW", dtype := .load }]

def trapBids : List BidRow :=
  [{ unit := "A", bands := [("1", 100)] }, { unit := "A", service := .raise6s, bands := [("1", 20)] },
   { unit := "A", service := .raiseReg, bands := [("1", 20)] }, { unit := "A", service := .lowerReg, bands := [("1", 20)] },
   { unit := "L", dtype := .load, bands := [("1", 100)] }, { unit := "L", service := .raise6s, dtype := .load, bands := [("1", 20)] },
   { unit := "L", service := .lowerReg, dtype := .load, bands := [("1", 20)] },
   { unit := "L", service := .raiseReg, dtype := .load, bands := [("1", 20)] }]

def contTraps : List Trap :=
  [{ unit := "A", service := .raise6s, maxAvail := 10, emin := 10, lbp := 20, hbp := 60, emax := 100 },
   { unit := "L", service := .raise6s, dtype := .load, maxAvail := 10, emin := 10, lbp := 20, hbp := 60, emax := 100 }]

def regTraps : List Trap :=
  [{ unit := "A", service := .raiseReg, maxAvail := 20, emin := 10, lbp := 20, hbp := 60, emax := 100 },
   { unit := "L", service := .lowerReg, dtype := .load, maxAvail := 20, emin := 10, lbp := 20, hbp := 60, emax := 100 }]

/-- the maximum availabilities of a list of trapeziums -/
def maxAvails (ts : List Trap) : List Lim :=
  ts.map (fun t => { unit := t.unit, service := t.service, dtype := t.dtype, val := t.maxAvail })

/-- energy 60 plus 20 regulation up leaves room for 5 MW of raise -/
def trapCase : Case where
  regions := ["NSW"]
  units := trapUnits
  hist := [.volumeBids trapBids, .jointCapacity contTraps none, .energyReg regTraps none,
    .fcasMaxAvail (maxAvails (contTraps ++ regTraps)) none]
  sol := [60, 5, 20, 10, 60, 5, 20, 10]

example : ∃ m lp, InForceKeeping [] (.jointCapacity contTraps none) m ∧
    InForceKeeping [] (.fcasMaxAvail (maxAvails (contTraps ++ regTraps)) none) m ∧ m.assemble = .ok lp ∧ Feasible lp trapCase.x ∧
    decide (∀ t ∈ contTraps, t.unit ∉ m.bidi ∧ 0 < t.maxAvail ∧ m.lists t.unit t.dtype ∧ m.bidsFor t.unit t.service t.dtype) = true :=
  Case.witness2 (i := 1) (j := 3) rfl rfl (by decide +kernel)

example : ∃ m lp, InForceKeeping [] (.energyReg regTraps none) m ∧
    InForceKeeping [] (.fcasMaxAvail (maxAvails (contTraps ++ regTraps)) none) m ∧ m.assemble = .ok lp ∧ Feasible lp trapCase.x ∧
    decide (∀ t ∈ regTraps, t.unit ∉ m.bidi ∧ 0 < t.maxAvail ∧ m.lists t.unit t.dtype ∧ m.bidsFor t.unit t.service t.dtype) = true :=
  Case.witness2 (i := 2) (j := 3) rfl rfl (by decide +kernel)

end Verif
