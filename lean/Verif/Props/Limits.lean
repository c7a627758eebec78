import Verif.Proofs.Setters
import Verif.Proofs.Demo

/-!
# C06, C07, C15: limits on the dispatch of a unit

In every theorem `InForce op m` says that the call was made without exception at some point of the
history of `m` and that later calls are about other parts of the definition; `x` is any feasible
solution of the program built for `m`.
-/

namespace Verif

/-- **C06** A capacity limit holds in every feasible solution. -/
theorem C06_capacity_limit {ls : List Lim} {m : Market} (h : InForce (.capacity ls none) m) {lp : Lp}
    (hl : m.assemble = .ok lp) {x : Nat → ℚ} (hx : Feasible lp x) {l : Lim} (hm : l ∈ ls)
    (hu : m.lists l.unit l.dtype) (hv : 0 ≤ l.val ∨ m.bidsFor l.unit .energy l.dtype) :
    m.dispatched x l.unit .energy l.dtype ≤ l.val := by
  obtain ⟨n, hi, he⟩ := capacity_imposed h
  by_cases hb : m.bidsFor l.unit .energy l.dtype
  · exact capacity_holds hi hl hx hm (he l hm) hu hb
  · rw [dispatched_eq_zero hb]; exact hv.resolve_right hb

/-- **C07** A UIGF limit holds in every feasible solution. -/
theorem C07_uigf_limit {ls : List Lim} {m : Market} (h : InForce (.uigf ls none) m) {lp : Lp}
    (hl : m.assemble = .ok lp) {x : Nat → ℚ} (hx : Feasible lp x) {l : Lim} (hm : l ∈ ls)
    (hu : m.lists l.unit .generator) (hv : 0 ≤ l.val ∨ m.bidsFor l.unit .energy .generator) :
    m.dispatched x l.unit .energy .generator ≤ l.val := by
  obtain ⟨n, hi, he⟩ := uigf_imposed h
  obtain ⟨e1, e2⟩ := he l hm
  by_cases hb : m.bidsFor l.unit .energy .generator
  · have := limit_holds hi hl hx hm (by rw [e2]; exact hu) (by rw [e1, e2]; exact hb)
    simpa [e1, e2, Market.side, CType.holds] using this
  · rw [dispatched_eq_zero hb]; exact hv.resolve_right hb

/-- **C15** An FCAS maximum availability holds in every feasible solution. -/
theorem C15_fcas_max_availability {ls : List Lim} {m : Market} (h : InForce (.fcasMaxAvail ls none) m) {lp : Lp}
    (hl : m.assemble = .ok lp) {x : Nat → ℚ} (hx : Feasible lp x) {l : Lim} (hm : l ∈ ls)
    (hu : m.lists l.unit l.dtype) : m.dispatched x l.unit l.service l.dtype ≤ l.val := by
  obtain ⟨n, hi, he⟩ := fcasMaxAvail_imposed h
  obtain ⟨e1, e2⟩ := he l hm
  by_cases hb : m.bidsFor l.unit l.service l.dtype
  · have := limit_holds hi hl hx hm hu hb
    simpa [e1, Market.side, CType.holds] using this
  · rw [dispatched_eq_zero hb]; exact e2

/-- **C06**, exact form: the capacity constraints of the program say this and nothing else. -/
theorem C06_capacity_exact {ls : List Lim} {m : Market} (h : InForce (.capacity ls none) m) {lp : Lp}
    (hl : m.assemble = .ok lp) {x : Nat → ℚ} :
    m.obeys lp x .unitBidCapacity ↔ ∀ l ∈ ls, m.lists l.unit l.dtype → m.bidsFor l.unit .energy l.dtype →
      m.dispatched x l.unit .energy l.dtype ≤ l.val := by
  obtain ⟨n, hi, he⟩ := capacity_imposed h
  exact capacity_iff hi he hl

/-- **C07**, exact form. -/
theorem C07_uigf_exact {ls : List Lim} {m : Market} (h : InForce (.uigf ls none) m) {lp : Lp}
    (hl : m.assemble = .ok lp) {x : Nat → ℚ} :
    m.obeys lp x .uigf ↔ ∀ l ∈ ls, m.lists l.unit .generator → m.bidsFor l.unit .energy .generator →
      m.dispatched x l.unit .energy .generator ≤ l.val := by
  obtain ⟨n, hi, he⟩ := uigf_imposed h
  rw [limits_iff hi hl]
  refine forall_congr' fun l => forall_congr' fun hm => ?_
  obtain ⟨e1, e2⟩ := he l hm
  rw [e1, e2]
  simp [Market.side, CType.holds]

/-- **C15**, exact form. -/
theorem C15_fcas_max_availability_exact {ls : List Lim} {m : Market} (h : InForce (.fcasMaxAvail ls none) m) {lp : Lp}
    (hl : m.assemble = .ok lp) {x : Nat → ℚ} :
    m.obeys lp x .fcasMaxAvail ↔ ∀ l ∈ ls, m.lists l.unit l.dtype → m.bidsFor l.unit l.service l.dtype →
      m.dispatched x l.unit l.service l.dtype ≤ l.val := by
  obtain ⟨n, hi, he⟩ := fcasMaxAvail_imposed h
  rw [limits_iff hi hl]
  refine forall_congr' fun l => forall_congr' fun hm => ?_
  obtain ⟨e1, e2⟩ := he l hm
  simp [Market.side, CType.holds, e1]

/-! ### Instances -/

/-- a generator, a wind farm and a battery (bidirectional) -/
def limitUnits : List UnitInfo :=
  [{ unit := "A", region := "NSW" }, { unit := "W", region := "NSW" },
   { unit := "BAT", region := "NSW" }, { unit := "BAT", region := "NSW", dtype := .load }]

/-- energy bids of all units and a raise bid -/
def limitBids : List BidRow :=
  [{ unit := "A", bands := [("1", 20), ("2", 50)] }, { unit := "W", bands := [("1", 30)] },
   { unit := "BAT", bands := [("1", 10)] }, { unit := "BAT", dtype := .load, bands := [("1", 15)] },
   { unit := "A", service := .raise6s, bands := [("1", 12)] }]

/-- capacity limits, one for the load side of the battery -/
def limitCaps : List Lim :=
  [{ unit := "A", val := 60 }, { unit := "BAT", dtype := .load, val := 8 }]

/-- variables sorted by unit and band: A-1, A-1 (raise), A-2, BAT-1, BAT-1 (load), W-1 -/
def limitScenario (op : Op) : Scenario where
  regions := ["NSW"]
  units := limitUnits
  before := [.volumeBids limitBids, op, .volumeBids limitBids]
  op := op
  after := [.demand [{ region := "NSW", demand := 50 }] none,
    .rampRates [{ unit := "A", init := 10, up := 600, down := 600 }] none none .noFastStart none]
  sol := [0, 0, 0, 0, 0, 0, 20, 5, 17, 6, 8, 15]

example : ∃ m lp, InForce (.capacity limitCaps none) m ∧ m.assemble = .ok lp ∧
    Feasible lp (limitScenario (.capacity limitCaps none)).x ∧
    (decide (m.lists "BAT" .load) && decide (m.bidsFor "BAT" .energy .load) &&
      decide (m.dispatched (limitScenario (.capacity limitCaps none)).x "BAT" .energy .load = 8)) = true :=
  Scenario.witness (s := limitScenario (.capacity limitCaps none)) (by decide +kernel)

example : ∃ m lp, InForce (.uigf [{ unit := "W", val := 15 }] none) m ∧ m.assemble = .ok lp ∧
    Feasible lp (limitScenario (.uigf [{ unit := "W", val := 15 }] none)).x ∧
    (decide (m.lists "W" .generator) && decide (m.bidsFor "W" .energy .generator)) = true :=
  Scenario.witness (s := limitScenario (.uigf [{ unit := "W", val := 15 }] none)) (by decide +kernel)

example : ∃ m lp, InForce (.fcasMaxAvail [{ unit := "A", service := .raise6s, val := 5 }] none) m ∧ m.assemble = .ok lp ∧
    Feasible lp (limitScenario (.fcasMaxAvail [{ unit := "A", service := .raise6s, val := 5 }] none)).x ∧
    (decide (m.lists "A" .generator) && decide (m.bidsFor "A" .raise6s .generator)) = true :=
  Scenario.witness (s := limitScenario (.fcasMaxAvail [{ unit := "A", service := .raise6s, val := 5 }] none)) (by decide +kernel)

end Verif
