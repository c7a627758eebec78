import Verif.Proofs.FastStart
import Verif.Proofs.Bids
import Verif.Proofs.Demo

/-! # C11: fast start units follow their profile

`FsInput.allows` is in `Verif/Spec/FastStart.lean`. -/

namespace Verif

/-- **C11** The fast start constraints of the program say exactly that every listed unit follows its profile
(for units that are not bidirectional). -/
theorem C11_fast_start_exact {ps : List FsInput} {m : Market} (h : InForce (.fastStart ps none) m)
    (hne : ∃ p ∈ ps, p.endMode ≤ 4) (hb : ∀ p ∈ ps, p.unit ∉ m.bidi) {lp : Lp} (hl : m.assemble = .ok lp) {x : Nat → ℚ} :
    m.obeys lp x .fastStart ↔ ∀ p ∈ ps, ∀ d, m.lists p.unit d → m.bidsFor p.unit .energy d →
      p.allows (m.dispatched x p.unit .energy d) := by
  obtain ⟨n, hi⟩ := fastStart_imposed h hne
  rw [fastStart_obeys hi hl]
  refine forall_congr' fun p => forall_congr' fun hp => forall_congr' fun d => ?_
  simp [side_of_not_bidi (hb p hp)]

/-- **C11** In every feasible solution a unit with a profile follows it; in modes 0 and 1 it is off. -/
theorem C11_fast_start_profile {ps : List FsInput} {m : Market} (h : InForce (.fastStart ps none) m) {lp : Lp}
    (hl : m.assemble = .ok lp) {x : Nat → ℚ} (hx : Feasible lp x) {p : FsInput} (hp : p ∈ ps) (hb : p.unit ∉ m.bidi)
    {d : DType} (hd : m.lists p.unit d) (hv : m.bidsFor p.unit .energy d) :
    p.allows (m.dispatched x p.unit .energy d) ∧
    (p.endMode ≤ 1 → m.dispatched x p.unit .energy d = 0) := by
  have ha : p.allows (m.dispatched x p.unit .energy d) := by
    by_cases hle : p.endMode ≤ 4
    · obtain ⟨n, hi⟩ := fastStart_imposed h ⟨p, hp, hle⟩
      have := (fastStart_obeys hi hl).1 (hx.obeys m _) p hp d hd hv
      rw [side_of_not_bidi hb, one_mul] at this
      exact this
    · refine ⟨?_, ?_, ?_, ?_⟩ <;> intro e <;> omega
  refine ⟨ha, fun hle => ?_⟩
  have h1 := ha.1 (by omega)
  have h2 := dispatched_nonneg hl hx p.unit .energy d
  linarith

/-- **C11** After `remove_fast_start_constraints` no fast start constraint and no violation variable of one is
left in the program. -/
theorem C11_remove_fast_start {m : Market} (h : InForce .removeFastStart m) {lp : Lp} (_ : m.assemble = .ok lp) :
    (∀ r ∈ lp.rows, ¬ m.rowOf .fastStart r.cid) ∧ m.deficits.get? .fastStart = none := by
  obtain ⟨h1, h2, h3, _⟩ := removed_fastStart h
  refine ⟨?_, h3⟩
  rintro r _ (⟨rows, e, _⟩ | ⟨rows, e, _⟩ | ⟨e, _⟩)
  · rw [h1] at e; cases e
  · rw [h2] at e; cases e
  · cases e

/-! ### Instances -/

/-- units in modes 1, 2, 3 and 4 -/
def fsProfiles : List FsInput :=
  [{ unit := "A", endMode := 1, time := 2, len2 := 3, len4 := 10, minLoading := 30 },
   { unit := "B", endMode := 2, time := 2, len2 := 3, len4 := 10, minLoading := 30 },
   { unit := "C", endMode := 3, time := 2, len2 := 3, len4 := 10, minLoading := 30 },
   { unit := "D", endMode := 4, time := 4, len2 := 3, len4 := 10, minLoading := 30 }]

def fsScenario (op : Op) (after : List Op) : Scenario where
  regions := ["NSW"]
  units := ["A", "B", "C", "D"].map (fun u => { unit := u, region := "NSW" })
  before := [.volumeBids (["A", "B", "C", "D"].map (fun u => { unit := u, bands := [("1", 100)] })),
    .fastStart [{ unit := "A", endMode := 3, time := 2, len2 := 3, len4 := 10, minLoading := 40 }] (some (.num 100))]
  op := op
  after := after
  sol := [0, 20, 35, 18]

example : ∃ m lp, InForce (.fastStart fsProfiles (some (.num 5))) m ∧ m.assemble = .ok lp ∧
    Feasible lp (fsScenario (.fastStart fsProfiles (some (.num 5))) []).x ∧
    decide (m.lists "B" .generator ∧ m.bidsFor "B" .energy .generator) = true :=
  Scenario.witness (s := fsScenario (.fastStart fsProfiles (some (.num 5))) []) (by decide +kernel)

example : ∃ m lp, InForce (.fastStart fsProfiles none) m ∧ m.assemble = .ok lp ∧
    Feasible lp { fsScenario (.fastStart fsProfiles none) [] with before := (fsScenario .removeFastStart []).before.take 1 }.x ∧
    decide (m.lists "B" .generator ∧ m.bidsFor "B" .energy .generator ∧ "B" ∉ m.bidi) = true :=
  Scenario.witness (s := { fsScenario (.fastStart fsProfiles none) [] with before := (fsScenario .removeFastStart []).before.take 1 })
    (by decide +kernel)

example : ∃ m lp, InForce .removeFastStart m ∧ m.assemble = .ok lp ∧
    Feasible lp (fsScenario .removeFastStart [.capacity [{ unit := "A", val := 5 }] none]).x ∧ (fun _ => true) m = true :=
  Scenario.witness (s := fsScenario .removeFastStart [.capacity [{ unit := "A", val := 5 }] none]) (by decide +kernel)

end Verif
