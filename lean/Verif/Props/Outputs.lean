import Verif.Proofs.Outputs
import Verif.Proofs.Duality
import Verif.Spec.History

/-!
# C29: unit dispatch
-/

namespace Verif

/-- **C29** `get_unit_dispatch` has exactly one row for each unit, dispatch type and service with a bid, and the value is the sum
over the bands. -/
theorem C29_unit_dispatch {m : Market} {x : Nat → ℚ} {rows : List DispatchRow} (h : m.unitDispatch x = .ok rows) :
    (rows.map (fun r => (r.unit, r.dtype, r.service))).Nodup ∧
    (∀ u d s, (∃ r ∈ rows, r.unit = u ∧ r.dtype = d ∧ r.service = s) ↔ m.bidsFor u s d) ∧
    ∀ r ∈ rows, r.dispatch = m.dispatched x r.unit r.service r.dtype := by
  unfold Market.unitDispatch at h
  split at h
  · cases h
  rename_i bs hb
  injection h with h
  subst h
  unfold Market.bidsFor Market.dispatched
  rw [hb, Option.getD_some]
  refine ⟨?_, ?_, ?_⟩
  · have := groupSum_nodup (fun b : BidVar => (b.unit, b.dtype, b.service)) (fun b => x b.vid) bs
    rw [List.map_map]
    exact this
  · intro u d s
    simp only [List.mem_map]
    constructor
    · rintro ⟨r, ⟨g, hg, rfl⟩, rfl, rfl, rfl⟩
      obtain ⟨⟨a, ha, e⟩, -⟩ := mem_groupSum.1 hg
      exact ⟨a, ha, by rw [← e], by rw [← e], by rw [← e]⟩
    · rintro ⟨b, hb', rfl, rfl, rfl⟩
      have hm : ((b.unit, b.dtype, b.service), ((bs.filter (fun a => decide ((a.unit, a.dtype, a.service) =
          (b.unit, b.dtype, b.service)))).map (fun b => x b.vid)).sum) ∈
          groupSum (fun b : BidVar => (b.unit, b.dtype, b.service)) (fun b => x b.vid) bs := mem_groupSum.2 ⟨⟨b, hb', rfl⟩, rfl⟩
      exact ⟨_, ⟨_, hm, rfl⟩, rfl, rfl, rfl⟩
  · intro r hr
    obtain ⟨g, hg, rfl⟩ := List.mem_map.1 hr
    obtain ⟨-, e⟩ := mem_groupSum.1 hg
    dsimp only
    rw [e]
    congr 2
    apply List.filter_congr
    intro b _
    rw [decide_eq_decide]
    constructor
    · intro h; rw [← h]; exact ⟨rfl, rfl, rfl⟩
    · rintro ⟨h1, h2, h3⟩; rw [h1, h2, h3]

/-- **C29** The total of the table is the total over all bid variables. -/
theorem C29_total {m : Market} {x : Nat → ℚ} {rows : List DispatchRow} (h : m.unitDispatch x = .ok rows) :
    (rows.map DispatchRow.dispatch).sum = ((m.bids.getD []).map (fun b => x b.vid)).sum := by
  unfold Market.unitDispatch at h
  split at h
  · cases h
  rename_i bs hb
  injection h with h
  subst h
  rw [hb, Option.getD_some, List.map_map]
  exact sum_groupSum (fun b : BidVar => (b.unit, b.dtype, b.service)) (fun b => x b.vid) bs

/-- the table exists exactly if volume bids were set -/
theorem C29_exists (m : Market) (x : Nat → ℚ) : (∃ rows, m.unitDispatch x = .ok rows) ↔ m.bids ≠ none := by
  unfold Market.unitDispatch
  cases h : m.bids <;> simp

/-- a unit with two bands and two services -/
def dispatchCase : Case where
  regions := ["NSW"]
  units := [{ unit := "A", region := "NSW" }]
  hist := [.volumeBids [{ unit := "A", bands := [("1", 50), ("2", 40)] }, { unit := "A", service := .raiseReg, bands := [("1", 5)] }]]
  sol := [50, 3, 20]

/-- instance of C29: the values of the two energy bands (variables 0 and 2) are added -/
example : ∃ m, dispatchCase.final = some m ∧ Reached m ∧ ∃ rows, m.unitDispatch dispatchCase.x = .ok rows ∧
    rows.map DispatchRow.dispatch = [3, 70] ∧ rows.map DispatchRow.service = [.raiseReg, .energy] := by
  have hb : dispatchCase.ok (fun m => decide ((m.unitDispatch dispatchCase.x).toOption.map (fun rows =>
      (rows.map DispatchRow.dispatch, rows.map DispatchRow.service)) = some ([3, 70], [.raiseReg, .energy]))) = true := by
    decide +kernel
  obtain ⟨m, lp, h0, -, -, h3⟩ := Case.witness hb
  refine ⟨m, h0, Case.reached h0, ?_⟩
  have h3 := of_decide_eq_true h3
  cases h : m.unitDispatch dispatchCase.x with
  | error e => rw [h] at h3; simp [Except.toOption] at h3
  | ok rows =>
    rw [h] at h3
    simp only [Except.toOption, Option.map_some, Option.some.injEq, Prod.mk.injEq] at h3
    exact ⟨rows, rfl, h3⟩

end Verif
