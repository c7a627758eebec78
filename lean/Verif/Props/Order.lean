import Verif.Proofs.Commute
import Verif.Props.Replace

/-!
# C109: the order of independent calls does not matter
-/

namespace Verif

/-- **C109** Exchanging independent calls of a history, any number of times, changes nothing a user can see: the market
dispatches the same (`DispatchSame`), and each call raises what it raised before. -/
theorem C109_reordered {regions : List String} {units : List UnitInfo} {di : ℚ} {m0 : Market} {ops ops' : List Op}
    (h0 : Market.init regions units di = .ok m0) (h : Reordered ops ops') (hb : Benign m0 ops) :
    DispatchSame (m0.run ops) (m0.run ops') ∧ (m0.outcomes ops').Perm (m0.outcomes ops) :=
  ⟨(reordered h ⟨_, _, _, m0, [], h0, trivial, rfl⟩ hb).1, (reordered h ⟨_, _, _, m0, [], h0, trivial, rfl⟩ hb).2.1⟩

theorem reordered_perm {l l' : List Op} (hl : l.Perm l') :
    l.Pairwise Op.independent → ∀ before after, Reordered (before ++ l ++ after) (before ++ l' ++ after) := by
  induction hl with
  | nil => exact fun _ _ _ => .refl _
  | cons x _ ih =>
    intro hp before after
    have := ih (List.pairwise_cons.1 hp).2 (before ++ [x]) after
    simpa using this
  | swap x y l =>
    intro hp before after
    have : y.independent x := (List.pairwise_cons.1 hp).1 x (by simp)
    simpa using Reordered.exchange before (l ++ after) this
  | trans h1 _ ih1 ih2 =>
    intro hp before after
    exact (ih1 hp before after).trans (ih2 (h1.pairwise hp (fun h => Op.independent.symm h)) before after)

/-- **C109** In particular the calls of a block of pairwise independent calls can be made in any order. -/
theorem C109_any_order {regions : List String} {units : List UnitInfo} {di : ℚ} {m0 : Market} {before block block' after : List Op}
    (h0 : Market.init regions units di = .ok m0) (hb : Benign m0 (before ++ block ++ after))
    (hi : block.Pairwise Op.independent) (hp : block.Perm block') :
    DispatchSame (m0.run (before ++ block ++ after)) (m0.run (before ++ block' ++ after)) ∧
    (m0.outcomes (before ++ block' ++ after)).Perm (m0.outcomes (before ++ block ++ after)) :=
  C109_reordered h0 (reordered_perm hp hi before after) hb

/-- **C109** Setters of different constraint sets are independent: once bids and interconnectors are set, the constraints can
be set in any order. -/
theorem C109_constraint_sets {regions : List String} {units : List UnitInfo} {di : ℚ} {m0 : Market}
    {before block block' after : List Op} (h0 : Market.init regions units di = .ok m0)
    (hb : Benign m0 (before ++ block ++ after)) (hc : ∀ o ∈ block, o.constrains = true ∧ ∀ vc, o ≠ .generic [] vc)
    (hi : block.Pairwise (fun a b => ∀ p ∈ a.parts, p ∉ b.parts)) (hp : block.Perm block') :
    DispatchSame (m0.run (before ++ block ++ after)) (m0.run (before ++ block' ++ after)) ∧
    (m0.outcomes (before ++ block' ++ after)).Perm (m0.outcomes (before ++ block ++ after)) := by
  refine C109_any_order h0 hb ?_ hp
  have key : ∀ o : Op, o.constrains = true → (∀ vc, o ≠ .generic [] vc) →
      (∀ p ∈ o.parts, ∃ k, p = .set k) ∧ (∀ p ∈ o.needs, p = .bids) ∧ o.keepsIds = true := by
    intro o h1 h2
    cases o with
    | generic g vc =>
      refine ⟨by simp [Op.parts], by simp [Op.needs], ?_⟩
      cases g with
      | nil => exact absurd rfl (h2 vc)
      | cons _ _ => rfl
    | _ => simp_all [Op.constrains, Op.parts, Op.needs, Op.keepsIds]
  refine List.Pairwise.imp_of_mem (fun {a b} ha hb' h => ?_) hi
  obtain ⟨a1, a2, a3⟩ := key a (hc a ha).1 (hc a ha).2
  obtain ⟨b1, b2, b3⟩ := key b (hc b hb').1 (hc b hb').2
  refine ⟨fun p hp => ⟨h p hp, fun hq => ?_⟩, fun p hp hq => ?_, a3, b3⟩
  · obtain ⟨k, e⟩ := a1 p hp
    rw [e] at hq
    cases b2 _ hq
  · obtain ⟨k, e⟩ := b1 p hp
    rw [e] at hq
    cases a2 _ hq

/-! ### The order of other calls matters -/

/-- Price bids look at the volume bids: set before them they are refused. -/
theorem C109_needs_volume_bids : let m0 : Market := { regions := ["NSW"], units := replUnits, di := 5 }
    (m0.outcomes replBids).map Prod.snd = [none, none] ∧
    (m0.outcomes replBids.reverse).map Prod.snd = [some .modelBuild, none] := by decide +kernel

/-- Two calls about the same constraint set: the last one decides. -/
theorem C109_same_set : replCan [.demand replDemand none, .demand [{ region := "NSW", demand := 40 }] none] = false ∧
    replCan [.demand [{ region := "NSW", demand := 40 }] none, .demand replDemand none] = true := by decide +kernel

/-! ### Instances -/

/-- constraints of the generator: demand, capacity, a ramp rate and an FCAS maximum availability that is refused because the
unit is unknown -/
def orderBlock : List Op :=
  [.demand replDemand (some (.num 1000)), .capacity [{ unit := "A", val := 40 }] none,
   .rampRates [⟨"A", .generator, 10, 240, 240⟩] none none .noFastStart none,
   .fcasMaxAvail [{ unit := "B", service := .raiseReg, val := 5 }] none]

/-- instance of C109: the calls are independent, one of them is refused in any order, and the market can be dispatched -/
example : Benign { regions := ["NSW"], units := replUnits, di := 5 } (replBids ++ orderBlock ++ []) ∧
    orderBlock.Pairwise Op.independent ∧ orderBlock.Perm orderBlock.reverse ∧
    ((replRun orderBlock).outcomes []).length = 0 ∧
    (Market.outcomes { regions := ["NSW"], units := replUnits, di := 5 } (replBids ++ orderBlock)).map Prod.snd =
      [none, none, none, none, none, some .validation] ∧
    (Market.outcomes { regions := ["NSW"], units := replUnits, di := 5 } (replBids ++ orderBlock.reverse)).map Prod.snd =
      [none, none, some .validation, none, none, none] ∧
    replCan orderBlock = true ∧ replCan orderBlock.reverse = true :=
  ⟨benignB_iff.1 (by decide +kernel), by decide +kernel, (List.reverse_perm _).symm, by decide +kernel, by decide +kernel,
    by decide +kernel, by decide +kernel, by decide +kernel⟩

/-- instance of `C109_constraint_sets` -/
example : let block : List Op := [.demand replDemand none, .capacity [{ unit := "A", val := 40 }] none,
      .generic [⟨"g", .le, 5⟩] none]
    Benign { regions := ["NSW"], units := replUnits, di := 5 } (replBids ++ block ++ [.linkUnits [⟨"g", "A", .raiseReg, 1⟩]]) ∧
    (∀ o ∈ block, o.constrains = true ∧ ∀ vc, o ≠ .generic [] vc) ∧
    block.Pairwise (fun a b => ∀ p ∈ a.parts, p ∉ b.parts) :=
  ⟨benignB_iff.1 (by decide +kernel), by simp [Op.constrains], by decide +kernel⟩

end Verif
