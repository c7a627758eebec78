import Verif.Proofs.NamesReport
import Verif.Proofs.Demo

/-!
# C121: names do not matter
-/

namespace Verif

/-- **C121** Units, regions, interconnectors, links and constraint sets can be given other names (different names for different
things) throughout: the same calls raise the same exceptions, and the final market dispatches the same up to the names and the order
of the rows of reported tables (`SameButNames`).  Missing for the full property (see `NameFree`): histories with
`set_tie_break_constraints`, for which names matter (`C121_tie_break_negation`), and histories in which loss functions are given for
some of the links only. -/
theorem C121_names_partial (ρ : Names) {regions : List String} {units : List UnitInfo} {di : ℚ} {m0 : Market} {ops : List Op}
    (h0 : Market.init regions units di = .ok m0) (ho : NameFree m0 ops) (hb : Benign m0 ops) :
    ∃ m0', Market.init (regions.map ρ.region) (units.map (UnitInfo.named ρ)) di = .ok m0' ∧
      (m0'.outcomes (ops.map (Op.named ρ))).map Prod.snd = (m0.outcomes ops).map Prod.snd ∧
      SameButNames ρ (m0.run ops) (m0'.run (ops.map (Op.named ρ))) := by
  have H0 : Market.init (regions.map ρ.region) (units.map (UnitInfo.named ρ)) di = .ok (m0.named ρ) := by
    rw [init_named, h0]; rfl
  obtain ⟨M0, H1, h⟩ := init_shuf H0 (.refl _) (.refl _)
  have R : Reached m0 := ⟨_, _, _, m0, [], h0, trivial, rfl⟩
  obtain ⟨⟨f, g, s⟩, hb', e⟩ := run_both ρ ops R h ho hb
  exact ⟨M0, H1, e, sameButNames_of ρ (sameDispatch_of ⟨s.tabs, s.vars.inj, s.cons.inj, (wf_run h0 hb).ids.named ρ, (wf_run H1 hb').ids⟩)⟩

/-- **C121** A market that is refused is refused with any names. -/
theorem C121_refused (ρ : Names) {regions : List String} {units : List UnitInfo} {di : ℚ} {e : Err}
    (h0 : Market.init regions units di = .error e) :
    Market.init (regions.map ρ.region) (units.map (UnitInfo.named ρ)) di = .error e := by
  rw [init_named, h0]; rfl

/-! ### Instances -/

/-- exchanges two names -/
def swapName (a b s : String) : String := if s = a then b else if s = b then a else s

theorem swapName_inj (a b : String) : Function.Injective (swapName a b) := by
  have h : ∀ s, swapName a b (swapName a b s) = s := by
    intro s
    unfold swapName
    by_cases h1 : s = a
    · rw [if_pos h1]
      by_cases h2 : b = a
      · rw [if_pos h2, h1, h2]
      · rw [if_neg h2, if_pos rfl, h1]
    · rw [if_neg h1]
      by_cases h2 : s = b
      · rw [if_pos h2, if_pos rfl, h2]
      · rw [if_neg h2, if_neg h1, if_neg h2]
  exact Function.LeftInverse.injective h

/-- other names of two units, two regions, an interconnector and a constraint set -/
def otherNames : Names where
  unit := swapName "A" "D"
  region := swapName "NSW" "QLD"
  inter := swapName "L1" "I1"
  set := swapName "R" "S"
  unit_inj := swapName_inj _ _
  region_inj := swapName_inj _ _
  inter_inj := swapName_inj _ _
  set_inj := swapName_inj _ _

/-- two regions, a link in each direction with losses, three generators, FCAS in both regions -/
def nameHist : List Op :=
  [.volumeBids [{ unit := "A", bands := [("1", 200), ("2", 50)] }, { unit := "D", bands := [("1", 40), ("2", 20)] }, { unit := "B", bands := [("1", 100), ("2", 0)] },
     { unit := "B", service := .raise6s, bands := [("1", 20), ("2", 0)] }],
   .priceBids [{ unit := "A", bands := [("1", 20), ("2", 30)] }, { unit := "D", bands := [("1", 20), ("2", 30)] }, { unit := "B", bands := [("1", 50), ("2", 60)] },
     { unit := "B", service := .raise6s, bands := [("1", 5), ("2", 6)] }],
   .interconnectors [{ inter := "I", link := "L1", fromR := "NSW", toR := "VIC", min := 0, max := 100 },
     { inter := "I", link := "L2", fromR := "VIC", toR := "NSW", min := 0, max := 100 }],
   .losses [{ inter := "I", link := "L1", share := 1/2, fn := fun f => f * f / 1000 },
       { inter := "I", link := "L2", share := 1/2, fn := fun f => f * f / 1000 }]
     [⟨"I", "L1", 0, 0⟩, ⟨"I", "L1", 1, 50⟩, ⟨"I", "L1", 2, 100⟩, ⟨"I", "L2", 0, 0⟩, ⟨"I", "L2", 1, 100⟩],
   .demand [{ region := "NSW", demand := 100 }, { region := "VIC", demand := 60 }] (some (.num 14000)),
   .fcasReq [{ set := "R", service := .raise6s, region := "NSW", volume := 10 },
     { set := "R", service := .raise6s, region := "VIC", volume := 10 }] (some (.table [("R", 1000)])),
   .capacity [{ unit := "A", val := 150 }, { unit := "C", val := 10 }] none]

def nameUnits : List UnitInfo := [{ unit := "A", region := "NSW" }, { unit := "B", region := "VIC" }, { unit := "D", region := "NSW" }]

/-- instance of C121: the ids of the bids change, a call with an unknown unit is refused, and both programs can be built -/
example : let ρ := otherNames
    let m0 : Market := { regions := ["NSW", "VIC"], units := nameUnits, di := 5 }
    let m0' : Market := { regions := ["NSW", "VIC"].map ρ.region, units := nameUnits.map (UnitInfo.named ρ), di := 5 }
    Market.init ["NSW", "VIC"] nameUnits 5 = .ok m0 ∧ Market.init (["NSW", "VIC"].map ρ.region) (nameUnits.map (UnitInfo.named ρ)) 5 = .ok m0' ∧
    NameFree m0 nameHist ∧ Benign m0 nameHist ∧
    (m0.outcomes nameHist).map Prod.snd = [none, none, none, none, none, none, some .validation] ∧
    ((m0.run nameHist).bids.getD []).map (fun v => (v.unit, v.ub, v.vid)) =
      [("A", 200, 0), ("A", 50, 1), ("B", 100, 2), ("B", 20, 3), ("D", 40, 4), ("D", 20, 5)] ∧
    ((m0'.run (nameHist.map (Op.named ρ))).bids.getD []).map (fun v => (v.unit, v.ub, v.vid)) =
      [("A", 40, 0), ("A", 20, 1), ("B", 100, 2), ("B", 20, 3), ("D", 200, 4), ("D", 50, 5)] ∧
    (match (m0.run nameHist).assemble, (m0'.run (nameHist.map (Op.named ρ))).assemble with | .ok _, .ok _ => true | _, _ => false) = true := by
  refine ⟨rfl, by rw [init_named]; rfl, ?_, benignB_iff.1 (by decide +kernel), by decide +kernel, by decide +kernel, by decide +kernel, by decide +kernel⟩
  refine ⟨trivial, trivial, trivial, ?_, trivial, trivial, trivial, trivial⟩
  have : ∀ v ∈ (Market.run { regions := ["NSW", "VIC"], units := nameUnits, di := 5 } (nameHist.take 3)).inters.getD [],
    v.inter = "I" ∧ (v.link = "L1" ∨ v.link = "L2") := by decide +kernel
  intro v hv
  obtain ⟨a, b | b⟩ := this v hv
  · exact ⟨_, List.mem_cons_self .., a.symm, b.symm⟩
  · exact ⟨_, List.mem_cons_of_mem _ (List.mem_cons_self ..), a.symm, b.symm⟩

/-- instance of `C121_refused`: a unit of an unknown region -/
example : Market.init ["VIC"] nameUnits 5 = .error .validation ∧
    Market.init (["VIC"].map otherNames.region) (nameUnits.map (UnitInfo.named otherNames)) 5 = .error .validation :=
  ⟨rfl, C121_refused otherNames rfl⟩

/-! ### Tie-break constraints -/

/-- two units in each of two regions -/
def collideUnits : List UnitInfo :=
  [{ unit := "A", region := "NSW" }, { unit := "BC", region := "NSW" }, { unit := "AB", region := "VIC" }, { unit := "C", region := "VIC" }]

/-- all offer 10 MW at the price 10 -/
def collideBids : List BidRow :=
  [{ unit := "A", bands := [("1", 10)] }, { unit := "BC", bands := [("1", 10)] }, { unit := "AB", bands := [("1", 10)] },
   { unit := "C", bands := [("1", 10)] }]

def collideHist : List Op := [.volumeBids collideBids, .priceBids collideBids,
  .demand [{ region := "NSW", demand := 10 }, { region := "VIC", demand := 10 }] none, .tieBreak 1]

def collideMarket : Market := Market.run { regions := ["NSW", "VIC"], units := collideUnits, di := 5 } collideHist

/-- the unit BC is called D -/
def noCollision : Names where
  unit := swapName "BC" "D"
  region := id
  inter := id
  set := id
  unit_inj := swapName_inj _ _
  region_inj := Function.injective_id
  inter_inj := Function.injective_id
  set_inj := Function.injective_id

def renamedMarket : Market := Market.run { regions := ["NSW", "VIC"].map noCollision.region, units := collideUnits.map (UnitInfo.named noCollision), di := 5 }
  (collideHist.map (Op.named noCollision))

/-- **Tie-break constraints depend on names.**  The name of a tied pair is the concatenation of its units and bands, and one pair is
kept for each name (`unit_constraints.py:569-578`).  The pairs A, BC of one region and AB, C of another region have the same name, so
there is no tie-break constraint for the second pair.  If BC is called D there are constraints for both pairs. -/
theorem C121_tie_break_negation : let m0 : Market := { regions := ["NSW", "VIC"], units := collideUnits, di := 5 }
    let m0' : Market := { regions := ["NSW", "VIC"].map noCollision.region, units := collideUnits.map (UnitInfo.named noCollision), di := 5 }
    Market.init ["NSW", "VIC"] collideUnits 5 = .ok m0 ∧
    Market.init (["NSW", "VIC"].map noCollision.region) (collideUnits.map (UnitInfo.named noCollision)) 5 = .ok m0' ∧
    (∀ r ∈ m0.outcomes collideHist, r.2 = none) ∧ (∀ r ∈ m0'.outcomes (collideHist.map (Op.named noCollision)), r.2 = none) ∧
    ¬ SameButNames noCollision (m0.run collideHist) (m0'.run (collideHist.map (Op.named noCollision))) := by
  refine ⟨rfl, by rw [init_named]; rfl, by decide +kernel, by decide +kernel, ?_⟩
  show ¬ SameButNames noCollision collideMarket renamedMarket
  intro h
  let x : Nat → ℚ := fun i => if i = 1 then 10 else if i = 0 ∨ i = 2 then 5 else 0
  have f : (match collideMarket.assemble with | .ok lp => decide (Feasible lp x ∧ lp.cost x = 200) | .error _ => false) = true := by
    decide +kernel
  split at f
  swap
  · cases f
  rename_i lp el
  obtain ⟨f1, f2⟩ := of_decide_eq_true f
  obtain ⟨lp', x', el', hx, hs⟩ := h.feasible _ _ el f1
  have e : renamedMarket.assemble = .ok
      { vars := [{ vid := 0, lb := 0, ub := some 10 }, { vid := 1, lb := 0, ub := some 10 }, { vid := 2, lb := 0, ub := some 10 },
          { vid := 3, lb := 0, ub := some 10 }, { vid := 4, lb := 0, ub := none }, { vid := 5, lb := 0, ub := none },
          { vid := 6, lb := 0, ub := none }, { vid := 7, lb := 0, ub := none }],
        rows := [{ cid := 2, coefs := [(0, 1/10), (3, -1/10), (4, -1), (6, 1)], ctype := .eq, rhs := .const 0 },
          { cid := 3, coefs := [(1, 1/10), (2, -1/10), (5, -1), (7, 1)], ctype := .eq, rhs := .const 0 },
          { cid := 0, coefs := [(0, 1), (3, 1)], ctype := .eq, rhs := .const 10 },
          { cid := 1, coefs := [(1, 1), (2, 1)], ctype := .eq, rhs := .const 10 }],
        sos2 := [], sos1 := [],
        obj := [(0, 10), (1, 10), (2, 10), (3, 10), (4, 1), (5, 1), (6, 1), (7, 1)] } := by decide +kernel
  rw [e] at el'
  injection el' with el'
  subst el'
  have r2 := hx.rows { cid := 3, coefs := [(1, 1/10), (2, -1/10), (5, -1), (7, 1)], ctype := .eq, rhs := .const 0 } (List.mem_cons_of_mem _ (List.mem_cons_self ..))
  have r3 := hx.rows { cid := 0, coefs := [(0, 1), (3, 1)], ctype := .eq, rhs := .const 10 } (by decide)
  have r4 := hx.rows { cid := 1, coefs := [(1, 1), (2, 1)], ctype := .eq, rhs := .const 10 } (by decide)
  have v4 := (hx.vars { vid := 4, lb := 0, ub := none } (by decide)).1
  have v6 := (hx.vars { vid := 6, lb := 0, ub := none } (by decide)).1
  have v7 := (hx.vars { vid := 7, lb := 0, ub := none } (by decide)).1
  have hc := hs.cost
  have hu := hs.units
  have b1 : renamedMarket.bids = some [{ vid := 0, unit := "A", dtype := .generator, service := .energy, band := "1", ub := 10 },
      { vid := 1, unit := "AB", dtype := .generator, service := .energy, band := "1", ub := 10 },
      { vid := 2, unit := "C", dtype := .generator, service := .energy, band := "1", ub := 10 },
      { vid := 3, unit := "D", dtype := .generator, service := .energy, band := "1", ub := 10 }] := by decide +kernel
  have b2 : (collideMarket.unitDispatch x).map (List.map (DispatchRow.named noCollision)) = .ok
      [{ unit := "A", dtype := .generator, service := .energy, dispatch := 5 }, { unit := "AB", dtype := .generator, service := .energy, dispatch := 10 },
       { unit := "D", dtype := .generator, service := .energy, dispatch := 5 }, { unit := "C", dtype := .generator, service := .energy, dispatch := 0 }] := by
    decide +kernel
  have b3 : renamedMarket.unitDispatch x' = .ok
      [{ unit := "A", dtype := .generator, service := .energy, dispatch := x' 0 }, { unit := "AB", dtype := .generator, service := .energy, dispatch := x' 1 },
       { unit := "C", dtype := .generator, service := .energy, dispatch := x' 2 }, { unit := "D", dtype := .generator, service := .energy, dispatch := x' 3 }] := by
    unfold Market.unitDispatch
    rw [b1]
    simp [groupSum]
  unfold Market.report Report.named at hu hc
  dsimp only at hu hc
  rw [b2, b3] at hu
  change List.Perm _ _ at hu
  have x1 : x' 1 = 10 := by
    have := hu.mem_iff.1 (List.mem_cons_of_mem _ (List.mem_cons_self ..))
    simp at this
    exact this.symm
  have hc : Lp.cost _ x' = lp.cost x := hc
  rw [f2] at hc
  change linVal x' _ = 0 at r2
  change linVal x' _ = 10 at r3
  change linVal x' _ = 10 at r4
  change (0 : ℚ) ≤ x' 4 at v4
  change (0 : ℚ) ≤ x' 6 at v6
  change (0 : ℚ) ≤ x' 7 at v7
  simp only [linVal, List.map_cons, List.map_nil, List.sum_cons, List.sum_nil] at r2 r3 r4
  simp only [Lp.cost, linVal, List.map_cons, List.map_nil, List.sum_cons, List.sum_nil] at hc
  linarith

end Verif
