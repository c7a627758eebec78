import Verif.Proofs.ShuffleReport
import Verif.Proofs.Demo

/-!
# C115: the order of the rows of input tables does not matter
-/

namespace Verif

/-- **C115** The rows of every table given to the market (the units, the regions and the tables of each call) can be given in any
order: the same calls raise the same exceptions, and the final markets dispatch the same up to the order of the rows of reported
tables (`SameDispatch`).  Missing for the full property (see `OrderFree`): `set_tie_break_constraints` with bidirectional
units, for which the order of rows matters (`C115_tie_break_negation`). -/
theorem C115_row_order_partial {regions regions' : List String} {units units' : List UnitInfo} {di : ℚ} {m0 : Market} {ops ops' : List Op}
    (h0 : Market.init regions units di = .ok m0) (hr : regions.Perm regions') (hu : units.Perm units')
    (hs : List.Forall₂ Op.sameRows ops ops') (ho : OrderFree m0 ops) (hb : Benign m0 ops) :
    ∃ m0', Market.init regions' units' di = .ok m0' ∧ (m0'.outcomes ops').map Prod.snd = (m0.outcomes ops).map Prod.snd ∧
      SameDispatch (m0.run ops) (m0'.run ops') := by
  obtain ⟨M0, H0, h⟩ := init_shuf h0 hr hu
  have R : Reached m0 := ⟨_, _, _, m0, [], h0, trivial, rfl⟩
  obtain ⟨⟨f, g, s⟩, hb', e⟩ := run_shuf hs R (sortedWF_init h0) (sortedWF_init H0) h ho hb
  exact ⟨M0, H0, e, sameDispatch_of ⟨s.tabs, s.vars.inj, s.cons.inj, (wf_run h0 hb).ids, (wf_run H0 hb').ids⟩⟩

/-- **C115** A market that is refused is refused with its tables in any order. -/
theorem C115_refused {regions regions' : List String} {units units' : List UnitInfo} {di : ℚ} {e : Err}
    (h0 : Market.init regions units di = .error e) (hr : regions.Perm regions') (hu : units.Perm units') :
    Market.init regions' units' di = .error e := by
  cases h : Market.init regions' units' di with
  | ok m =>
    obtain ⟨M, hM, _⟩ := init_shuf h hr.symm hu.symm
    rw [h0] at hM
    cases hM
  | error e' =>
    have key : ∀ {r : List String} {u : List UnitInfo} {e : Err}, Market.init r u di = .error e → e = .validation := by
      intro r u e he
      unfold Market.init at he
      split at he
      · cases he
      · injection he with he
        exact he.symm
    rw [key h, key h0]

/-! ### When the order of rows matters -/

/-- a market with a raise service of 15 MW -/
def orderMarket : Market := Market.run { regions := ["NSW", "VIC"], units := [{ unit := "A", region := "NSW" }], di := 5 }
  [.volumeBids [{ unit := "A", service := .raise6s, bands := [("1", 15)] }]]

/-- two rows of one FCAS requirement set with different volumes -/
def orderReqs : List FcasReq :=
  [{ set := "R", service := .raise6s, region := "NSW", volume := 10 }, { set := "R", service := .raise6s, region := "VIC", volume := 20 }]

/-- **Rows of one FCAS requirement set with different volumes: the order matters.**  Only the first row of a set decides on the
volume (`market_constraints.py:176-181`).  With the two rows exchanged the requirement is 20 instead of 10, which the market
cannot meet. -/
theorem C115_fcas_volumes_negation : let m := (orderMarket.step (.fcasReq orderReqs none))
    let m' := (orderMarket.step (.fcasReq orderReqs.reverse none))
    (Op.fcasReq orderReqs none).sameRows (.fcasReq orderReqs.reverse none) ∧ m.2 = none ∧ m'.2 = none ∧
    (∃ lp x, m.1.assemble = .ok lp ∧ Feasible lp x) ∧ (∀ lp x, m'.1.assemble = .ok lp → ¬ Feasible lp x) := by
  refine ⟨⟨(List.reverse_perm _).symm, trivial⟩, by decide +kernel, by decide +kernel, ?_, ?_⟩
  · have h : (match (orderMarket.step (.fcasReq orderReqs none)).1.assemble with
        | .ok lp => decide (Feasible lp (fun _ => 10)) | .error _ => false) = true := by decide +kernel
    split at h
    · rename_i lp e
      exact ⟨lp, _, e, of_decide_eq_true h⟩
    · cases h
  · intro lp x e hx
    have h : (orderMarket.step (.fcasReq orderReqs.reverse none)).1.assemble = .ok
        { vars := [{ vid := 0, lb := 0, ub := some 15 }], rows := [{ cid := 0, coefs := [(0, 1)], ctype := .eq, rhs := .const 20 }],
          sos2 := [], sos1 := [], obj := [] } := by decide +kernel
    rw [h] at e
    injection e with e
    subst e
    have h1 := (hx.vars _ (List.mem_singleton.2 rfl)).2 15 rfl
    have h2 := hx.rows _ (List.mem_singleton.2 rfl)
    have h3 : linVal x [(0, 1)] = 20 := h2
    simp only [linVal, List.map_cons, List.map_nil, List.sum_cons, List.sum_nil] at h3
    dsimp only at h1
    linarith

/-- two bidirectional units -/
def tieUnits : List UnitInfo :=
  [{ unit := "A", region := "NSW" }, { unit := "A", region := "NSW", dtype := .load }, { unit := "B", region := "NSW" },
   { unit := "B", region := "NSW", dtype := .load }]

/-- both offer to generate and to consume 10 MW, all at the price 10 -/
def tieRows : List BidRow :=
  [{ unit := "A", bands := [("1", 10)] }, { unit := "A", dtype := .load, bands := [("1", 10)] },
   { unit := "B", bands := [("1", 10)] }, { unit := "B", dtype := .load, bands := [("1", 10)] }]

def tieHist (b : List BidRow) : List Op :=
  [.volumeBids b, .priceBids b, .demand [{ region := "NSW", demand := 10 }] none, .tieBreak 1]

def tieMarket (b : List BidRow) : Market := Market.run { regions := ["NSW"], units := tieUnits, di := 5 } (tieHist b)

/-- **Tie-break constraints with bidirectional units: the order of rows matters.**  The name of a tied pair is made of units and
bands only (`unit_constraints.py:569-578`), so of the tied bids to generate and the tied bids to consume one pair is kept, the one
whose bids come first.  If the bids to consume come first then one unit may generate all of the demand of 10 MW at no penalty. -/
theorem C115_tie_break_negation : let m0 : Market := { regions := ["NSW"], units := tieUnits, di := 5 }
    Market.init ["NSW"] tieUnits 5 = .ok m0 ∧ List.Forall₂ Op.sameRows (tieHist tieRows) (tieHist tieRows.reverse) ∧
    (∀ r ∈ m0.outcomes (tieHist tieRows), r.2 = none) ∧ (∀ r ∈ m0.outcomes (tieHist tieRows.reverse), r.2 = none) ∧
    ¬ SameDispatch (m0.run (tieHist tieRows)) (m0.run (tieHist tieRows.reverse)) := by
  refine ⟨rfl, ?_, by decide +kernel, by decide +kernel, ?_⟩
  · exact .cons (List.reverse_perm _).symm (.cons (List.reverse_perm _).symm (.cons ⟨.refl _, trivial⟩ (.cons rfl .nil)))
  show ¬ SameDispatch (tieMarket tieRows) (tieMarket tieRows.reverse)
  intro h
  have e : (tieMarket tieRows).assemble = .ok
      { vars := [{ vid := 0, lb := 0, ub := some 10 }, { vid := 1, lb := 0, ub := some 10 }, { vid := 2, lb := 0, ub := some 10 },
          { vid := 3, lb := 0, ub := some 10 }, { vid := 4, lb := 0, ub := none }, { vid := 5, lb := 0, ub := none }],
        rows := [{ cid := 1, coefs := [(0, 1/10), (2, -1/10), (4, -1), (5, 1)], ctype := .eq, rhs := .const 0 },
          { cid := 0, coefs := [(0, 1), (1, -1), (2, 1), (3, -1)], ctype := .eq, rhs := .const 10 }],
        sos2 := [], sos1 := [], obj := [(0, 10), (1, -10), (2, 10), (3, -10), (4, 1), (5, 1)] } := by decide +kernel
  have f : (match (tieMarket tieRows.reverse).assemble with
      | .ok lp => decide (Feasible lp (fun i => if i = 1 then 10 else 0) ∧ lp.cost (fun i => if i = 1 then 10 else 0) = 100)
      | .error _ => false) = true := by decide +kernel
  split at f
  swap
  · cases f
  rename_i lp' e'
  obtain ⟨f1, f2⟩ := of_decide_eq_true f
  obtain ⟨lp, x, el, hx, hs⟩ := h.2.feasible _ _ e' f1
  rw [e] at el
  injection el with el
  subst el
  have r1 := hx.rows _ (List.mem_cons_self ..)
  have r2 := hx.rows _ (List.mem_cons_of_mem _ (List.mem_cons_self ..))
  have v5 := (hx.vars { vid := 5, lb := 0, ub := none } (by decide)).1
  have hc := hs.cost
  have hu := hs.units
  have b1 : (tieMarket tieRows).bids = some [{ vid := 0, unit := "A", dtype := .generator, service := .energy, band := "1", ub := 10 },
      { vid := 1, unit := "A", dtype := .load, service := .energy, band := "1", ub := 10 }, { vid := 2, unit := "B", dtype := .generator, service := .energy, band := "1", ub := 10 },
      { vid := 3, unit := "B", dtype := .load, service := .energy, band := "1", ub := 10 }] := by decide +kernel
  have b2 : (tieMarket tieRows.reverse).unitDispatch (fun i => if i = 1 then 10 else 0) = .ok
      [{ unit := "A", dtype := .load, service := .energy, dispatch := 0 }, { unit := "A", dtype := .generator, service := .energy, dispatch := 10 },
       { unit := "B", dtype := .load, service := .energy, dispatch := 0 }, { unit := "B", dtype := .generator, service := .energy, dispatch := 0 }] := by
    decide +kernel
  have b3 : (tieMarket tieRows).unitDispatch x = .ok
      [{ unit := "A", dtype := .generator, service := .energy, dispatch := x 0 }, { unit := "A", dtype := .load, service := .energy, dispatch := x 1 },
       { unit := "B", dtype := .generator, service := .energy, dispatch := x 2 }, { unit := "B", dtype := .load, service := .energy, dispatch := x 3 }] := by
    unfold Market.unitDispatch
    rw [b1]
    simp [groupSum]
  unfold Market.report at hu hc
  dsimp only at hu hc
  rw [b2, b3] at hu
  change List.Perm _ _ at hu
  have x0 : x 0 = 10 := by
    have := hu.mem_iff.1 (List.mem_cons_of_mem _ (List.mem_cons_self ..))
    simp at this
    exact this.symm
  have x2 : x 2 = 0 := by
    have := hu.mem_iff.1 (List.mem_cons_of_mem _ (List.mem_cons_of_mem _ (List.mem_cons_of_mem _ (List.mem_cons_self ..))))
    simp at this
    exact this.symm
  rw [f2] at hc
  change linVal x _ = 0 at r1
  change linVal x _ = 10 at r2
  change (0 : ℚ) ≤ x 5 at v5
  simp only [linVal, List.map_cons, List.map_nil, List.sum_cons, List.sum_nil] at r1 r2
  simp only [Lp.cost, linVal, List.map_cons, List.map_nil, List.sum_cons, List.sum_nil] at hc
  rw [x0, x2] at r1
  linarith

/-! ### Instances -/

/-- the call with the rows of all its tables reversed -/
def Op.reversed : Op → Op
  | .volumeBids b => .volumeBids b.reverse
  | .priceBids b => .priceBids b.reverse
  | .demand d vc => .demand d.reverse vc
  | .fcasReq r vc => .fcasReq r.reverse vc
  | .interconnectors d => .interconnectors d.reverse
  | .losses f b => .losses f.reverse b.reverse
  | .capacity l vc => .capacity l.reverse vc
  | op => op

/-- two regions, a link in each direction with losses, three generators, FCAS in both regions -/
def orderHist : List Op :=
  [.volumeBids [{ unit := "A", bands := [("1", 200), ("2", 50)] }, { unit := "D", bands := [("1", 40), ("2", 20)] }, { unit := "B", bands := [("1", 100), ("2", 0)] },
     { unit := "B", service := .raise6s, bands := [("1", 20), ("2", 0)] }],
   .priceBids [{ unit := "A", bands := [("1", 20), ("2", 30)] }, { unit := "D", bands := [("1", 20), ("2", 30)] }, { unit := "B", bands := [("1", 50), ("2", 60)] },
     { unit := "B", service := .raise6s, bands := [("1", 5), ("2", 6)] }],
   .interconnectors [{ inter := "I", link := "L1", fromR := "NSW", toR := "VIC", min := 0, max := 100 },
     { inter := "I", link := "L2", fromR := "VIC", toR := "NSW", min := 0, max := 100 }],
   .losses [{ inter := "I", link := "L1", share := 1/2, fn := fun f => f * f / 1000 },
       { inter := "I", link := "L2", share := 1/2, fn := fun f => f * f / 1000 }]
     [⟨"I", "L1", 0, 0⟩, ⟨"I", "L1", 1, 50⟩, ⟨"I", "L1", 2, 100⟩, ⟨"I", "L2", 0, 0⟩, ⟨"I", "L2", 1, 100⟩],
   .demand [{ region := "NSW", demand := 100 }, { region := "VIC", demand := 60 }] (some (.num 14000)),
   .fcasReq [{ set := "R", service := .raise6s, region := "NSW", volume := 10 },
     { set := "R", service := .raise6s, region := "VIC", volume := 10 }] (some (.num 1000)),
   .capacity [{ unit := "A", val := 150 }, { unit := "C", val := 10 }] none,
   .tieBreak (1/1000)]

def orderUnits : List UnitInfo := [{ unit := "A", region := "NSW" }, { unit := "B", region := "VIC" }, { unit := "D", region := "NSW" }]

/-- instance of C115: every table reversed; the ids of the variables change, a call with an unknown unit is refused in both orders,
two pairs of bids are tied, and both programs can be built -/
example : let m0 : Market := { regions := ["NSW", "VIC"], units := orderUnits, di := 5 }
    let m0' : Market := { regions := ["VIC", "NSW"], units := orderUnits.reverse, di := 5 }
    Market.init ["NSW", "VIC"] orderUnits 5 = .ok m0 ∧ Market.init ["VIC", "NSW"] orderUnits.reverse 5 = .ok m0' ∧
    List.Forall₂ Op.sameRows orderHist (orderHist.map Op.reversed) ∧ OrderFree m0 orderHist ∧ Benign m0 orderHist ∧
    (m0.outcomes orderHist).map Prod.snd = [none, none, none, none, none, none, some .validation, none] ∧
    (m0'.outcomes (orderHist.map Op.reversed)).map Prod.snd = [none, none, none, none, none, none, some .validation, none] ∧
    ((m0.run orderHist).weights.getD []).map (fun w => (w.link, w.bp, w.vid)) =
      [("L1", 0, 10), ("L1", 50, 11), ("L1", 100, 12), ("L2", 0, 13), ("L2", 100, 14)] ∧
    ((m0'.run (orderHist.map Op.reversed)).weights.getD []).map (fun w => (w.link, w.bp, w.vid)) =
      [("L2", 100, 10), ("L2", 0, 11), ("L1", 100, 12), ("L1", 50, 13), ("L1", 0, 14)] ∧
    ((m0.run orderHist).tieLhs.getD []).length = 4 ∧
    (match (m0.run orderHist).assemble, (m0'.run (orderHist.map Op.reversed)).assemble with | .ok _, .ok _ => true | _, _ => false) = true := by
  refine ⟨rfl, rfl, ?_, ?_, benignB_iff.1 (by decide +kernel), by decide +kernel, by decide +kernel, by decide +kernel, by decide +kernel,
    by decide +kernel, by decide +kernel⟩
  · refine .cons (List.reverse_perm _).symm (.cons (List.reverse_perm _).symm (.cons (List.reverse_perm _).symm
      (.cons ⟨(List.reverse_perm _).symm, (List.reverse_perm _).symm⟩ (.cons ⟨(List.reverse_perm _).symm, optSame_refl _⟩
      (.cons ⟨(List.reverse_perm _).symm, optSame_refl _⟩ (.cons ⟨(List.reverse_perm _).symm, optSame_refl _⟩ (.cons rfl .nil)))))))
  · refine ⟨trivial, trivial, trivial, ?_, trivial, ?_, trivial, ⟨by decide +kernel, by decide +kernel⟩, trivial⟩
    · have : ∀ v ∈ (Market.run { regions := ["NSW", "VIC"], units := orderUnits, di := 5 } (orderHist.take 3)).inters.getD [],
        v.inter = "I" ∧ (v.link = "L1" ∨ v.link = "L2") := by decide +kernel
      intro v hv
      obtain ⟨a, b | b⟩ := this v hv
      · exact ⟨_, List.mem_cons_self .., a.symm, b.symm⟩
      · exact ⟨_, List.mem_cons_of_mem _ (List.mem_cons_self ..), a.symm, b.symm⟩
    · show ∀ a ∈ _, ∀ b ∈ _, _
      decide +kernel

end Verif
