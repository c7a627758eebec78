import Verif.Model.Infeasible
import Verif.Proofs.Frame
import Verif.Proofs.Setters
import Verif.Proofs.Demo
import Mathlib.Tactic.Linarith

/-! # Properties C94 and C95: infeasible programs, names of constraint sets -/

namespace Verif

/-- The program without the constraints with these names. -/
def Lp.without (lp : Lp) (cs : List Nat) : Lp := { lp with rows := lp.rows.filter (fun r => decide (r.cid ∉ cs)) }

theorem Lp.without_nil (lp : Lp) : lp.without [] = lp := by
  unfold Lp.without
  simp

theorem Lp.without_remove (lp : Lp) (cs : List Nat) (c : Nat) : (lp.without cs).remove c = lp.without (cs ++ [c]) := by
  unfold Lp.without Lp.remove
  simp only [List.filter_filter]
  congr 1
  apply List.filter_congr
  intro r _
  simp [and_comm]

theorem loop_spec (opt : Lp → Bool) (lp : Lp) (cs : List Nat) : ∀ acc : List Nat,
    (∀ n, 0 < n → n ≤ cs.length → opt (lp.without (acc ++ cs.take n)) = false) ∧ findProblemLoop opt cs (lp.without acc) acc = [] ∨
    ∃ n, 0 < n ∧ n ≤ cs.length ∧ findProblemLoop opt cs (lp.without acc) acc = acc ++ cs.take n ∧
      opt (lp.without (acc ++ cs.take n)) = true ∧ ∀ k, 0 < k → k < n → opt (lp.without (acc ++ cs.take k)) = false := by
  induction cs with
  | nil =>
    intro acc
    exact Or.inl ⟨fun n h0 h1 => absurd h0 (by simp at h1; omega), rfl⟩
  | cons c cs ih =>
    intro acc
    unfold findProblemLoop
    rw [Lp.without_remove]
    cases ho : opt (lp.without (acc ++ [c])) with
    | true =>
      refine Or.inr ⟨1, by omega, by simp, by simp, by simpa using ho, fun k h0 h1 => absurd h0 (by omega)⟩
    | false =>
      simp only [Bool.false_eq_true, if_false]
      have happ : ∀ n, acc ++ [c] ++ cs.take n = acc ++ (c :: cs).take (n + 1) := by intro n; simp
      have hzero : ∀ k, k = 1 → opt (lp.without (acc ++ (c :: cs).take k)) = false := by intro k hk; subst hk; simpa using ho
      rcases ih (acc ++ [c]) with ⟨h1, h2⟩ | ⟨n, h0, hn, h1, h2, h3⟩
      · refine Or.inl ⟨?_, h2⟩
        intro n hn0 hn
        by_cases h : n = 1
        · exact hzero n h
        · obtain ⟨k, rfl⟩ : ∃ k, n = k + 1 := ⟨n - 1, by omega⟩
          rw [← happ]
          exact h1 k (by omega) (by simp at hn; omega)
      · refine Or.inr ⟨n + 1, by omega, by simp; omega, by rw [h1, happ], by rw [← happ]; exact h2, ?_⟩
        intro k hk0 hk
        by_cases h : k = 1
        · exact hzero k h
        · obtain ⟨j, rfl⟩ : ∃ j, k = j + 1 := ⟨k - 1, by omega⟩
          rw [← happ]
          exact h3 j (by omega) (by omega)

/-! ## C94 -/

/-- **C94**, the constraints that are named.  If constraints are printed, they are the first constraints of the program, the program
without them has a solution and without fewer of the first constraints it has none.  If none is printed, there is no such number of
first constraints. -/
theorem C94_problem (opt : Lp → Bool) (lp : Lp) :
    (∀ cs, findProblem opt lp = cs → cs ≠ [] → cs <+: lp.rows.map LRow.cid ∧ opt (lp.without cs) = true ∧
      ∀ cs', cs' <+: cs → cs' ≠ [] → cs' ≠ cs → opt (lp.without cs') = false) ∧
    (findProblem opt lp = [] ↔ ∀ cs, cs <+: lp.rows.map LRow.cid → cs ≠ [] → opt (lp.without cs) = false) := by
  have h := loop_spec opt lp (lp.rows.map LRow.cid) []
  rw [Lp.without_nil] at h
  simp only [List.nil_append] at h
  unfold findProblem
  generalize lp.rows.map LRow.cid = all at h ⊢
  have hpre : ∀ {cs : List Nat}, cs <+: all → cs ≠ [] → 0 < cs.length ∧ cs.length ≤ all.length ∧ all.take cs.length = cs := by
    intro cs hc hne
    exact ⟨List.length_pos_iff.2 hne, hc.length_le, (List.prefix_iff_eq_take.1 hc).symm⟩
  rcases h with ⟨h1, h2⟩ | ⟨n, h0, hn, h1, h2, h3⟩
  · rw [h2]
    refine ⟨fun cs hcs hne => absurd hcs.symm hne, fun _ cs hc hne => ?_, fun _ => rfl⟩
    obtain ⟨p1, p2, p3⟩ := hpre hc hne
    rw [← p3]
    exact h1 _ p1 p2
  · rw [h1]
    have hlen : (all.take n).length = n := by simp [hn]
    refine ⟨fun cs hcs hne => ?_, fun h => ?_, fun h => ?_⟩
    · subst hcs
      refine ⟨List.take_prefix n all, h2, fun cs' hc' hne' hlt => ?_⟩
      obtain ⟨p1, p2, p3⟩ := hpre (hc'.trans (List.take_prefix n all)) hne'
      rw [← p3]
      refine h3 _ p1 (Nat.lt_of_le_of_ne (by have := hc'.length_le; omega) ?_)
      intro he
      exact hlt (by rw [← p3, he])
    · exact absurd (congrArg List.length h) (by rw [hlen]; simp; omega)
    · have := h (all.take n) (List.take_prefix n all) (fun hc => by rw [hc] at hlen; simp at hlen; omega)
      rw [h2] at this
      cases this

/-- Two constraints that contradict each other and one that does not matter. -/
def badLp : Lp :=
  { vars := [⟨0, 0, some 10⟩], rows := [⟨7, [(0, 1)], .ge, .const 3⟩, ⟨8, [(0, 1)], .le, .const 2⟩, ⟨9, [(0, 1)], .le, .const 5⟩],
    sos2 := [], sos1 := [], obj := [(0, 1)] }

example : findProblem (fun lp => decide (lp.rows.length < 2)) badLp = [7, 8] := by decide +kernel

/-- The solver is right: what it returns is optimal, and it returns something if there is an optimal solution. -/
def Solver.Correct (S : Solver) : Prop :=
  ∀ lp, (∀ x, S.mip lp = some x → Optimal lp x) ∧ (S.mip lp = none → ¬ ∃ x, Optimal lp x)

/-- **C94**.  With a correct solver `dispatch` raises ValueError exactly if the program has no optimal solution, for instance because
the constraints contradict each other, and otherwise the values it leaves are an optimal solution and the objective value is its
cost. -/
theorem C94_dispatch (S : Solver) (hS : S.Correct) (m : Market) (lp : Lp) (ocd : Option ReRun) (h : m.assemble = .ok lp)
    (hp : ∀ r ∈ m.mktRhs.concat, r.cid ∈ lp.rows.map LRow.cid) :
    (m.dispatch S ocd = .error .valueError ↔ ¬ ∃ x, Optimal lp x) ∧
    ((∃ x, Optimal lp x) → ∃ o, m.dispatch S ocd = .ok o ∧ Optimal lp o.x ∧ o.cost = lp.cost o.x) := by
  have hpr : m.priced lp = true := by
    unfold Market.priced
    rw [List.all_eq_true]
    exact fun r hr => decide_eq_true (hp r hr)
  obtain ⟨h1, h2⟩ := hS lp
  unfold Market.dispatch
  rw [h]
  dsimp only
  cases hm : S.mip lp with
  | none => exact ⟨⟨fun _ => h2 hm, fun _ => rfl⟩, fun hx => absurd hx (h2 hm)⟩
  | some x =>
    simp only [hpr, if_true]
    exact ⟨⟨fun hc => (nomatch hc), fun hc => absurd ⟨x, h1 x hm⟩ hc⟩, fun _ => ⟨_, rfl, h1 x hm, rfl⟩⟩

/-- **C94**, the exception of an infeasible program. -/
theorem C94_infeasible (S : Solver) (hS : S.Correct) (m : Market) (lp : Lp) (ocd : Option ReRun) (h : m.assemble = .ok lp)
    (hx : ∀ x, ¬ Feasible lp x) : m.dispatch S ocd = .error .valueError ∧
      ∃ cs, S.optimize lp = .error (.valueError, cs) ∧
        (cs ≠ [] → cs <+: lp.rows.map LRow.cid ∧ ∃ x, Optimal (lp.without cs) x) := by
  have hn : S.mip lp = none := by
    cases hm : S.mip lp with
    | none => rfl
    | some x => exact absurd ((hS lp).1 x hm).1 (hx x)
  refine ⟨by unfold Market.dispatch; rw [h]; dsimp only; rw [hn], _, by unfold Solver.optimize; rw [hn], fun hne => ?_⟩
  obtain ⟨p, ho, -⟩ := (C94_problem (fun lp => (S.mip lp).isSome) lp).1 _ rfl hne
  refine ⟨p, ?_⟩
  obtain ⟨x, hx⟩ := Option.isSome_iff_exists.1 ho
  exact ⟨x, (hS _).1 x hx⟩

/-- A correct solver exists. -/
noncomputable def perfectSolver : Solver :=
  { mip := fun lp => open Classical in if h : ∃ x, Optimal lp x then some (Classical.choose h) else none
    dual := fun _ _ => 0
    sort := id }

theorem perfectSolver_correct : perfectSolver.Correct := by
  intro lp
  unfold perfectSolver
  refine ⟨fun x hx => ?_, fun hn => ?_⟩
  · by_cases h : ∃ x, Optimal lp x
    · simp only [h, dif_pos, Option.some.injEq] at hx
      rw [← hx]
      exact Classical.choose_spec h
    · simp [h] at hx
  · by_cases h : ∃ x, Optimal lp x
    · simp [h] at hn
    · exact h

/-- A market that cannot meet its demand. -/
def shortMarket : Market :=
  match Market.init ["NSW"] [{ unit := "A", region := "NSW" }] 5 with
  | .ok m => m.run [.volumeBids [{ unit := "A", bands := [("1", 10)] }], .priceBids [{ unit := "A", bands := [("1", 20)] }],
      .demand [{ region := "NSW", demand := 50 }] none]
  | .error _ => { regions := [], units := [], di := 5 }

example : ∃ lp, shortMarket.assemble = .ok lp ∧ (∀ x, ¬ Feasible lp x) ∧ (∀ r ∈ shortMarket.mktRhs.concat, r.cid ∈ lp.rows.map LRow.cid) := by
  refine ⟨{ vars := [⟨0, 0, some 10⟩], rows := [⟨0, [(0, 1)], .eq, .const 50⟩], sos2 := [], sos1 := [], obj := [(0, 20)] },
    by decide +kernel, fun x hx => ?_, by decide +kernel⟩
  have h1 := (hx.vars _ (List.mem_singleton.2 rfl)).2 10 rfl
  have h2 := hx.rows _ (List.mem_singleton.2 rfl)
  simp [LRow.holds, CType.holds, linVal, Rhs.eval] at h1 h2
  linarith

example : shortMarket.setNames = [.demand] := by decide +kernel

/-! ## C95 -/

/-- **C95**.  The names of constraint sets are those that `make_constraints_elastic` accepts: every other name, and no listed one, gives
ModelBuildError. -/
theorem C95_names (m : Market) (k : CKey) (c : VCost) : k ∈ m.setNames ↔ (m.makeElastic k c).2 ≠ some .modelBuild := by
  have hmem : ∀ d : Dict CKey (List Row), k ∈ d.map (·.1) ↔ d.get? k ≠ none := by
    intro d
    induction d with
    | nil => simp [Dict.get?]
    | cons e d ih =>
      simp only [List.map_cons, List.mem_cons, Dict.get?]
      by_cases h : e.1 = k
      · simp [h]
      · simp only [if_neg h, ← ih, or_iff_right_iff_imp]
        exact fun hc => absurd hc.symm h
  have herr : ∀ rows e, costRows k rows c = .error e → e ≠ .modelBuild := by
    intro rows e he
    unfold costRows at he
    cases c with
    | num c => cases he
    | table t =>
      dsimp only at he
      split at he
      · injection he with he; subst he; decide
      · split at he
        · injection he with he; subst he; decide
        · cases he
  have hsome : ∀ rows, m.rowsOf k = some rows → (m.makeElastic k c).2 ≠ some .modelBuild := by
    intro rows hr
    unfold Market.makeElastic
    rw [hr]
    dsimp only
    cases he : costRows k rows c with
    | error e =>
      intro hc
      injection hc with hc
      exact herr rows e he hc
    | ok rs =>
      dsimp only
      split
      · simp
      · split <;> simp
  have hnone : m.rowsOf k = none → (m.makeElastic k c).2 = some .modelBuild := by
    intro hr
    unfold Market.makeElastic
    rw [hr]
  have hrows : k ∈ m.setNames ↔ m.rowsOf k ≠ none := by
    unfold Market.setNames Market.rowsOf
    rw [List.mem_append, hmem, hmem]
    cases m.mktRhs.get? k <;> simp
  rw [hrows]
  cases hr : m.rowsOf k with
  | none => simp [hnone hr]
  | some rows => simp [hsome rows hr]

/-- **C95**, no name is listed twice. -/
theorem C95_nodup {m : Market} (h : Reached m) : m.setNames.Nodup := by
  have hw := h.wf.con
  refine List.nodup_append.2 ⟨hw.mktKeys, hw.conKeys, ?_⟩
  intro a ha b hb hab
  subst hab
  obtain ⟨e, he, rfl⟩ := List.mem_map.1 ha
  obtain ⟨e', he', hee⟩ := List.mem_map.1 hb
  have h1 := hw.mktMkt e he
  have h2 := hw.conMkt e' he'
  rw [hee, h1] at h2
  cases h2

theorem keys_set_of {α : Type} (d : Dict CKey α) (k k' : CKey) (v : α) (h : k' ∈ d.map (·.1) ∨ k' = k) : k' ∈ (d.set k v).map (·.1) := by
  have := Dict.keys_set d k v
  change k' ∈ (d.set k v).map Prod.fst
  rw [this]
  split
  · rename_i hk
    rcases h with h | rfl
    · exact h
    · exact hk
  · rcases h with h | rfl
    · exact List.mem_append.2 (Or.inl h)
    · simp

theorem names_of {m m' : Market} {k : CKey} (h1 : k ∈ m.mktRhs.map (·.1) → k ∈ m'.mktRhs.map (·.1))
    (h2 : k ∈ m.conRhs.map (·.1) → k ∈ m'.conRhs.map (·.1)) (h : k ∈ m.setNames) : k ∈ m'.setNames := by
  unfold Market.setNames at h ⊢
  rw [List.mem_append] at h ⊢
  exact h.imp h1 h2

theorem names_elastic (m : Market) (k : CKey) (c : VCost) : (m.makeElastic k c).1.setNames = m.setNames := by
  unfold Market.makeElastic
  split
  · rfl
  split
  · rfl
  split
  · rfl
  dsimp only
  split <;> rfl

theorem names_elasticOpt (m : Market) (k : CKey) (c : Option VCost) : (m.elasticOpt k c).1.setNames = m.setNames := by
  cases c with
  | none => rfl
  | some c => exact names_elastic m k c

theorem names_prim {good : Prop} {ks : List Part} {m m' : Market} (h : Prim good ks m m') {k : CKey} (hne : k ≠ .fastStart)
    (hm : k ∈ m.setNames) : k ∈ m'.setNames := by
  cases h with
  | bids _ b =>
    unfold Market.setVolumeBids
    split
    · exact hm
    split
    · exact hm
    dsimp only
    split <;> exact hm
  | prices _ b =>
    unfold Market.setPriceBids
    split
    · exact hm
    split
    · exact hm
    split <;> exact hm
  | unitSet _ k' t hk' ht =>
    unfold Market.addUnitSet; dsimp only
    split <;> exact names_of (m := m) (fun h => h) (fun h => keys_set_of _ _ _ _ (Or.inl h)) hm
  | regSet _ k' t hk' ht =>
    unfold Market.addRegSet; dsimp only
    split <;> exact names_of (m := m) (fun h => keys_set_of _ _ _ _ (Or.inl h)) (fun h => h) hm
  | elastic _ k' c => rw [names_elastic]; exact hm
  | removeFs _ =>
    have her : ∀ d : Dict CKey (List Row), k ∈ d.map (·.1) → k ∈ (d.erase .fastStart).map (·.1) := by
      intro d hd
      induction d with
      | nil => exact hd
      | cons e d ih =>
        simp only [List.map_cons, List.mem_cons] at hd
        simp only [Dict.erase]
        split
        · rename_i he
          exact ih (hd.resolve_left (fun hc => hne (hc.trans he)))
        · exact List.mem_cons.2 (hd.imp id ih)
    unfold Market.removeFastStart
    dsimp only
    split <;> split <;> first | exact hm | exact names_of (m := m) (fun h => h) (fun h => her _ h) hm
  | inters _ d =>
    unfold Market.setInterconnectors
    split
    · exact hm
    dsimp only
    split <;> exact hm
  | losses _ f b hb' =>
    unfold Market.setLosses
    split
    · exact hm
    dsimp only
    split
    · split
      · exact hm
      · exact names_of (m := m) (fun h => h) (fun h => keys_set_of _ _ _ _ (Or.inl h)) hm
    · exact hm
  | generic _ g =>
    unfold Market.setGeneric
    split
    · exact hm
    dsimp only [Market.elasticOpt]
    split <;> exact names_of (m := m) (fun h => h) (fun h => keys_set_of _ _ _ _ (Or.inl h)) hm
  | linkUnits _ g => unfold Market.linkUnits; split <;> exact hm
  | linkRegions _ g => unfold Market.linkRegions; split <;> exact hm
  | linkInters _ g => unfold Market.linkInters; split <;> exact hm
  | tie _ ps hps => exact names_of (m := m) (fun h => h) (fun h => keys_set_of _ _ _ _ (Or.inl h)) hm

/-- **C95**, a listed name stays listed whatever is called later; only fast start constraints can be removed. -/
theorem C95_kept (m : Market) (ops : List Op) {k : CKey} (hne : k ≠ .fastStart) (hm : k ∈ m.setNames) : k ∈ (m.run ops).setNames :=
  run_invariant (good := False) (P := fun m => k ∈ m.setNames) (fun _ _ _ p h => names_prim p hne h) (fun h => h.elim) hm

/-- The constraint sets that a call defines. -/
def Op.defines : Op → List CKey
  | .capacity _ _ => [.unitBidCapacity]
  | .uigf _ _ => [.uigf]
  | .rampRates _ _ _ _ _ => [.rampUp, .rampDown]
  | .demand _ _ => [.demand]
  | .fcasReq _ _ => [.fcas]
  | .fcasMaxAvail _ _ => [.fcasMaxAvail]
  | .jointCapacity _ _ => [.jointCapacity]
  | .energyReg _ _ => [.energyReg]
  | .losses _ _ => [.interpWeights]
  | .generic _ _ => [.generic]
  | .tieBreak _ => [.tieBreak]
  | _ => []

theorem names_unitSet (m : Market) (k : CKey) (t : List Row × List ConUnit) : k ∈ (m.addUnitSet k t).1.setNames := by
  unfold Market.addUnitSet; dsimp only
  have : k ∈ ({ m with conRhs := m.conRhs.set k t.1, unitCon := m.unitCon.set k t.2 } : Market).setNames :=
    List.mem_append.2 (Or.inr (keys_set_of _ _ _ _ (Or.inr rfl)))
  split <;> exact this

theorem names_regSet (m : Market) (k : CKey) (t : List Row × List ConReg) : k ∈ (m.addRegSet k t).1.setNames := by
  unfold Market.addRegSet; dsimp only
  have : k ∈ ({ m with mktRhs := m.mktRhs.set k t.1, regCon := m.regCon.set k t.2 } : Market).setNames :=
    List.mem_append.2 (Or.inl (keys_set_of _ _ _ _ (Or.inr rfl)))
  split <;> exact this

theorem names_then {r : Res} {f : Market → Res} {k : CKey} (hr : k ∈ r.1.setNames)
    (hf : ∀ m, k ∈ m.setNames → k ∈ (f m).1.setNames) : k ∈ (r.andThen f).1.setNames := by
  unfold Res.andThen
  cases r.2 with
  | none => exact hf _ hr
  | some e => exact hr

theorem names_unitSet_keep (m : Market) (k k' : CKey) (t : List Row × List ConUnit) (h : k ∈ m.setNames) :
    k ∈ (m.addUnitSet k' t).1.setNames := by
  unfold Market.addUnitSet; dsimp only
  split <;> exact names_of (m := m) (fun h => h) (fun h => keys_set_of _ _ _ _ (Or.inl h)) h

/-- **C95**, after a successful call of a setter its constraint sets are listed. -/
theorem C95_listed (m : Market) (op : Op) (h : (m.step op).2 = none) : ∀ k ∈ op.defines, k ∈ (m.step op).1.setNames := by
  have hn := step_ok h
  intro k hk
  have hne : k ≠ .fastStart := by
    cases op <;> simp [Op.defines] at hk <;> first | (subst hk; decide) | (rcases hk with rfl | rfl <;> decide)
  have hel : ∀ (k' : CKey) (vc : Option VCost) (m : Market), k ∈ m.setNames → k ∈ (m.elasticOpt k' vc).1.setNames :=
    fun k' vc m hm => by rw [names_elasticOpt]; exact hm
  unfold Market.step at h ⊢
  simp only [hn, Bool.false_eq_true, if_false] at h ⊢
  cases op with
  | capacity l vc =>
    simp only [Op.defines, List.mem_singleton] at hk; subst hk
    dsimp only [Market.setCapacity] at h ⊢
    split at h; · cases h
    split at h; · cases h
    rw [if_neg (by assumption), if_neg (by assumption)]
    exact names_then (names_unitSet _ _ _) (hel _ vc)
  | uigf l vc =>
    simp only [Op.defines, List.mem_singleton] at hk; subst hk
    dsimp only [Market.setUigf] at h ⊢
    split at h; · cases h
    split at h; · cases h
    rw [if_neg (by assumption), if_neg (by assumption)]
    exact names_then (names_unitSet _ _ _) (hel _ vc)
  | demand l vc =>
    simp only [Op.defines, List.mem_singleton] at hk; subst hk
    dsimp only [Market.setDemand] at h ⊢
    split at h; · cases h
    rw [if_neg (by assumption)]
    exact names_then (names_regSet _ _ _) (hel _ vc)
  | fcasReq l vc =>
    simp only [Op.defines, List.mem_singleton] at hk; subst hk
    dsimp only [Market.setFcasReq] at h ⊢
    split at h; · cases h
    rw [if_neg (by assumption)]
    exact names_then (names_regSet _ _ _) (hel _ vc)
  | fcasMaxAvail l vc =>
    simp only [Op.defines, List.mem_singleton] at hk; subst hk
    dsimp only [Market.setFcasMaxAvail] at h ⊢
    split at h; · cases h
    rw [if_neg (by assumption)]
    exact names_then (names_unitSet _ _ _) (hel _ vc)
  | jointCapacity l vc =>
    simp only [Op.defines, List.mem_singleton] at hk; subst hk
    dsimp only [Market.setJointCapacity] at h ⊢
    split at h; · cases h
    split at h; · cases h
    rw [if_neg (by assumption), if_neg (by assumption)]
    exact names_then (names_unitSet _ _ _) (hel _ vc)
  | energyReg l vc =>
    simp only [Op.defines, List.mem_singleton] at hk; subst hk
    dsimp only [Market.setEnergyReg] at h ⊢
    split at h; · cases h
    split at h; · cases h
    rw [if_neg (by assumption), if_neg (by assumption)]
    exact names_then (names_unitSet _ _ _) (hel _ vc)
  | generic g vc =>
    simp only [Op.defines, List.mem_singleton] at hk; subst hk
    dsimp only [Market.setGeneric] at h ⊢
    split at h; · cases h
    rw [if_neg (by assumption)]
    refine hel _ vc _ ?_
    split <;> exact List.mem_append.2 (Or.inr (keys_set_of _ _ _ _ (Or.inr rfl)))
  | losses f b =>
    simp only [Op.defines, List.mem_singleton] at hk; subst hk
    dsimp only [Market.setLosses] at h ⊢
    split at h; · cases h
    rw [if_neg (by assumption)]
    split
    · rename_i h1 h2 h3
      simp only [h1, h2, h3] at h
      split at h; · cases h
      rw [if_neg (by assumption)]
      exact List.mem_append.2 (Or.inr (keys_set_of _ _ _ _ (Or.inr rfl)))
    · rename_i hno
      split at h
      · rename_i h1 h2 h3; exact (hno _ _ _ h1 h2 h3).elim
      · cases h
  | tieBreak c =>
    simp only [Op.defines, List.mem_singleton] at hk; subst hk
    dsimp only [Market.setTieBreak] at h ⊢
    split at h
    · rename_i h1 h2
      simp only [h1, h2]
      split at h; · cases h
      rw [if_neg (by assumption), names_elastic]
      exact List.mem_append.2 (Or.inr (keys_set_of _ _ _ _ (Or.inr rfl)))
    · cases h
  | rampRates r sc ps rt vc =>
    dsimp only [Market.setRampRates] at h ⊢
    split at h; · cases h
    split at h; · cases h
    split at h; · cases h
    split at h; · cases h
    rw [if_neg (by assumption), if_neg (by assumption), if_neg (by assumption), if_neg (by assumption)]
    split
    · rename_i e he
      rw [he] at h; cases h
    · rename_i ord he
      rw [he] at h
      dsimp only at h
      have hif : ∀ (k' : CKey) (c : VCost) (m : Market), k ∈ m.setNames → k ∈ (m.elasticIfPresent k' c).1.setNames := by
        intro k' c m hm
        unfold Market.elasticIfPresent
        split
        · rw [names_elastic]; exact hm
        · exact hm
      have hmk : ∀ (k' : CKey) (c : VCost) (m : Market), k ∈ m.setNames → k ∈ (m.makeElastic k' c).1.setNames :=
        fun k' c m hm => by rw [names_elastic]; exact hm
      have hbi : ∀ bi (m : Market), k ∈ m.setNames → k ∈ (m.addBiRamps bi).1.setNames := by
        intro bi m hm
        unfold Market.addBiRamps
        split
        · exact hm
        · exact names_then (names_unitSet_keep _ _ _ _ hm) (fun m hm => names_unitSet_keep _ _ _ _ hm)
      have her : ∀ (m : Market), k ∈ m.setNames → k ∈ (m.elasticRamps vc).1.setNames := by
        intro m hm
        cases vc with
        | none => exact hm
        | some c =>
          exact names_then (hmk _ _ _ hm) (fun m hm => names_then (hmk _ _ _ hm) (fun m hm => names_then (hif _ _ _ hm) (fun m hm => hif _ _ _ hm)))
      rw [(andThen_ok h).2]
      simp only [Op.defines, List.mem_cons, List.not_mem_nil, or_false] at hk
      rcases hk with rfl | rfl
      · exact names_then (names_unitSet_keep _ _ _ _ (names_unitSet _ _ _)) (fun m hm => names_then (hbi _ _ hm) her)
      · exact names_then (names_unitSet _ _ _) (fun m hm => names_then (hbi _ _ hm) her)
  | _ => simp [Op.defines] at hk

example : ∃ (m : Market) (op : Op), (m.step op).2 = none ∧ op.defines = [.rampUp, .rampDown] ∧
    (m.step op).1.setNames = [.demand, .rampUp, .rampDown] ∧ ((m.step op).1.makeElastic .rampUp (.num 5)).2 = none ∧
    ((m.step op).1.makeElastic .fcas (.num 5)).2 = some .modelBuild :=
  ⟨shortMarket, .rampRates [{ unit := "A", init := 5, up := 60, down := 60 }] none none .noFastStart none,
    by decide +kernel, rfl, by decide +kernel, by decide +kernel, by decide +kernel⟩

end Verif
