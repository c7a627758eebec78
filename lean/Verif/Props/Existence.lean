import Verif.Proofs.DefAll
import Verif.Spec.Existence
import Verif.Proofs.LpExists
import Verif.Proofs.Elastic
import Verif.Proofs.Balance
import Verif.Proofs.ShadowCheck
import Verif.Props.Infeasible
import Verif.Props.Marginal
import Verif.Props.Linear
import Verif.Props.Comparative

/-! # Properties C112, C113 and C114: existence of dispatches and prices -/

namespace Verif

/-! ## Violation costs of a history -/

/-- no violation variable has a negative cost -/
def DefCosts (m : Market) : Prop := ∀ e ∈ m.deficits, ∀ v ∈ e.2.1, 0 ≤ v.cost

theorem VCost.nonneg_all {c : VCost} (h : c.nonneg) : c.all (0 ≤ ·) := by
  cases c <;> exact h

theorem CallsOnly.defCosts {m : Market} (h : CallsOnly Op.nonnegCost m) : DefCosts m := by
  obtain ⟨r, u, di, m0, ops, h1, _, h3, rfl⟩ := h
  exact defAll_run h1 (fun o ho vc hv => VCost.nonneg_all (h3 o ho vc hv))

/-! ## C112 -/

/-- costs are bounded below on the box of the variables -/
theorem linVal_bounded {vars : List LVar} : ∀ obj : List (Nat × ℚ),
    (∀ c ∈ obj, ∃ v ∈ vars, v.vid = c.1 ∧ (v.ub ≠ none ∨ 0 ≤ c.2)) →
    ∃ b, ∀ x, (∀ v ∈ vars, v.holds x) → b ≤ linVal x obj := by
  intro obj
  induction obj with
  | nil => exact fun _ => ⟨0, fun x _ => le_of_eq rfl⟩
  | cons c obj ih =>
    intro h
    obtain ⟨b, hb⟩ := ih (fun c hc => h c (List.mem_cons_of_mem _ hc))
    obtain ⟨v, hv, e, hu⟩ := h c (List.mem_cons_self ..)
    have hx : ∀ x, linVal x (c :: obj) = c.2 * x c.1 + linVal x obj := fun x => by simp [linVal]
    rcases le_or_gt 0 c.2 with h0 | h0
    · refine ⟨c.2 * v.lb + b, fun x hxv => ?_⟩
      rw [hx, ← e]
      have := mul_le_mul_of_nonneg_left (hxv v hv).1 h0
      linarith [hb x hxv]
    · rcases hu with hu | hu
      · obtain ⟨u, hu⟩ := Option.ne_none_iff_exists'.1 hu
        refine ⟨c.2 * u + b, fun x hxv => ?_⟩
        rw [hx, ← e]
        have := mul_le_mul_of_nonpos_left ((hxv v hv).2 u hu) h0.le
        linarith [hb x hxv]
      · exact absurd hu (not_le.2 h0)

/-- every variable with a cost is bounded or has a cost that is not negative -/
theorem objective_bounded_of {m : Market} (hr : RefWF m) (hd : DefCosts m) {lp : Lp} (hl : m.assemble = .ok lp) :
    ∀ c ∈ lp.obj, ∃ v ∈ lp.vars, v.vid = c.1 ∧ (v.ub ≠ none ∨ 0 ≤ c.2) := by
  obtain ⟨e1, e2, _, _, hobj, _⟩ := assemble_parts hl
  rw [e1, e2]
  intro c hc
  obtain ⟨v, hv, e⟩ := List.mem_map.1 (hobj c hc)
  refine ⟨v, hv, e, ?_⟩
  unfold Market.objective at hc
  rcases List.mem_append.1 hc with hc | hc
  · obtain ⟨b, hb, rfl⟩ := List.mem_map.1 hc
    left
    unfold Market.allVars at hv
    simp only [List.mem_append, List.mem_map, List.mem_flatMap] at hv
    rcases hv with (((⟨a, _, rfl⟩ | ⟨a, _, rfl⟩) | ⟨a, _, rfl⟩) | ⟨a, _, rfl⟩) | ⟨d, hd', a, ha, rfl⟩
    · simp
    · simp
    · simp
    · simp
    · exfalso
      refine (hr.refs b.vid ?_).2 ?_
      · unfold Market.refs
        simp only [List.mem_append]
        have := List.mem_map_of_mem (f := BidCost.vid) hb
        tauto
      · simp only at e
        rw [← e]
        exact List.mem_flatMap.2 ⟨d, hd', List.mem_map_of_mem ha⟩
  · right
    obtain ⟨d, hdm, h⟩ := List.mem_flatMap.1 hc
    obtain ⟨w, hw, rfl⟩ := List.mem_map.1 h
    exact hd d hdm w hw

theorem objective_bounded {m : Market} (h : CallsOnly Op.nonnegCost m) {lp : Lp} (hl : m.assemble = .ok lp) :
    ∀ c ∈ lp.obj, ∃ v ∈ lp.vars, v.vid = c.1 ∧ (v.ub ≠ none ∨ 0 ≤ c.2) :=
  objective_bounded_of h.reached.refs h.defCosts hl

/-- **C112**.  If no violation cost given in the history is negative, a market whose constraints can be met has an optimal
dispatch. -/
theorem C112_optimal_exists {m : Market} (h : CallsOnly Op.nonnegCost m) {lp : Lp} (hl : m.assemble = .ok lp)
    (hf : ∃ x, Feasible lp x) : ∃ x, Optimal lp x := by
  obtain ⟨b, hb⟩ := linVal_bounded lp.obj (objective_bounded h hl)
  exact optimal_exists hf hb

/-- **C112**, for `dispatch` with a correct solver: the ValueError means that the constraints contradict each other; if they do not,
`dispatch` ends normally with an optimal dispatch. -/
theorem C112_dispatch {m : Market} (h : CallsOnly Op.nonnegCost m) {lp : Lp} (hl : m.assemble = .ok lp)
    (hp : ∀ r ∈ m.mktRhs.concat, r.cid ∈ lp.rows.map LRow.cid) {S : Solver} (hS : S.Correct) (ocd : Option ReRun) :
    (m.dispatch S ocd = .error .valueError ↔ ∀ x, ¬ Feasible lp x) ∧
    ((∃ x, Feasible lp x) → ∃ o, m.dispatch S ocd = .ok o ∧ Optimal lp o.x ∧ o.cost = lp.cost o.x) := by
  obtain ⟨h1, h2⟩ := C94_dispatch S hS m lp ocd hl hp
  refine ⟨h1.trans ⟨fun hn x hx => hn (C112_optimal_exists h hl ⟨x, hx⟩), fun hn ⟨x, hx⟩ => hn x hx.1⟩, fun hf => ?_⟩
  exact h2 (C112_optimal_exists h hl hf)

/-! ## C113 -/

theorem linear_bounded {m : Market} {S : Solver} {x : Nat → ℚ} {lp : Lp}
    (h : ∀ c ∈ lp.obj, ∃ v ∈ lp.vars, v.vid = c.1 ∧ (v.ub ≠ none ∨ 0 ≤ c.2)) :
    ∀ c ∈ (m.linear S x lp).obj, ∃ v ∈ (m.linear S x lp).vars, v.vid = c.1 ∧ (v.ub ≠ none ∨ 0 ≤ c.2) := by
  unfold Market.linear
  dsimp only
  split
  · intro c hc
    obtain ⟨v, hv, e, hu⟩ := h c hc
    refine ⟨_, List.mem_map_of_mem hv, ?_, ?_⟩
    · split
      · exact e
      · exact e
    · split
      · left; simp
      · exact hu
  · exact h

theorem linear_noSos (m : Market) (S : Solver) (x : Nat → ℚ) (lp : Lp) : (m.linear S x lp).sos1 = [] ∧ (m.linear S x lp).sos2 = [] := by
  unfold Market.linear; dsimp only; split <;> exact ⟨rfl, rfl⟩

/-- **C113**.  Whenever the linear model that prices are taken from has a solution, it has an optimal solution and shadow prices, so
there are energy and FCAS prices with the properties C30, C102 and C103 speak of. -/
theorem C113_prices_exist {m : Market} (h : CallsOnly Op.nonnegCost m) {lp : Lp} (hl : m.assemble = .ok lp) (S : Solver)
    {x : Nat → ℚ} (hf : ∃ y, Feasible (m.linear S x lp) y) :
    ∃ y p, Optimal (m.linear S x lp) y ∧ ShadowPrices (m.linear S x lp) y p := by
  obtain ⟨b, hb⟩ := linVal_bounded _ (linear_bounded (m := m) (S := S) (x := x) (objective_bounded h hl))
  obtain ⟨y, hy⟩ := optimal_exists hf hb
  obtain ⟨e1, e2⟩ := linear_noSos m S x lp
  obtain ⟨p, hp⟩ := shadowPrices_exist e2 e1 (by rw [linear_rows]; exact lpRows_nodup hl) hy
  exact ⟨y, p, hy, hp⟩

/-- **C113**, without losses: whatever dispatch is found, the linear model has shadow prices. -/
theorem C113_without_losses {m : Market} (h : CallsOnly Op.nonnegCost m) (hn : m.losses = none) {lp : Lp} (hl : m.assemble = .ok lp)
    (S : Solver) {x : Nat → ℚ} (hx : Feasible lp x) : ∃ y p, Optimal (m.linear S x lp) y ∧ ShadowPrices (m.linear S x lp) y p :=
  C113_prices_exist h hl S ⟨x, C32_without_losses hn hx⟩

/-- **C113**, with losses on evenly spaced break points. -/
theorem C113_with_losses {fs : List LossFn} {bs : List BreakPt} {m : Market} (h : CallsOnly Op.nonnegCost m)
    (hi : InForceKeeping [.inters] (.losses fs bs) m) {lp : Lp} (hl : m.assemble = .ok lp) {S : Solver} (hS : S.sorts)
    (hinc : ∀ i l, Increasing (pointsOf bs i l)) (hev : ∀ i l, EvenlySpaced ((pointsOf bs i l).map BreakPt.bp))
    {x : Nat → ℚ} (hx : Feasible lp x) : ∃ y p, Optimal (m.linear S x lp) y ∧ ShadowPrices (m.linear S x lp) y p :=
  C113_prices_exist h hl S ⟨x, C32_linear_keeps_solution_partial hi hl hx hS hinc hev⟩

/-- **C113**, for `dispatch` with a solver whose dual values are shadow prices: the prices it leaves are shadow prices of the linear
model at an optimal solution of it, if the dispatch solves the linear model. -/
theorem C113_dispatch {m : Market} (h : CallsOnly Op.nonnegCost m) {lp : Lp} (hl : m.assemble = .ok lp) {S : Solver}
    (hD : S.Duals) {o : Outcome} (ho : m.dispatch S none = .ok o) (hf : Feasible (m.linear S o.x lp) o.x) :
    ∃ y, Optimal (m.linear S o.x lp) y ∧ ShadowPrices (m.linear S o.x lp) y o.price := by
  obtain ⟨y, _, hy, _⟩ := C113_prices_exist h hl S ⟨_, hf⟩
  obtain ⟨e1, e2⟩ := linear_noSos m S o.x lp
  obtain ⟨z, hz, hp⟩ := hD _ e1 e2 (by rw [linear_rows]; exact lpRows_nodup hl) ⟨y, hy⟩
  refine ⟨z, hz, ?_⟩
  rw [C30_of_linear_model ho hl]
  exact hp

/-- A solver as `dispatch` needs it exists: correct, sorting, with shadow prices as dual values. -/
theorem C113_solver_exists : ∃ S : Solver, S.Correct ∧ S.sorts ∧ S.Duals := by
  classical
  refine ⟨{ mip := perfectSolver.mip
            dual := fun lp => if h : ∃ p, ∃ x, Optimal lp x ∧ ShadowPrices lp x p then Classical.choose h else fun _ => 0
            sort := (linSolver (fun _ => 0)).sort }, ?_, ?_, ?_⟩
  · exact perfectSolver_correct
  · exact linSolver_sorts (fun _ => 0)
  · intro lp h1 h2 hn ⟨x, hx⟩
    have h : ∃ p, ∃ x, Optimal lp x ∧ ShadowPrices lp x p := by
      obtain ⟨p, hp⟩ := shadowPrices_exist h2 h1 hn hx
      exact ⟨p, x, hx, hp⟩
    obtain ⟨y, hy⟩ := Classical.choose_spec h
    refine ⟨y, hy.1, ?_⟩
    simp only [dif_pos h]
    exact hy.2

/-! ## C114 -/

/-- **C114**, several elastic sets: a point that meets everything except the elastic constraints of some sets can be completed to a
feasible one by changing the violation variables only. -/
theorem C114_elastic_sets {m : Market} {lp : Lp} (hl : m.assemble = .ok lp) : ∀ (K : List (CKey × VCost)),
    (∀ k ∈ K, InForce (.elastic k.1 k.2) m ∧ k.2.proper ∧ m.elasticRows k.1 k.2 ≠ []) → ∀ x, FeasibleButAll m K lp x →
    ∃ y, Feasible lp y ∧ ∀ v, (∀ k ∈ K, v ∉ m.deficitVids k.1) → y v = x v := by
  intro K
  induction K with
  | nil => exact fun _ x hx => ⟨x, ⟨fun v hv => hx.vars v hv nofun, fun r hr => hx.rows r hr nofun, hx.sos2, hx.sos1⟩, fun _ _ => rfl⟩
  | cons k K ih =>
    intro hK x hx
    obtain ⟨h1, h2, h3⟩ := hK k (List.mem_cons_self ..)
    obtain ⟨n, S⟩ := elasticSet_of h1 h2 h3
    obtain ⟨y, hy, hyx⟩ := ih (fun k hk => hK k (List.mem_cons_of_mem _ hk)) (S.fill x)
      ⟨fun v hv hk => S.fill_var hl hv (fun hv' => hx.vars v hv (by
          intro k' hk'
          rcases List.mem_cons.1 hk' with rfl | hk'
          · exact hv'
          · exact hk k' hk')),
       fun r hr hk => by
          by_cases he : ∃ e ∈ m.elasticRows k.1 k.2, e.cid = r.cid
          · obtain ⟨e, he, hc⟩ := he
            exact S.fill_row hl x hr he hc
          · have hne : ∀ e ∈ m.elasticRows k.1 k.2, e.cid ≠ r.cid := fun e h hc => he ⟨e, h, hc⟩
            refine S.fill_keeps hl hr hne (hx.rows r hr ?_)
            intro k' hk'
            rcases List.mem_cons.1 hk' with rfl | hk'
            · exact hne
            · exact hk k' hk',
       S.fill_sos2 hl hx.sos2, S.fill_sos1 hl hx.sos1⟩
    refine ⟨y, hy, fun v hv => ?_⟩
    rw [hyx v (fun k' hk' => hv k' (List.mem_cons_of_mem _ hk')), S.fill_off x (hv k (List.mem_cons_self ..))]

/-- Every constraint of the market was made elastic. -/
def AllElastic (m : Market) : Prop :=
  ∀ r ∈ m.conRhs.concat ++ m.mktRhs.concat, ∃ k vc, InForce (.elastic k vc) m ∧ vc.proper ∧ r ∈ m.elasticRows k vc

theorem noLosses_tables {m : Market} (h : NoLosses m) : m.weights = none ∧ m.dynRhs = none := by
  obtain ⟨r, u, d, m0, ops, h1, h2, h3, rfl⟩ := h
  have := (part_run (m := m0) (ops := ops) (p := .set .interpWeights) h3)
  simp only [SamePart] at this
  obtain ⟨_, h4, h5, _⟩ := this.loss rfl
  rw [h4, h5, (init_fresh h1).1]
  exact ⟨rfl, rfl⟩

theorem elastic_cover {m : Market} : ∀ rows : List Row,
    (∀ r ∈ rows, ∃ k vc, InForce (.elastic k vc) m ∧ vc.proper ∧ r ∈ m.elasticRows k vc) →
    ∃ K : List (CKey × VCost), (∀ k ∈ K, InForce (.elastic k.1 k.2) m ∧ k.2.proper ∧ m.elasticRows k.1 k.2 ≠ []) ∧
      ∀ r ∈ rows, ∃ k ∈ K, r ∈ m.elasticRows k.1 k.2 := by
  intro rows
  induction rows with
  | nil => exact fun _ => ⟨[], nofun, nofun⟩
  | cons r rows ih =>
    intro h
    obtain ⟨K, h1, h2⟩ := ih (fun r hr => h r (List.mem_cons_of_mem _ hr))
    obtain ⟨k, vc, a, b, c⟩ := h r (List.mem_cons_self ..)
    refine ⟨(k, vc) :: K, ?_, ?_⟩
    · intro k' hk'
      rcases List.mem_cons.1 hk' with rfl | hk'
      · exact ⟨a, b, List.ne_nil_of_mem c⟩
      · exact h1 k' hk'
    · intro r' hr'
      rcases List.mem_cons.1 hr' with rfl | hr'
      · exact ⟨_, List.mem_cons_self .., c⟩
      · obtain ⟨k', hk', h⟩ := h2 r' hr'
        exact ⟨k', List.mem_cons_of_mem _ hk', h⟩

/-- **C114**.  A market without losses in which every constraint was made elastic, with a cost for it, and whose links may carry no
flow, can always be dispatched. -/
theorem C114_feasible {m : Market} (hn : NoLosses m) (he : AllElastic m) (hd : ∀ d ∈ m.dirs.getD [], d.min ≤ 0 ∧ 0 ≤ d.max) {lp : Lp}
    (hl : m.assemble = .ok lp) : ∃ x, Feasible lp x := by
  have hr : Reached m := by
    obtain ⟨r, u, di, m0, ops, h1, h2, _, rfl⟩ := hn
    exact ⟨r, u, di, m0, ops, h1, h2, rfl⟩
  have hw := hr.wf
  obtain ⟨K, hK, hcov⟩ := elastic_cover _ he
  obtain ⟨e1, _, e3, e4, _, _⟩ := assemble_parts hl
  suffices hb : FeasibleButAll m K lp (fun _ => 0) by
    obtain ⟨y, hy, _⟩ := C114_elastic_sets hl K hK _ hb
    exact ⟨y, hy⟩
  refine ⟨?_, ?_, ?_, ?_⟩
  · intro v hv _
    rw [e1] at hv
    unfold Market.allVars at hv
    rw [(noLosses_none hn).2, (noLosses_tables hn).1] at hv
    simp only [List.mem_append, List.mem_map, List.mem_flatMap, Option.getD_none, List.not_mem_nil, false_and, exists_false,
      or_false] at hv
    rcases hv with (⟨a, ha, rfl⟩ | ⟨a, ha, rfl⟩) | ⟨d, _, a, _, rfl⟩
    · rcases hw.bid with ⟨h, _⟩ | ⟨b, n, _, _, h, _⟩
      · rw [h] at ha; cases ha
      · rw [h] at ha
        obtain ⟨i, w, hwm, _, _, rfl⟩ := mem_saveIndex_lt ha
        rw [List.mem_insertionSort] at hwm
        have hwm := of_decide_eq_true (List.mem_filter.1 hwm).2
        refine ⟨le_refl _, fun u hu => ?_⟩
        simp only [Option.some.injEq] at hu
        rw [← hu]
        exact le_trans (by norm_num) hwm
    · rcases hw.inter with ⟨_, h, _⟩ | ⟨ds, n, hds, h, _⟩
      · rw [h] at ha; cases ha
      · rw [h] at ha
        rw [hds] at hd
        obtain ⟨i, w, hwm, _, _, rfl⟩ := mem_saveIndex_lt ha
        refine ⟨(hd w hwm).1, fun u hu => ?_⟩
        simp only [Option.some.injEq] at hu
        rw [← hu]
        exact (hd w hwm).2
    · exact ⟨le_refl _, by simp⟩
  · intro r hr hk
    exfalso
    obtain ⟨_, hmem, _⟩ := lpRow hl hr
    unfold Market.allRows at hmem
    rw [(noLosses_tables hn).2] at hmem
    simp only [List.mem_append, List.mem_map, Option.getD_none, List.map_nil, List.not_mem_nil, or_false] at hmem
    have : ∃ e ∈ m.conRhs.concat ++ m.mktRhs.concat, e.cid = r.cid := by
      rcases hmem with ⟨e, he, h⟩ | ⟨e, he, h⟩
      · exact ⟨e, List.mem_append_left _ he, congrArg Prod.fst h⟩
      · exact ⟨e, List.mem_append_right _ he, congrArg Prod.fst h⟩
    obtain ⟨e, hem, hc⟩ := this
    obtain ⟨k, hkm, hke⟩ := hcov e hem
    exact hk k hkm e hke hc
  · intro g _ a _ b _ h
    exact absurd rfl h
  · intro g _ a _ b _ h
    exact absurd rfl h

/-- **C114**, for `dispatch`: with violation costs that are not negative and a correct solver, it ends normally with an optimal
dispatch. -/
theorem C114_dispatch {m : Market} (h : CallsOnly Op.nonnegCost m) (hn : NoLosses m) (he : AllElastic m)
    (hd : ∀ d ∈ m.dirs.getD [], d.min ≤ 0 ∧ 0 ≤ d.max) {lp : Lp} (hl : m.assemble = .ok lp)
    (hp : ∀ r ∈ m.mktRhs.concat, r.cid ∈ lp.rows.map LRow.cid) {S : Solver} (hS : S.Correct) (ocd : Option ReRun) :
    ∃ o, m.dispatch S ocd = .ok o ∧ Optimal lp o.x ∧ o.cost = lp.cost o.x :=
  (C112_dispatch h hl hp hS ocd).2 (C114_feasible hn he hd hl)

/-! ## Examples -/

/-- one unit with a capacity limit, demand above it; everything elastic -/
def existCase (cost : ℚ) : Case where
  regions := ["NSW", "VIC"]
  units := [{ unit := "A", region := "NSW" }]
  hist := [.volumeBids [{ unit := "A", bands := [("1", 100)] }], .priceBids [{ unit := "A", bands := [("1", 20)] }],
    .interconnectors [{ inter := "I", link := "I", fromR := "NSW", toR := "VIC", min := -50, max := 50 }],
    .capacity [{ unit := "A", val := 60 }] none,
    .demand [{ region := "NSW", demand := 80 }, { region := "VIC", demand := 30 }] none,
    .elastic .unitBidCapacity (.num 1000), .elastic .demand (.num cost)]
  sol := [60, 30, 0, 0, 0, 50, 0]

theorem existCase_costs {c : ℚ} (h : 0 ≤ c) : ∀ o ∈ (existCase c).hist, o.nonnegCost := by
  intro o ho vc hv
  simp only [existCase, List.mem_cons, List.not_mem_nil, or_false] at ho
  rcases ho with rfl | rfl | rfl | rfl | rfl | rfl | rfl <;> simp only [Op.vcost, reduceCtorEq, Option.some.injEq] at hv
  · rw [← hv]; show (0 : ℚ) ≤ 1000; norm_num
  · rw [← hv]; exact h

/-- the demand of 110 MW exceeds what the unit offers and its limit of 60 MW: without elastic constraints there is no dispatch, with
them C114 applies -/
example : ∃ m lp, CallsOnly Op.nonnegCost m ∧ NoLosses m ∧ AllElastic m ∧ (∀ d ∈ m.dirs.getD [], d.min ≤ 0 ∧ 0 ≤ d.max) ∧
    m.assemble = .ok lp ∧ (∀ r ∈ m.mktRhs.concat, r.cid ∈ lp.rows.map LRow.cid) := by
  obtain ⟨m, lp, h1, h2, -, h4⟩ := Case.witness (s := existCase 15000) (P := fun m =>
    decide (m.conRhs.concat ++ m.mktRhs.concat = m.elasticRows .unitBidCapacity (.num 1000) ++ m.elasticRows .demand (.num 15000)) &&
    decide (m.dirs.getD [] = [{ inter := "I", link := "I", fromR := "NSW", toR := "VIC", min := -50, max := 50 }]) &&
    (match m.assemble with | .ok lp => decide (∀ r ∈ m.mktRhs.concat, r.cid ∈ lp.rows.map LRow.cid) | .error _ => false)) (by decide +kernel)
  simp only [Bool.and_eq_true, decide_eq_true_eq] at h4
  obtain ⟨⟨h4, h5⟩, h6⟩ := h4
  rw [h2] at h6
  refine ⟨m, lp, Case.callsOnly h1 (existCase_costs (by norm_num)), Case.noLosses h1 (by decide +kernel), ?_, ?_, h2, of_decide_eq_true h6⟩
  · intro r hr
    rw [h4] at hr
    rcases List.mem_append.1 hr with hr | hr
    · exact ⟨_, _, Case.inForce h1 (i := 5) (keep := []) rfl (by decide +kernel), trivial, hr⟩
    · exact ⟨_, _, Case.inForce h1 (i := 6) (keep := []) rfl (by decide +kernel), trivial, hr⟩
  · rw [h5]
    intro d hd
    rw [List.mem_singleton] at hd
    rw [hd]
    constructor <;> norm_num

/-- A negative violation cost: the constraints of the market can be met, but there is no optimal dispatch. -/
theorem C112_negative_cost : ∃ m lp, Reached m ∧ InForce (.elastic .demand (.num (-1))) m ∧ m.assemble = .ok lp ∧
    (∃ x, Feasible lp x) ∧ ¬ ∃ x, Optimal lp x := by
  obtain ⟨m, lp, h1, h2, h3, h4⟩ := Case.witness (s := existCase (-1)) (P := fun m => decide (m.assemble = .ok
    { vars := [⟨0, 0, some 100⟩, ⟨1, -50, some 50⟩, ⟨2, 0, none⟩, ⟨3, 0, none⟩, ⟨4, 0, none⟩, ⟨5, 0, none⟩, ⟨6, 0, none⟩],
      rows := [⟨1, [(3, -1), (5, 1), (0, 1), (1, -1)], .eq, .const 80⟩, ⟨2, [(4, -1), (6, 1), (1, 1)], .eq, .const 30⟩,
        ⟨0, [(2, -1), (0, 1)], .le, .const 60⟩],
      sos2 := [], sos1 := [], obj := [(0, 20), (2, 1000), (3, -1), (4, -1), (5, -1), (6, -1)] })) (by decide +kernel)
  refine ⟨m, lp, Case.reached h1, Case.inForce h1 (i := 6) (keep := []) rfl (by decide +kernel), h2, ⟨_, h3⟩, ?_⟩
  rw [of_decide_eq_true h4] at h2
  injection h2 with h2
  subst h2
  rintro ⟨x, hx, hbest⟩
  have := hbest (fun v => if v = 3 ∨ v = 5 then x v + 1 else x v) ⟨?_, ?_, nofun, nofun⟩
  · simp [Lp.cost, linVal] at this
    linarith
  · intro v hv
    have h := hx.vars v hv
    simp only [List.mem_cons, List.not_mem_nil, or_false] at hv
    rcases hv with rfl | rfl | rfl | rfl | rfl | rfl | rfl <;> simp [LVar.holds] at h ⊢ <;> first | exact h | linarith
  · intro r hr
    have h := hx.rows r hr
    simp only [List.mem_cons, List.not_mem_nil, or_false] at hr
    rcases hr with rfl | rfl | rfl <;> simp [LRow.holds, CType.holds, linVal, Rhs.eval] at h ⊢ <;> linarith

/-- C112 and C113 apply to the same market -/
example : ∃ m lp, CallsOnly Op.nonnegCost m ∧ m.losses = none ∧ m.assemble = .ok lp ∧ Feasible lp (existCase 15000).x := by
  obtain ⟨m, lp, h1, h2, h3, h4⟩ := Case.witness (s := existCase 15000) (P := fun m => m.losses.isNone) (by decide +kernel)
  exact ⟨m, lp, Case.callsOnly h1 (existCase_costs (by norm_num)), Option.isNone_iff_eq_none.1 h4, h2, h3⟩

/-- a market with losses -/
example : ∃ m lp, CallsOnly Op.nonnegCost m ∧ InForceKeeping [.inters] (.losses linLoss (linPoints [-100, -50, 0, 50, 100])) m ∧
    m.assemble = .ok lp ∧ Feasible lp evenCase.x ∧ (linSolver evenCase.x).sorts := by
  obtain ⟨m, lp, h0, h1, h2, -⟩ := Case.witness (s := evenCase) (P := fun _ => true) (by decide +kernel)
  refine ⟨m, lp, Case.callsOnly h0 ?_, Case.inForce (i := 3) (keep := [.inters]) h0 rfl (by decide +kernel), h1, h2, linSolver_sorts _⟩
  intro o ho vc hv
  simp only [evenCase, linCase, List.mem_cons, List.not_mem_nil, or_false] at ho
  rcases ho with rfl | rfl | rfl | rfl | rfl <;> cases hv

end Verif
