import Verif.Props.Mixture

/-!
# C139: limits that do not bind do not matter

In a market without losses and alternative links, a cheapest dispatch that also meets tighter limits than those that are set is a cheapest
dispatch with the tighter limits, and with all limits that are looser in the same proportion.
-/

namespace Verif

section
variable {T : TwoTables} {t : ℚ} {m m' m'' : Market} (h : OneOfThree T.first T.second (T.between t) m m' m'') (hn : NoLosses m) (hl : PlainLinks m)
  {lp lp' lp'' : Lp} (ha : m.assemble = .ok lp) (ha' : m'.assemble = .ok lp') (ha'' : m''.assemble = .ok lp'') {x : Nat → ℚ}
include h hn hl ha ha' ha''

/-- **C139**, nothing to gain.  If a cheapest dispatch with the values in between also meets the market with the first values, then no schedule of
the market with the second values is cheaper. -/
theorem C139_no_gain (t0 : 0 < t) (t1 : t ≤ 1) (hx : Optimal lp'' x) (hf : Feasible lp x) {y : Nat → ℚ} (hy : Feasible lp' y) :
    lp''.cost x ≤ lp'.cost y := by
  obtain ⟨k, _, hA, hB, b1, b2, _⟩ := three_tables h
  have i := hx.2 _ (C134_feasible t0.le t1 h hn hl ha ha' ha'' hf hy)
  have e : lp''.cost (mixture t x y) = (1 - t) * lp''.cost x + t * lp'.cost y := by
    rw [alike_cost hA b1 ha ha', alike_cost hB b2 ha ha'', alike_cost hB b2 ha ha'']
    exact linVal_mixture t x y lp.obj
  rw [e] at i
  have : t * lp''.cost x ≤ t * lp'.cost y := by linarith
  exact le_of_mul_le_mul_left this t0

/-- **C139**.  The second values are looser than the first, and limits in between are set.  If a cheapest dispatch also meets the first, tighter
limits, then it is a cheapest dispatch with the tighter and with the looser limits as well, at the same cost. -/
theorem C139_slack (hloose : T.first.looser T.second) (t0 : 0 < t) (t1 : t ≤ 1) (hx : Optimal lp'' x) (hf : Feasible lp x) :
    Optimal lp x ∧ Optimal lp' x ∧ lp.cost x = lp''.cost x ∧ lp'.cost x = lp''.cost x := by
  obtain ⟨k, _, hA, hB, b1, b2, _⟩ := three_tables h
  have c1 : ∀ z, lp'.cost z = lp.cost z := alike_cost hA b1 ha ha'
  have c2 : ∀ z, lp''.cost z = lp.cost z := alike_cost hB b2 ha ha''
  have g : ∀ y, Feasible lp' y → lp''.cost x ≤ lp'.cost y := fun y hy => C139_no_gain h hn hl ha ha' ha'' t0 t1 hx hf hy
  have f : ∀ z, Feasible lp z → Feasible lp' z := fun z hz => C108_feasible h.left hloose ha ha' hz
  refine ⟨⟨hf, fun y hy => ?_⟩, ⟨f x hf, fun y hy => ?_⟩, (c2 x).symm, by rw [c1, c2]⟩
  · have := g y (f y hy)
    rw [c1, c2] at this
    exact this
  · have := g y hy
    rw [c2] at this
    rw [c1 x]
    exact this

/-- **C139**, the least cost.  The least cost with all three limits is the same. -/
theorem C139_cost (hloose : T.first.looser T.second) (t0 : 0 < t) (t1 : t ≤ 1) (hx : Optimal lp'' x) (hf : Feasible lp x) {y z : Nat → ℚ}
    (hy : Optimal lp y) (hz : Optimal lp' z) : lp.cost y = lp''.cost x ∧ lp'.cost z = lp''.cost x := by
  obtain ⟨o1, o2, e1, e2⟩ := C139_slack h hn hl ha ha' ha'' hloose t0 t1 hx hf
  exact ⟨e1 ▸ le_antisymm (hy.2 x o1.1) (o1.2 y hy.1), e2 ▸ le_antisymm (hz.2 x o2.1) (o2.2 z hz.1)⟩

end

/-! ## Example -/

/-- a capacity of 60 or 100 MW for unit A -/
def twoCapacities : TwoTables := .capacity [({ unit := "A", val := 60 }, 100)] none

/-- instance of C139: unit A offers 100 MW at 20 and is limited to 80 MW; a demand of 50 MW is met by A, which also meets a limit of 60 MW -/
example : ∃ m m' m'' lp lp' lp'', OneOfThree twoCapacities.first twoCapacities.second (twoCapacities.between (1 / 2)) m m' m'' ∧ NoLosses m ∧
    PlainLinks m ∧ m.assemble = .ok lp ∧ m'.assemble = .ok lp' ∧ m''.assemble = .ok lp'' ∧ twoCapacities.first.looser twoCapacities.second ∧
    Optimal lp'' (compCase 80 20 50 [50, 0]).x ∧ Feasible lp (compCase 80 20 50 [50, 0]).x := by
  have h : (compCase 60 20 50 [50, 0]).ok (fun m => decide (m.inters = none)) = true := by decide +kernel
  have h' : (compCase 100 20 50 [50, 0]).ok (fun _ => true) = true := by decide +kernel
  have h'' : (compCase 80 20 50 [50, 0]).best [20, 0] (fun _ => true) = true := by decide +kernel
  obtain ⟨m, lp, h0, h1, h2, h3⟩ := Case.witness h
  obtain ⟨m', lp', k0, k1, _, _⟩ := Case.witness h'
  obtain ⟨m'', lp'', l0, l1, l2, _⟩ := Case.optimal h''
  have eb : twoCapacities.between (1 / 2) = .capacity [{ unit := "A", val := 80 }] none := by
    simp only [twoCapacities, TwoTables.between, TwoTables.call, List.map_cons, List.map_nil]
    norm_num
  have hone : OneOfThree twoCapacities.first twoCapacities.second (twoCapacities.between (1 / 2)) m m' m'' := by
    rw [eb]
    exact Case.three h0 k0 l0 1 (.capacity [{ unit := "A", val := 60 }] none) (.capacity [{ unit := "A", val := 100 }] none)
      (.capacity [{ unit := "A", val := 80 }] none) ⟨rfl, rfl, rfl⟩ ⟨rfl, rfl, rfl⟩ rfl rfl rfl rfl rfl rfl rfl (by decide +kernel) (by decide +kernel)
  refine ⟨m, m', m'', lp, lp', lp'', hone, Case.noLosses h0 (by decide +kernel), ?_, h1, k1, l1, ?_, l2, h2⟩
  · intro v hv
    rw [of_decide_eq_true h3] at hv
    cases hv
  · exact ⟨rfl, List.Forall₂.cons ⟨rfl, by show (60 : ℚ) ≤ 100; norm_num⟩ List.Forall₂.nil⟩

/-! ## Alternative links -/

/-- 50 MW are needed in Victoria.  Unit A in New South Wales offers at 30, unit B in Victoria at 1000, unit C in Queensland, limited to `cap`, at
1; two links of one interconnector lead to Victoria, one from New South Wales and one from Queensland -/
def slackCase (cap : ℚ) (sol : List ℚ) : Case where
  regions := ["NSW", "VIC", "QLD"]
  units := [{ unit := "A", region := "NSW" }, { unit := "B", region := "VIC" }, { unit := "C", region := "QLD" }]
  hist := [.volumeBids [{ unit := "A", bands := [("1", 100)] }, { unit := "B", bands := [("1", 100)] }, { unit := "C", bands := [("1", 100)] }],
    .priceBids [{ unit := "A", bands := [("1", 30)] }, { unit := "B", bands := [("1", 1000)] }, { unit := "C", bands := [("1", 1)] }],
    .capacity [{ unit := "C", val := cap }] none,
    .interconnectors [{ inter := "I", link := "L1", fromR := "NSW", toR := "VIC", min := 0, max := 100 },
      { inter := "I", link := "L2", fromR := "QLD", toR := "VIC", min := 0, max := 100 }],
    .demand [{ region := "NSW", demand := 0 }, { region := "VIC", demand := 50 }, { region := "QLD", demand := 0 }] none]
  sol := sol

def slackCapacities : TwoTables := .capacity [({ unit := "C", val := 10 }, 100)] none

/-- **C139** needs links that are not alternatives to each other: if C is limited to 20 MW the cheapest dispatch uses the link from New South
Wales and nothing of C, so it also meets a limit of 10 MW; if the limit is raised to 100 MW the cheapest dispatch uses the other link. -/
theorem C139_alternative_links_fails : ∃ m m' m'' lp lp' lp'', OneOfThree slackCapacities.first slackCapacities.second
    (slackCapacities.between (1 / 9)) m m' m'' ∧ NoLosses m ∧ m.assemble = .ok lp ∧ m'.assemble = .ok lp' ∧ m''.assemble = .ok lp'' ∧
    slackCapacities.first.looser slackCapacities.second ∧ Optimal lp'' (slackCase 20 [50, 0, 0, 50, 0]).x ∧
    Feasible lp (slackCase 20 [50, 0, 0, 50, 0]).x ∧ lp''.cost (slackCase 20 [50, 0, 0, 50, 0]).x = 1500 ∧
    Feasible lp' (slackCase 100 [0, 0, 50, 0, 50]).x ∧ lp'.cost (slackCase 100 [0, 0, 50, 0, 50]).x = 50 := by
  obtain ⟨m, lp, h0, h1, h2, _⟩ := Case.witness (s := slackCase 10 [50, 0, 0, 50, 0]) (P := fun _ => true) (by decide +kernel)
  obtain ⟨m', lp', k0, k1, k2, k3⟩ := Case.witness (s := slackCase 100 [0, 0, 50, 0, 50]) (P := fun m => match m.assemble with
      | .ok lp => decide (lp.cost (slackCase 100 [0, 0, 50, 0, 50]).x = 50)
      | .error _ => false) (by decide +kernel)
  obtain ⟨m'', lp'', l0, l1, l2, l3⟩ := Case.witness (s := slackCase 20 [50, 0, 0, 50, 0]) (P := fun m => match m.assemble with
      | .ok lp => decide ((⟨1, [(0, 1), (3, -1)], .eq, .const 0⟩ : LRow) ∈ lp.rows ∧ (⟨2, [(1, 1), (3, 1), (4, 1)], .eq, .const 50⟩ : LRow) ∈ lp.rows ∧
          (⟨3, [(2, 1), (4, -1)], .eq, .const 0⟩ : LRow) ∈ lp.rows ∧ (⟨0, [(2, 1)], .le, .const 20⟩ : LRow) ∈ lp.rows ∧
          lp.sos1 = [[3, 4]] ∧ lp.obj = [(0, 30), (1, 1000), (2, 1)] ∧
          ([0, 1, 2].all (fun i => lp.vars.any (fun v => decide (v.vid = i ∧ 0 ≤ v.lb)))) = true ∧
          lp.cost (slackCase 20 [50, 0, 0, 50, 0]).x = 1500)
      | .error _ => false) (by decide +kernel)
  rw [k1] at k3
  simp only [l1, decide_eq_true_eq] at l3
  have eb : slackCapacities.between (1 / 9) = .capacity [{ unit := "C", val := 20 }] none := by
    simp only [slackCapacities, TwoTables.between, TwoTables.call, List.map_cons, List.map_nil]
    norm_num
  have hone : OneOfThree slackCapacities.first slackCapacities.second (slackCapacities.between (1 / 9)) m m' m'' := by
    rw [eb]
    exact Case.three h0 k0 l0 2 slackCapacities.first slackCapacities.second _ ⟨rfl, rfl, rfl⟩ ⟨rfl, rfl, rfl⟩
      rfl rfl rfl rfl rfl rfl rfl (by decide +kernel) (by decide +kernel)
  obtain ⟨a1, a2, a3, a4, a5, a6, a7, a8⟩ := l3
  refine ⟨m, m', m'', lp, lp', lp'', hone, Case.noLosses h0 (by decide +kernel), h1, k1, l1,
    ⟨rfl, List.Forall₂.cons ⟨rfl, by show (10 : ℚ) ≤ 100; norm_num⟩ List.Forall₂.nil⟩, ⟨l2, ?_⟩, h2, a8, k2, of_decide_eq_true k3⟩
  intro z hz
  rw [a8]
  have r1 : z 0 + -z 3 = 0 := by
    have := hz.rows _ a1
    simpa [LRow.holds, CType.holds, linVal, Rhs.eval] using this
  have r2 : z 1 + (z 3 + z 4) = 50 := by
    have := hz.rows _ a2
    simpa [LRow.holds, CType.holds, linVal, Rhs.eval] using this
  have r3 : z 2 + -z 4 = 0 := by
    have := hz.rows _ a3
    simpa [LRow.holds, CType.holds, linVal, Rhs.eval] using this
  have r4 : z 2 ≤ 20 := by
    have := hz.rows _ a4
    simpa [LRow.holds, CType.holds, linVal, Rhs.eval] using this
  have pos : ∀ i ∈ [0, 1, 2], 0 ≤ z i := by
    intro i hi
    obtain ⟨v, hv, hd⟩ := List.any_eq_true.1 (List.all_eq_true.1 a7 i hi)
    obtain ⟨e, hb⟩ := of_decide_eq_true hd
    rw [← e]
    exact hb.trans (hz.vars v hv).1
  have p0 := pos 0 (by simp)
  have p1 := pos 1 (by simp)
  have p2 := pos 2 (by simp)
  have hs := hz.sos1 [3, 4] (by rw [a5]; simp)
  have hc : lp''.cost z = 30 * z 0 + (1000 * z 1 + z 2) := by
    unfold Lp.cost
    rw [a6]
    simp [linVal]
  rw [hc]
  by_cases e3 : z 3 = 0
  · rw [e3] at r2; linarith
  · by_cases e4 : z 4 = 0
    · rw [e4] at r2; linarith
    · exact absurd (hs 3 (by simp) 4 (by simp) e3 e4) (by decide)

end Verif
