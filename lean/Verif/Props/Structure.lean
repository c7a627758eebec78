import Verif.Proofs.Reads
import Verif.Proofs.Demo

/-!
# C26, C36, C37, C38: constraint sets, rejected input and call order
-/

namespace Verif

/-- **C26** Calls that are not about constraint set `k` and not about anything the constraints of `k` refer to leave what
these constraints demand of a solution unchanged, whether these calls succeed or raise. -/
theorem C26_no_interference {m : Market} (h : Reached m) {ops : List Op} (hb : Benign m ops) {k : CKey}
    (ho : ∀ o ∈ ops, ∀ p ∈ Part.set k :: k.reads, p ∉ o.parts) {lp lp' : Lp} (hl : m.assemble = .ok lp)
    (hl' : (m.run ops).assemble = .ok lp') (x : Nat → ℚ) : (m.run ops).obeys lp' x k ↔ m.obeys lp x k := by
  refine obeys_same h.wf (h.run hb).wf ?_ ?_ hl hl' x
  · exact frame_run (fun o ho' => ho o ho' _ (List.mem_cons_self ..))
  · intro p hp
    exact part_run (fun o ho' => ho o ho' p (List.mem_cons_of_mem _ hp))

theorem constrains_parts {op : Op} (h : op.constrains = true) :
    (∀ p ∈ op.parts, ∃ k : CKey, p = .set k ∧ k ≠ .interpWeights) ∧ op.vcost = none ∧ op ≠ .removeFastStart := by
  cases op with
  | capacity _ vc | uigf _ vc | rampRates _ _ _ _ vc | fastStart _ vc | demand _ vc | fcasReq _ vc | fcasMaxAvail _ vc
  | jointRamping _ _ _ vc | jointCapacity _ vc | energyReg _ vc | generic _ vc =>
    cases vc with
    | none => simp [Op.parts, Op.vcost]
    | some c => simp [Op.constrains] at h
  | _ => simp [Op.constrains] at h

theorem vars_constrains {m : Market} {op : Op} (h : op.constrains = true) :
    (m.step op).1.allVars = m.allVars ∧ (m.step op).1.sos2Groups = m.sos2Groups ∧ (m.step op).1.sos1Groups = m.sos1Groups := by
  obtain ⟨h1, h2, h3⟩ := constrains_parts h
  have hd : (m.step op).1.deficits = m.deficits := by
    rcases deficits_step (m := m) h2 with e | ⟨e, _⟩
    · exact e
    · exact absurd e h3
  have hb : SamePart m (m.run [op]) .bids := part_run (by
    intro o ho hp
    rw [List.mem_singleton.1 ho] at hp
    obtain ⟨k, hk, _⟩ := h1 _ hp; cases hk)
  have hi : SamePart m (m.run [op]) .inters := part_run (by
    intro o ho hp
    rw [List.mem_singleton.1 ho] at hp
    obtain ⟨k, hk, _⟩ := h1 _ hp; cases hk)
  have hl : SamePart m (m.run [op]) (.set .interpWeights) := part_run (by
    intro o ho hp
    rw [List.mem_singleton.1 ho] at hp
    obtain ⟨k, hk, hk'⟩ := h1 _ hp
    injection hk with hk
    exact hk' hk.symm)
  have e : m.run [op] = (m.step op).1 := rfl
  rw [e] at hb hi hl
  obtain ⟨_, _, hw, hls, _⟩ := hl.loss rfl
  simp only [SamePart] at hb hi
  simp [Market.allVars, Market.sos2Groups, Market.sos1Groups, hd, hb, hi, hw, hls]

/-- **C26** A call that sets constraints (with no violation cost) only changes what its own constraint sets demand: after it
the solutions are those that meet the bounds, everything demanded before by the other sets, and the new constraints. -/
theorem C26_call_changes_only_its_sets {m : Market} (h : Reached m) {op : Op} (hbn : op.benign m) (hc : op.constrains = true) {lp lp' : Lp}
    (hl : m.assemble = .ok lp) (hl' : (m.step op).1.assemble = .ok lp')
    (hr : ∀ k, Part.set k ∉ op.parts → ∀ p ∈ k.reads, p ∉ op.parts) (x : Nat → ℚ) :
    Feasible lp' x ↔ (∀ v ∈ lp.vars, v.holds x) ∧ (∀ g ∈ lp.sos2, Sos2 x g) ∧ (∀ g ∈ lp.sos1, Sos1 x g) ∧
      (∀ k, Part.set k ∉ op.parts → m.obeys lp x k) ∧ ∀ k, Part.set k ∈ op.parts → (m.step op).1.obeys lp' x k := by
  obtain ⟨h1, h2, h3⟩ := constrains_parts hc
  have hb : Benign m [op] := ⟨hbn, trivial⟩
  obtain ⟨v1, v2, v3⟩ := vars_constrains (m := m) hc
  obtain ⟨a1, _, a2, a3, _⟩ := assemble_parts hl
  obtain ⟨b1, _, b2, b3, _⟩ := assemble_parts hl'
  have hi : ∀ k, Part.set k ∉ op.parts → ((m.step op).1.obeys lp' x k ↔ m.obeys lp x k) := by
    intro k hk
    refine C26_no_interference h hb ?_ hl hl' x
    intro o ho p hp
    rw [List.mem_singleton.1 ho]
    rcases List.mem_cons.1 hp with rfl | hp
    · exact hk
    · exact hr k hk p hp
  rw [feasible_iff_obeys (h.run hb).wf.con hl', b1, b2, b3, v1, v2, v3, ← a1, ← a2, ← a3]
  constructor
  · rintro ⟨p1, p2, p3, p4⟩
    exact ⟨p1, p2, p3, fun k hk => (hi k hk).1 (p4 k), fun k _ => p4 k⟩
  · rintro ⟨p1, p2, p3, p4, p5⟩
    refine ⟨p1, p2, p3, fun k => ?_⟩
    by_cases hk : Part.set k ∈ op.parts
    · exact p5 k hk
    · exact (hi k hk).2 (p4 k hk)

/-- the condition of the theorem above holds for every call that sets constraints -/
theorem constrains_reads {op : Op} (hc : op.constrains = true) :
    ∀ k, Part.set k ∉ op.parts → ∀ p ∈ k.reads, p ∉ op.parts := by
  intro k _ p hp hpo
  obtain ⟨k', hk', hne⟩ := (constrains_parts hc).1 p hpo
  subst hk'
  cases k <;> simp [CKey.reads] at hp <;> exact hne hp

/-- no constraint of set `k` has been set -/
def Market.unset (m : Market) (k : CKey) : Prop := ∀ c, ¬ m.rowOf k c

/-- **C26** Setting constraints of new kinds restricts the solutions by exactly these constraints. -/
theorem C26_new_constraints {m : Market} (h : Reached m) {op : Op} (hbn : op.benign m) (hc : op.constrains = true)
    (hn : ∀ k, Part.set k ∈ op.parts → m.unset k) {lp lp' : Lp} (hl : m.assemble = .ok lp)
    (hl' : (m.step op).1.assemble = .ok lp') (x : Nat → ℚ) :
    Feasible lp' x ↔ Feasible lp x ∧ ∀ k, Part.set k ∈ op.parts → (m.step op).1.obeys lp' x k := by
  rw [C26_call_changes_only_its_sets h hbn hc hl hl' (constrains_reads hc), feasible_iff_obeys h.wf.con hl]
  constructor
  · rintro ⟨p1, p2, p3, p4, p5⟩
    refine ⟨⟨p1, p2, p3, fun k => ?_⟩, p5⟩
    by_cases hk : Part.set k ∈ op.parts
    · intro r _ hr; exact absurd hr (hn k hk r.cid)
    · exact p4 k hk
  · rintro ⟨⟨p1, p2, p3, p4⟩, p5⟩
    exact ⟨p1, p2, p3, fun k _ => p4 k, p5⟩

/-! ### C36 -/

/-- **C36** Every constraint whose left hand side has a variable is handed to the solver, with its sense, its right hand side
and the sum of its coefficients per variable; it binds every solution.  A constraint without any variable is left out. -/
theorem C36_constraints_reach_solver_partial {m : Market} (h : Reached m) {lp : Lp} (hl : m.assemble = .ok lp) {c : Nat}
    {ty : CType} {r : Rhs} (hr : (c, ty, r) ∈ m.allRows) :
    ((∃ t ∈ m.terms, t.cid = c) →
      ∃ row ∈ lp.rows, row.cid = c ∧ row.ctype = ty ∧ row.rhs = r ∧ (row.coefs.map Prod.fst).Nodup ∧
        (∀ v q, (v, q) ∈ row.coefs → (∃ t ∈ m.terms, t.cid = c ∧ t.vid = v) ∧
          q = ((m.terms.filter (fun t => decide (t.cid = c ∧ t.vid = v))).map Term.coef).sum) ∧
        ∀ t ∈ m.terms, t.cid = c → t.vid ∈ row.coefs.map Prod.fst) ∧
    ((∀ t ∈ m.terms, t.cid ≠ c) → ∀ row ∈ lp.rows, row.cid ≠ c) := by
  constructor
  · intro ht
    refine ⟨_, lpRow_of h.wf.con hl hr ht, rfl, rfl, rfl, ?_, ?_, ?_⟩
    · simp only [groupCoefs, List.map_map, Function.comp_def, List.map_id']
      exact List.nodup_dedup _
    · intro v q hv
      simp only [groupCoefs, List.mem_map, List.mem_dedup] at hv
      obtain ⟨v', ⟨t, ht, rfl⟩, hv⟩ := hv
      injection hv with e1 e2
      subst e1 e2
      have ht' := List.mem_filter.1 ht
      refine ⟨⟨t, ht'.1, by simpa using ht'.2, rfl⟩, ?_⟩
      rw [List.filter_filter]
      congr 2
      apply List.filter_congr
      intro a _
      rw [Bool.and_comm, Bool.decide_and]
    · intro t ht hc
      simp only [groupCoefs, List.map_map, Function.comp_def, List.map_id', List.mem_dedup, List.mem_map]
      exact ⟨t, List.mem_filter.2 ⟨ht, by simpa using hc⟩, rfl⟩
  · intro hn row hrow hc
    obtain ⟨⟨t, ht, htc⟩, _⟩ := lpRow hl hrow
    exact hn t ht (htc.trans hc)

/-- **C36** Nothing else is handed to the solver: every row comes from exactly one right hand side set through the API. -/
theorem C36_nothing_else {m : Market} {lp : Lp} (hl : m.assemble = .ok lp) {row : LRow} (hr : row ∈ lp.rows) :
    (row.cid, row.ctype, row.rhs) ∈ m.allRows := (lpRow hl hr).2.1

/-- a market with demand in a region without units and links -/
def droppedCase : Case where
  regions := ["NSW", "TAS"]
  units := [{ unit := "A", region := "NSW" }]
  hist := [.volumeBids [{ unit := "A", bands := [("1", 50)] }],
    .demand [{ region := "NSW", demand := 30 }, { region := "TAS", demand := 40 }] none]
  sol := [30]

/-- **C36** As stated the property fails: a demand of 40 MW in a region without units and interconnectors is accepted, does
not reach the solver and the market dispatches without serving it. -/
theorem C36_negation : ∃ m lp, Reached m ∧ m.assemble = .ok lp ∧ Feasible lp droppedCase.x ∧
    (∃ row ∈ (m.mktRhs.get? .demand).getD [], row.region = some "TAS" ∧ row.rhs = 40 ∧ ∀ r ∈ lp.rows, r.cid ≠ row.cid) := by
  have hb : droppedCase.ok (fun m => decide (∃ row ∈ (m.mktRhs.get? .demand).getD [], row.region = some "TAS" ∧
      row.rhs = 40 ∧ ∀ t ∈ m.terms, t.cid ≠ row.cid)) = true := by decide +kernel
  obtain ⟨m, lp, h0, h1, h2, h3⟩ := Case.witness hb
  refine ⟨m, lp, Case.reached h0, h1, h2, ?_⟩
  obtain ⟨row, a, b, c, d⟩ := of_decide_eq_true h3
  refine ⟨row, a, b, c, fun r hr hc => ?_⟩
  obtain ⟨⟨t, ht, htc⟩, _⟩ := lpRow h1 hr
  exact d t ht (htc.trans hc)

/-! ### Instances -/

/-- bids, prices and demand, then a capacity limit -/
def addCase : Case where
  regions := ["NSW"]
  units := [{ unit := "A", region := "NSW" }]
  hist := [.volumeBids [{ unit := "A", bands := [("1", 50)] }], .demand [{ region := "NSW", demand := 30 }] none]
  sol := [30]

/-- instance of C26: a capacity limit of 40 MW is added to a market with demand -/
example : ∃ m lp lp', Reached m ∧ m.assemble = .ok lp ∧
    (m.step (.capacity [{ unit := "A", val := 40 }] none)).1.assemble = .ok lp' ∧ Feasible lp addCase.x ∧ Feasible lp' addCase.x := by
  have hb : addCase.ok (fun m => match (m.step (.capacity [{ unit := "A", val := 40 }] none)).1.assemble with
    | .ok lp => decide (Feasible lp addCase.x) | .error _ => false) = true := by decide +kernel
  obtain ⟨m, lp, h0, h1, h2, h3⟩ := Case.witness hb
  cases hl : (m.step (.capacity [{ unit := "A", val := 40 }] none)).1.assemble with
  | error e => rw [hl] at h3; cases h3
  | ok lp' =>
    rw [hl] at h3
    exact ⟨m, lp, lp', Case.reached h0, h1, hl, h2, of_decide_eq_true h3⟩

end Verif
