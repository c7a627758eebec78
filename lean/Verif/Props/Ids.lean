import Verif.Proofs.Only
import Verif.Proofs.Demo

/-!
# C01, C02: identifiers of decision variables and constraints
-/

namespace Verif

/-- **C01** For every history of calls (raising or not, repeated or not) the variables handed to the
solver have pairwise different ids. -/
theorem C01_variable_ids_distinct {regions : List String} {units : List UnitInfo} {di : ℚ} {m : Market}
    (h : Market.init regions units di = .ok m) (ops : List Op) {lp : Lp} (hl : (m.run ops).assemble = .ok lp) :
    (lp.vars.map LVar.vid).Nodup := by
  rw [(assemble_parts hl).1, List.nodup_iff_count_le_one]
  intro i
  rw [vcount_eq]
  exact ((run_varWF h ops).1 i).1

/-- **C02** For every history whose loss break points name existing links, the constraints handed to
the solver have pairwise different ids, every one belongs to exactly one constraint set, and its
coefficients are the ones it has when all other constraint sets are removed. -/
theorem C02_constraints_do_not_share_or_leak_partial {m : Market} (h : Reached m) {lp : Lp} (hl : m.assemble = .ok lp) :
    (lp.rows.map LRow.cid).Nodup ∧
    ∀ r ∈ lp.rows, ∃ k, m.rowOf k r.cid ∧ (∀ k', m.rowOf k' r.cid → k' = k) ∧
      r.coefs = groupCoefs (m.only k).terms r.cid := by
  have hw := h.wf.con
  obtain ⟨_, _, _, _, _, hcase⟩ := assemble_parts hl
  rcases hcase with ⟨h1, _⟩ | ⟨_, hs⟩
  · rw [h1]; simp
  · constructor
    · rw [solverRows_cids hs]; exact List.nodup_dedup _
    · intro r hr
      obtain ⟨_, hc, hlk⟩ := (solverRows_mem hs).2 r hr
      obtain ⟨k, hk⟩ := rowOf_of_allRows hw (lookupLast_mem hlk)
      refine ⟨k, hk, ?_, ?_⟩
      · intro k' hk'
        obtain ⟨own, ho⟩ := hw.own
        rw [← (ho k' _ (inTab_of_rowOf hk')).1, ← (ho k _ (inTab_of_rowOf hk)).1]
      · rw [hc]
        apply groupCoefs_congr
        rw [terms_filter_own hw (inTab_of_rowOf hk),
          terms_filter_own (conWF_only hw k) (inTab_of_rowOf (rowOf_only hk)), ownTerms_only]

/-! A history that meets the hypotheses: bids, demand and an FCAS requirement, with a call that raises
and a repeated call. -/

/-- two regions, a generator in each -/
def demoUnits : List UnitInfo :=
  [{ unit := "A", region := "NSW" }, { unit := "B", region := "VIC", lf := 9 / 10 }]

/-- energy bids of both units -/
def demoBids : List BidRow :=
  [{ unit := "A", bands := [("1", 20), ("2", 50)] }, { unit := "B", bands := [("1", 30), ("2", 0)] },
   { unit := "B", service := .raiseReg, bands := [("1", 5)] }]

/-- price bids of both units -/
def demoPrices : List BidRow :=
  [{ unit := "A", bands := [("1", 40), ("2", 60)] }, { unit := "B", bands := [("1", 45), ("2", 80)] },
   { unit := "B", service := .raiseReg, bands := [("1", 2)] }]

/-- a history with a call that raises, a repeated call and elastic constraints -/
def demoHistory : List Op :=
  [.priceBids demoPrices, .volumeBids demoBids, .volumeBids demoBids, .priceBids demoPrices,
   .demand [{ region := "NSW", demand := 40 }, { region := "VIC", demand := 10 }] (some (.num 1000)),
   .fcasReq [{ set := "F", service := .raiseReg, region := "VIC", volume := 3 }] none,
   .fcasReq [{ set := "F", service := .raiseReg, region := "VIC", volume := 4 }] none]

/-- the history runs, its program has seven or more variables and three rows -/
def demoCheck : Bool :=
  match Market.init ["NSW", "VIC"] demoUnits 5 with
  | .error _ => false
  | .ok m => benignB m demoHistory && (match (m.run demoHistory).assemble with
    | .error _ => false
    | .ok lp => decide (lp.vars.length = 8 ∧ lp.rows.length = 3))

example : ∃ m lp, Market.init ["NSW", "VIC"] demoUnits 5 = .ok m ∧ Reached (m.run demoHistory) ∧
    (m.run demoHistory).assemble = .ok lp ∧ lp.vars.length = 8 ∧ lp.rows.length = 3 := by
  have h : demoCheck = true := by decide +kernel
  unfold demoCheck at h
  split at h
  · cases h
  rename_i m hm
  simp only [Bool.and_eq_true] at h
  obtain ⟨h1, h2⟩ := h
  split at h2
  · cases h2
  rename_i lp hlp
  exact ⟨m, lp, hm, ⟨_, _, _, m, _, hm, benignB_iff.1 h1, rfl⟩, hlp, of_decide_eq_true h2⟩

/-! The code violates the unrestricted C02: break points that name a link that does not exist make
the next constraint set pick up coefficients of interpolation weights. -/

/-- one region pair, one link, break points of the link `I` and of an unknown link `Z`, then demand -/
def leakHistory : List Op :=
  [.interconnectors [{ inter := "I", link := "I", toR := "VIC", fromR := "NSW", max := 100, min := -100 }],
   .losses [{ inter := "I", link := "I", fn := fun f => f / 10, share := 1 / 2 }]
     [{ inter := "I", link := "I", seg := 1, bp := -100 }, { inter := "I", link := "I", seg := 2, bp := 100 },
      { inter := "Z", link := "Z", seg := 1, bp := 7 }],
   .demand [{ region := "NSW", demand := 40 }] none]

/-- the demand row has the weight of the unknown link among its coefficients -/
def leakCheck : Bool :=
  match Market.init ["NSW", "VIC"] demoUnits 5 with
  | .error _ => false
  | .ok m => (match (m.run leakHistory).assemble with
    | .error _ => false
    | .ok lp => lp.rows.any (fun r => (match (m.run leakHistory).mktRhs.get? .demand with
        | none => false
        | some rows => rows.any (fun q => decide (q.cid = r.cid))) &&
        decide (r.coefs ≠ groupCoefs ((m.run leakHistory).only .demand).terms r.cid)))

/-- **C02, negation for unrestricted histories** -/
theorem C02_unknown_break_point_link_leaks : ∃ (m : Market) (ops : List Op) (lp : Lp),
    Market.init ["NSW", "VIC"] demoUnits 5 = .ok m ∧ (m.run ops).assemble = .ok lp ∧
    ∃ r ∈ lp.rows, (m.run ops).rowOf .demand r.cid ∧ r.coefs ≠ groupCoefs ((m.run ops).only .demand).terms r.cid := by
  have h : leakCheck = true := by decide +kernel
  unfold leakCheck at h
  split at h
  · cases h
  rename_i m hm
  split at h
  · cases h
  rename_i lp hlp
  obtain ⟨r, hr, h⟩ := List.any_eq_true.1 h
  simp only [Bool.and_eq_true] at h
  obtain ⟨h1, h2⟩ := h
  split at h1
  · cases h1
  rename_i rows hrows
  obtain ⟨q, hq, h1⟩ := List.any_eq_true.1 h1
  exact ⟨m, leakHistory, lp, hm, hlp, r, hr, Or.inr (Or.inl ⟨rows, hrows, q, hq, of_decide_eq_true h1⟩),
    of_decide_eq_true h2⟩

end Verif
