import Verif.Proofs.PowerIds
import Verif.Proofs.Tables

/-! The program of a market in another unit of power. -/

namespace Verif

/-! ### Multiplying variables and rows of a program -/

def Rhs.mul (k : ℚ) : Rhs → Rhs
  | .const q => .const (k * q)
  | .var v => .var v

def Lp.resc (c : ℚ) (s r : Nat → ℚ) (lp : Lp) : Lp :=
  { lp with vars := lp.vars.map (fun v => { v with lb := s v.vid * v.lb, ub := v.ub.map (s v.vid * ·) }),
            rows := lp.rows.map (fun e => { e with coefs := e.coefs.map (fun t => (t.1, r e.cid * t.2 / s t.1)), rhs := e.rhs.mul (r e.cid) }),
            obj := lp.obj.map (fun o => (o.1, c * o.2 / s o.1)) }

/-- the factors are positive, and agree where a variable is on the right hand side -/
structure Factors (c : ℚ) (s r : Nat → ℚ) (lp : Lp) : Prop where
  hc : 0 < c
  hs : ∀ v, 0 < s v
  hr : ∀ i, 0 < r i
  rhs : ∀ e ∈ lp.rows, ∀ v, e.rhs = .var v → s v = r e.cid

theorem linVal_resc {s : Nat → ℚ} (hs : ∀ v, 0 < s v) (k : ℚ) (l : List (Nat × ℚ)) (x : Nat → ℚ) :
    linVal (fun v => s v * x v) (l.map (fun t => (t.1, k * t.2 / s t.1))) = k * linVal x l := by
  unfold linVal
  rw [List.map_map, ← sum_map_mul_left]
  congr 1
  apply List.map_congr_left
  intro t _
  have := (hs t.1).ne'
  simp only [Function.comp]
  calc k * t.2 / s t.1 * (s t.1 * x t.1) = k * (t.2 * x t.1) * (s t.1 / s t.1) := by ring
    _ = _ := by rw [div_self this, mul_one]

section
variable {c : ℚ} {s r : Nat → ℚ} {lp : Lp}

theorem cost_resc (h : Factors c s r lp) (x : Nat → ℚ) : (lp.resc c s r).cost (fun v => s v * x v) = c * lp.cost x :=
  linVal_resc h.hs c lp.obj x

theorem rhs_resc (h : Factors c s r lp) {e : LRow} (he : e ∈ lp.rows) (x : Nat → ℚ) :
    (e.rhs.mul (r e.cid)).eval (fun v => s v * x v) = r e.cid * e.rhs.eval x := by
  have h1 := h.rhs e he
  generalize e.rhs = q at h1
  cases q with
  | const q => rfl
  | var v => simp only [Rhs.mul, Rhs.eval, h1 v rfl]

theorem holds_mul {k : ℚ} (hk : 0 < k) (t : CType) (a b : ℚ) : t.holds (k * a) (k * b) ↔ t.holds a b := by
  cases t with
  | le => exact mul_le_mul_iff_right₀ hk
  | ge => exact mul_le_mul_iff_right₀ hk
  | eq => exact mul_right_inj' hk.ne'
  | other => exact Iff.rfl

theorem vars_resc (h : Factors c s r lp) (x : Nat → ℚ) :
    (∀ v ∈ (lp.resc c s r).vars, v.holds (fun v => s v * x v)) ↔ ∀ v ∈ lp.vars, v.holds x := by
  simp only [Lp.resc, List.forall_mem_map]
  refine forall₂_congr fun v _ => ?_
  have hv := h.hs v.vid
  unfold LVar.holds
  simp only [mul_le_mul_iff_right₀ hv]
  refine and_congr Iff.rfl ?_
  cases v.ub with
  | none => simp
  | some u => simp only [Option.map_some, Option.some.injEq, forall_eq', mul_le_mul_iff_right₀ hv]

theorem feasible_resc (h : Factors c s r lp) (x : Nat → ℚ) : Feasible (lp.resc c s r) (fun v => s v * x v) ↔ Feasible lp x := by
  have h0 : ∀ v, s v * x v = 0 ↔ x v = 0 := fun v => by simp [(h.hs v).ne']
  have hr : (∀ e ∈ (lp.resc c s r).rows, e.holds (fun v => s v * x v)) ↔ ∀ e ∈ lp.rows, e.holds x := by
    simp only [Lp.resc, List.forall_mem_map]
    refine forall₂_congr fun e he => ?_
    unfold LRow.holds
    rw [linVal_resc h.hs, rhs_resc h he, holds_mul (h.hr _)]
  have h2 : ∀ g, Sos2 (fun v => s v * x v) g ↔ Sos2 x g := by
    intro g; simp only [Sos2, ne_eq, h0]
  have h1 : ∀ g, Sos1 (fun v => s v * x v) g ↔ Sos1 x g := by
    intro g; simp only [Sos1, ne_eq, h0]
  constructor
  · intro f
    exact ⟨(vars_resc h x).1 f.vars, hr.1 f.rows, fun g hg => (h2 g).1 (f.sos2 g hg), fun g hg => (h1 g).1 (f.sos1 g hg)⟩
  · intro f
    exact ⟨(vars_resc h x).2 f.vars, hr.2 f.rows, fun g hg => (h2 g).2 (f.sos2 g hg), fun g hg => (h1 g).2 (f.sos1 g hg)⟩

/-- every assignment is a multiple of one -/
theorem exists_resc (hs : ∀ v, 0 < s v) (y : Nat → ℚ) : ∃ x : Nat → ℚ, y = fun v => s v * x v :=
  ⟨fun v => y v / s v, funext fun v => (mul_div_cancel₀ (y v) (hs v).ne').symm⟩

theorem optimal_resc (h : Factors c s r lp) (x : Nat → ℚ) : Optimal (lp.resc c s r) (fun v => s v * x v) ↔ Optimal lp x := by
  unfold Optimal
  rw [feasible_resc h, cost_resc h]
  refine and_congr Iff.rfl ⟨fun f y hy => ?_, fun f y hy => ?_⟩
  · have := f _ ((feasible_resc h y).2 hy)
    rw [cost_resc h] at this
    exact le_of_mul_le_mul_left this h.hc
  · obtain ⟨y, rfl⟩ := exists_resc h.hs y
    rw [cost_resc h]
    exact mul_le_mul_of_nonneg_left (f y ((feasible_resc h y).1 hy)) h.hc.le

theorem shadow_resc (h : Factors c s r lp) (x p : Nat → ℚ) :
    ShadowPrices (lp.resc c s r) (fun v => s v * x v) (fun i => c * p i / r i) ↔ ShadowPrices lp x p := by
  have key : ∀ y, ((lp.resc c s r).rows.map (fun e => c * p e.cid / r e.cid * (linVal (fun v => s v * y v) e.coefs -
      e.rhs.eval (fun v => s v * y v)))).sum = c * (lp.rows.map (fun e => p e.cid * (linVal y e.coefs - e.rhs.eval y))).sum := by
    intro y
    rw [← sum_map_mul_left]
    simp only [Lp.resc, List.map_map]
    congr 1
    apply List.map_congr_left
    intro e he
    have := (h.hr e.cid).ne'
    simp only [Function.comp]
    rw [linVal_resc h.hs, rhs_resc h he]
    calc c * p e.cid / r e.cid * (r e.cid * linVal y e.coefs - r e.cid * e.rhs.eval y)
        = c * (p e.cid * (linVal y e.coefs - e.rhs.eval y)) * (r e.cid / r e.cid) := by ring
      _ = _ := by rw [div_self this, mul_one]
  have hge : ∀ i, 0 ≤ c * p i / r i ↔ 0 ≤ p i := by
    intro i
    have e : c * p i / r i = c / r i * p i := by ring
    rw [e]
    exact mul_nonneg_iff_of_pos_left (div_pos h.hc (h.hr i))
  have hle : ∀ i, c * p i / r i ≤ 0 ↔ p i ≤ 0 := by
    intro i
    have e : c * p i / r i = c / r i * p i := by ring
    have hp := div_pos h.hc (h.hr i)
    rw [e]
    constructor
    · intro h'
      by_contra hn
      push Not at hn
      have := mul_pos hp hn
      linarith
    · intro h'
      exact mul_nonpos_of_nonneg_of_nonpos hp.le h'
  have hrow : ∀ (P : Nat → Prop) (t : CType), (∀ e ∈ (lp.resc c s r).rows, e.ctype = t → P e.cid) ↔
      ∀ e ∈ lp.rows, e.ctype = t → P e.cid := by
    intro P t
    simp only [Lp.resc, List.forall_mem_map]
  constructor
  · intro f
    refine ⟨(feasible_resc h x).1 f.feasible, ?_, ?_, ?_⟩
    · intro e he ht
      exact (hge _).1 ((hrow (fun i => 0 ≤ c * p i / r i) _).1 f.ge e he ht)
    · intro e he ht
      exact (hle _).1 ((hrow (fun i => c * p i / r i ≤ 0) _).1 f.le e he ht)
    · intro y hy
      have := f.bound _ ((vars_resc h y).2 hy)
      rw [cost_resc h, cost_resc h, key, ← mul_sub] at this
      exact le_of_mul_le_mul_left this h.hc
  · intro f
    refine ⟨(feasible_resc h x).2 f.feasible, ?_, ?_, ?_⟩
    · exact (hrow (fun i => 0 ≤ c * p i / r i) _).2 fun e he ht => (hge _).2 (f.ge e he ht)
    · exact (hrow (fun i => c * p i / r i ≤ 0) _).2 fun e he ht => (hle _).2 (f.le e he ht)
    · intro y hy
      obtain ⟨y, rfl⟩ := exists_resc h.hs y
      rw [cost_resc h, cost_resc h, key, ← mul_sub]
      exact mul_le_mul_of_nonneg_left (f.bound y ((vars_resc h y).1 hy)) h.hc.le

end

/-! ### Rows of the program -/

/-- a term in another unit -/
def Term.resc (s r : Nat → ℚ) (t : Term) : Term := { t with coef := r t.cid * t.coef / s t.vid }

theorem groupCoefs_resc (s r : Nat → ℚ) (ts : List Term) (i : Nat) :
    groupCoefs (ts.map (Term.resc s r)) i = (groupCoefs ts i).map (fun t => (t.1, r i * t.2 / s t.1)) := by
  unfold groupCoefs
  have e1 : (ts.map (Term.resc s r)).filter (fun t => decide (t.cid = i)) =
      (ts.filter (fun t => decide (t.cid = i))).map (Term.resc s r) := by rw [List.filter_map]; rfl
  simp only [e1, List.map_map]
  have e2 : (ts.filter (fun t => decide (t.cid = i))).map (Term.vid ∘ Term.resc s r) =
      (ts.filter (fun t => decide (t.cid = i))).map Term.vid := rfl
  rw [e2]
  apply List.map_congr_left
  intro v _
  simp only [Function.comp, Prod.mk.injEq, true_and]
  rw [List.filter_map, List.map_map]
  have e3 : r i * ((((ts.filter (fun t => decide (t.cid = i))).filter (fun t => decide (t.vid = v))).map Term.coef).sum) / s v =
      r i / s v * ((((ts.filter (fun t => decide (t.cid = i))).filter (fun t => decide (t.vid = v))).map Term.coef).sum) := by ring
  refine Eq.trans ?_ e3.symm
  rw [← sum_map_mul_left]
  congr 1
  apply List.map_congr_left
  intro t ht
  have h1 := List.mem_filter.1 ht
  have h2 := (List.mem_filter.1 h1.1).2
  have h1 : t.vid = v := of_decide_eq_true h1.2
  have h2 : t.cid = i := of_decide_eq_true h2
  simp only [Function.comp, Term.resc, h1, h2]
  ring

theorem lookupLast_resc (r : Nat → ℚ) (rows : List (Nat × CType × Rhs)) (i : Nat) :
    lookupLast (rows.map (fun e => (e.1, e.2.1, e.2.2.mul (r e.1)))) i = (lookupLast rows i).map (fun e => (e.1, e.2.mul (r i))) := by
  unfold lookupLast
  rw [← List.map_reverse, List.find?_map]
  generalize rows.reverse = l
  have : ((fun e : Nat × CType × Rhs => decide (e.1 = i)) ∘ fun e : Nat × CType × Rhs => (e.1, e.2.1, e.2.2.mul (r e.1))) =
      fun e => decide (e.1 = i) := rfl
  rw [this]
  cases h : l.find? (fun e => decide (e.1 = i)) with
  | none => rfl
  | some e =>
    have := List.find?_some h
    simp only [decide_eq_true_eq] at this
    simp only [Option.map_some, this]

theorem solverRows_resc (s r : Nat → ℚ) (ts : List Term) (rows : List (Nat × CType × Rhs)) (is : List Nat) :
    solverRows (ts.map (Term.resc s r)) (rows.map (fun e => (e.1, e.2.1, e.2.2.mul (r e.1)))) is =
    (solverRows ts rows is).map (List.map (fun e : LRow =>
      { e with coefs := e.coefs.map (fun t => (t.1, r e.cid * t.2 / s t.1)), rhs := e.rhs.mul (r e.cid) })) := by
  induction is with
  | nil => rfl
  | cons i is ih =>
    simp only [solverRows, lookupLast_resc]
    cases lookupLast rows i with
    | none => rfl
    | some q =>
      obtain ⟨ty, q⟩ := q
      simp only [Option.map_some]
      split
      · rfl
      · rw [ih, groupCoefs_resc]
        cases solverRows ts rows is with
        | error e => rfl
        | ok l => rfl

/-! ### The market in another unit -/

section
variable {c : ℚ} {m : Market} {r : Nat → ℚ}

theorem bids_plain {v : BidVar} (h : v ∈ m.bids.getD []) : v.vid ∈ m.plainRefs := by
  have := List.mem_map_of_mem (f := BidVar.vid) h
  simp only [Market.plainRefs, List.mem_append]; tauto

theorem inters_plain {v : InterVar} (h : v ∈ m.inters.getD []) : v.vid ∈ m.plainRefs := by
  have := List.mem_map_of_mem (f := InterVar.vid) h
  simp only [Market.plainRefs, List.mem_append]; tauto

theorem losses_plain {v : LossVar} (h : v ∈ m.losses.getD []) : v.vid ∈ m.plainRefs := by
  have := List.mem_map_of_mem (f := LossVar.vid) h
  simp only [Market.plainRefs, List.mem_append]; tauto

theorem getD_map_map {α β : Type} (f : α → β) (o : Option (List α)) : (o.map (List.map f)).getD [] = (o.getD []).map f := by
  cases o <;> rfl

theorem sv_pos (hc : 0 < c) (m : Market) (v : Nat) : 0 < m.sv c v := by
  unfold Market.sv; split
  · exact one_pos
  · exact hc

theorem rowFactor_pos (hc : 0 < c) (hr : RowFactor c m r) (i : Nat) : 0 < r i := by
  rcases hr.cases i with h | h <;> rw [h]
  · exact one_pos
  · exact hc

theorem allVars_pw (hm : Reached m) (c : ℚ) :
    (m.pw c).allVars = m.allVars.map (fun v => { v with lb := m.sv c v.vid * v.lb, ub := v.ub.map (m.sv c v.vid * ·) }) := by
  have hp := hm.pow
  have hw := hm.wf
  have hr := hm.refs
  have e1 : (m.pw c).bids.getD [] = (m.bids.getD []).map (BidVar.pw c) := getD_map_map _ _
  have e2 : (m.pw c).inters.getD [] = (m.inters.getD []).map (InterVar.pw c) := getD_map_map _ _
  have e3 : (m.pw c).losses.getD [] = (m.losses.getD []).map (LossVar.pw c) := getD_map_map _ _
  have e4 : (m.pw c).weights.getD [] = (m.weights.getD []).map (WeightVar.pw c) := getD_map_map _ _
  have e5 : (m.pw c).deficits = m.deficits.map (fun d => (d.1, defSc (cf c d.1) d.2)) := rfl
  unfold Market.allVars
  rw [e1, e2, e3, e4, e5]
  simp only [List.map_append, List.map_map, List.flatMap_map, List.map_flatMap]
  congr 1
  · congr 1
    · congr 1
      · congr 1
        · apply List.map_congr_left
          intro v hv
          simp only [Function.comp, sv_plain hp hr c (bids_plain hv), BidVar.pw, Option.map_some, mul_zero]
        · apply List.map_congr_left
          intro v hv
          simp only [Function.comp, sv_plain hp hr c (inters_plain hv), InterVar.pw, Option.map_some]
      · apply List.map_congr_left
        intro v hv
        simp only [Function.comp, sv_plain hp hr c (losses_plain hv), LossVar.pw, Option.map_some]
    · apply List.map_congr_left
      intro v hv
      have : m.sv c v.vid = 1 := sv_weight c (List.mem_append_left _ (List.mem_map_of_mem hv))
      simp only [Function.comp, this, WeightVar.pw, Option.map_some, mul_one, mul_zero]
  · simp only [defSc, List.map_map, Function.comp_def, mul_zero, Option.map_none]
    rfl

theorem objective_pw (hc : 0 < c) (hm : Reached m) :
    (m.pw c).objective = m.objective.map (fun o => (o.1, c * o.2 / m.sv c o.1)) := by
  have hp := hm.pow
  have hw := hm.wf
  have hr := hm.refs
  have e1 : (m.pw c).bidCost = m.bidCost := rfl
  have e5 : (m.pw c).deficits = m.deficits.map (fun d => (d.1, defSc (cf c d.1) d.2)) := rfl
  unfold Market.objective
  rw [e1, e5, List.map_append, List.map_map, List.flatMap_map, List.map_flatMap]
  congr 1
  · apply List.map_congr_left
    intro v hv
    have : m.sv c v.vid = c := sv_plain hp hr c (by
      have := List.mem_map_of_mem (f := BidCost.vid) hv
      simp only [Market.plainRefs, List.mem_append]; tauto)
    simp only [Function.comp, this, mul_div_cancel_left₀ _ hc.ne']
  · refine List.flatMap_congr fun d hd => ?_
    simp only [defSc, List.map_map]
    apply List.map_congr_left
    intro v hv
    have : m.sv c v.vid = rf c d.1 := sv_def hr hw.var c hd (List.mem_map_of_mem hv)
    simp only [Function.comp, this, DefVar.sc, Prod.mk.injEq, true_and, cf, rf]
    split
    · simp
    · rw [mul_div_cancel_left₀ _ hc.ne', one_mul]

theorem allRows_pw (hr : RowFactor c m r) : (m.pw c).allRows = m.allRows.map (fun e => (e.1, e.2.1, e.2.2.mul (r e.1))) := by
  have e1 : (m.pw c).conRhs = m.conRhs.map (fun d => (d.1, d.2.map (Row.pw (rf c d.1)))) := rfl
  have e2 : (m.pw c).mktRhs = m.mktRhs.map (fun d => (d.1, d.2.map (Row.pw (rf c d.1)))) := rfl
  have e3 : (m.pw c).dynRhs = m.dynRhs := rfl
  unfold Market.allRows
  rw [e1, e2, e3, List.map_append, List.map_append]
  have key : ∀ l : Dict CKey (List Row), (∀ e ∈ l, ∀ t ∈ e.2, r t.cid = rf c e.1) →
      (Dict.concat (l.map (fun d => (d.1, d.2.map (Row.pw (rf c d.1)))))).map (fun e => (e.cid, e.ctype, Rhs.const e.rhs)) =
      (l.concat.map (fun e => (e.cid, e.ctype, Rhs.const e.rhs))).map (fun e => (e.1, e.2.1, e.2.2.mul (r e.1))) := by
    intro l hl
    simp only [Dict.concat, List.flatMap_map, List.map_flatMap, List.map_map]
    refine List.flatMap_congr fun d hd => ?_
    apply List.map_congr_left
    intro t ht
    simp only [Function.comp, Row.pw, Rhs.mul, hl d hd t ht]
  congr 1
  · congr 1
    · exact key _ hr.con
    · exact key _ hr.mkt
  · rw [List.map_map]
    rfl

theorem bidUnitMap_mem {vs : List BidVar} {us : List UnitInfo} {bi : List String} {v : VarUnit} (h : v ∈ bidUnitMap vs us bi) :
    ∃ w ∈ vs, w.vid = v.vid := by
  simp only [bidUnitMap, List.mem_flatMap, List.mem_map] at h
  obtain ⟨w, hw, _, _, rfl⟩ := h
  exact ⟨w, hw, rfl⟩

theorem bidRegMap_mem {vs : List BidVar} {us : List UnitInfo} {v : VarReg} (h : v ∈ bidRegMap vs us) : ∃ w ∈ vs, w.vid = v.vid := by
  simp only [bidRegMap, List.mem_flatMap, List.mem_map] at h
  obtain ⟨w, hw, _, _, rfl⟩ := h
  exact ⟨w, hw, rfl⟩

theorem interMap_mem {ds : List InterDef} {n : Nat} {v : InterMap} (h : v ∈ interMap ds n) :
    v.vid ∈ (interVariables ds n).map InterVar.vid := by
  rw [interVariables_vids]
  simp only [interMap, List.mem_append] at h
  rcases h with h | h
  all_goals
    obtain ⟨i, d, hi, rfl⟩ := mem_saveIndex.1 h
    have := (List.getElem?_eq_some_iff.1 hi).1
    simp only [List.mem_range'_1]
    omega

theorem bidUnit_plain (h : BidWF m) {v : VarUnit} (hv : v ∈ m.bidUnit.getD []) : v.vid ∈ m.plainRefs := by
  rcases h with ⟨-, h, -⟩ | ⟨b, n, -, -, e1, e2, -⟩
  · rw [h] at hv; cases hv
  · rw [e2, Option.getD_some] at hv
    obtain ⟨w, hw, e⟩ := bidUnitMap_mem hv
    exact e ▸ bids_plain (by rw [e1]; exact hw)

theorem bidReg_plain (h : BidWF m) {v : VarReg} (hv : v ∈ m.bidReg.getD []) : v.vid ∈ m.plainRefs := by
  rcases h with ⟨-, -, h⟩ | ⟨b, n, -, -, e1, -, e2⟩
  · rw [h] at hv; cases hv
  · rw [e2, Option.getD_some] at hv
    obtain ⟨w, hw, e⟩ := bidRegMap_mem hv
    exact e ▸ bids_plain (by rw [e1]; exact hw)

theorem interReg_plain (h : InterWF m) {v : InterMap} (hv : v ∈ m.interReg.getD []) : v.vid ∈ m.plainRefs := by
  rcases h with ⟨-, -, h⟩ | ⟨ds, n, -, e1, e2, -⟩
  · rw [h] at hv; cases hv
  · rw [e2, Option.getD_some] at hv
    have := interMap_mem hv
    rw [Market.plainRefs, e1]
    simp only [Option.getD_some, List.mem_append]
    tauto

theorem genericIds_pw (c : ℚ) (m : Market) : (m.pw c).genericIds = m.genericIds := by
  have e1 : (m.pw c).conRhs.get? .generic = (m.conRhs.get? .generic).map (List.map (Row.pw (rf c .generic))) :=
    Dict.get?_mapkv (fun (k : CKey) (rows : List Row) => rows.map (Row.pw (rf c k))) _ _
  have e2 : (m.pw c).mktRhs.get? .fcas = (m.mktRhs.get? .fcas).map (List.map (Row.pw (rf c .fcas))) :=
    Dict.get?_mapkv (fun (k : CKey) (rows : List Row) => rows.map (Row.pw (rf c k))) _ _
  have e3 : ∀ (f : ℚ) (l : List Row), setIds (l.map (Row.pw f)) = setIds l := by
    intro f l; unfold setIds; rw [List.filterMap_map]; rfl
  unfold Market.genericIds
  rw [e1, e2]
  cases m.conRhs.get? .generic <;> cases m.mktRhs.get? .fcas <;> simp only [Option.map_some, Option.map_none, Option.getD_some, Option.getD_none, e3]

theorem genericIds_factor (hr : RowFactor c m r) {ids : List (Nat × String)} (h : m.genericIds = some ids) {i : Nat × String} (hi : i ∈ ids) :
    r i.1 = c := by
  have hmem : ∀ {l : List Row}, i ∈ setIds l → ∃ t ∈ l, t.cid = i.1 := by
    intro l hl
    simp only [setIds, List.mem_filterMap, Option.map_eq_some_iff] at hl
    obtain ⟨t, ht, s, _, rfl⟩ := hl
    exact ⟨t, ht, rfl⟩
  have key : i ∈ setIds ((m.conRhs.get? .generic).getD []) ∨ i ∈ setIds ((m.mktRhs.get? .fcas).getD []) := by
    unfold Market.genericIds at h
    split at h
    · cases h
    · injection h with h
      subst h
      exact List.mem_append.1 hi
  rcases key with h | h
  · obtain ⟨t, ht, e⟩ := hmem h
    rw [← e]
    cases hg : m.conRhs.get? .generic with
    | none => rw [hg] at ht; cases ht
    | some l =>
      rw [hg, Option.getD_some] at ht
      exact hr.con _ (Dict.mem_of_get? hg) t ht
  · obtain ⟨t, ht, e⟩ := hmem h
    rw [← e]
    cases hg : m.mktRhs.get? .fcas with
    | none => rw [hg] at ht; cases ht
    | some l =>
      rw [hg, Option.getD_some] at ht
      exact hr.mkt _ (Dict.mem_of_get? hg) t ht

theorem map_resc_self {s : Nat → ℚ} {ts : List Term} (h : ∀ t ∈ ts, r t.cid = s t.vid ∧ s t.vid ≠ 0) : ts.map (Term.resc s r) = ts := by
  refine (List.map_congr_left fun t ht => ?_).trans (List.map_id _)
  obtain ⟨h1, h2⟩ := h t ht
  simp only [Term.resc, h1, mul_div_cancel_left₀ _ h2, id]

theorem genericTerms_pw (c : ℚ) (m : Market) : (m.pw c).genericTerms = m.genericTerms := by
  unfold Market.genericTerms
  rw [genericIds_pw]
  cases m.genericIds with
  | none => rfl
  | some ids =>
    dsimp only
    unfold Market.genericTermsFor
    congr 1
    have e1 : (m.pw c).gInter = m.gInter := rfl
    have e2 : (m.pw c).inters = m.inters.map (List.map (InterVar.pw c)) := rfl
    rw [e1, e2]
    cases m.gInter with
    | none => rfl
    | some g =>
      cases m.inters with
      | none => rfl
      | some v =>
        simp only [Option.map_some, genericInterLhs]
        refine List.flatMap_congr fun a _ => ?_
        rw [List.filter_map, List.flatMap_map]
        rfl

theorem terms_pw (hc : 0 < c) (hm : Reached m) (hr : RowFactor c m r) : (m.pw c).terms = m.terms.map (Term.resc (m.sv c) r) := by
  have hp := hm.pow
  have hw := hm.wf
  have hv := hm.refs
  have hpl : ∀ {t : Term}, r t.cid = c → t.vid ∈ m.plainRefs → r t.cid = m.sv c t.vid ∧ m.sv c t.vid ≠ 0 := by
    intro t h1 h2
    rw [sv_plain hp hv c h2]
    exact ⟨h1, hc.ne'⟩
  unfold Market.terms
  rw [List.map_append, List.map_append, List.map_append]
  congr 1
  · congr 1
    · congr 1
      · have e1 : (m.pw c).lossLhs.getD [] = (m.lossLhs.getD []).map (Term.link c m.sumIds) := getD_map_map _ _
        have e2 : (m.pw c).tieLhs.getD [] = (m.tieLhs.getD []).map (Term.mul c⁻¹) := getD_map_map _ _
        have e3 : (m.pw c).deficits = m.deficits.map (fun d => (d.1, defSc (cf c d.1) d.2)) := rfl
        unfold Market.fixedTerms
        rw [e1, e2, e3, List.map_append, List.map_append, List.flatMap_map, List.map_flatMap]
        congr 1
        · congr 1
          · apply List.map_congr_left
            intro t ht
            have h1 : m.sv c t.vid = 1 := sv_weight c (List.mem_append_right _ (List.mem_map_of_mem ht))
            simp only [Term.link, Term.resc, hr.link t ht, h1, div_one]
            split <;> simp
          · apply List.map_congr_left
            intro t ht
            have h1 : m.sv c t.vid = c := sv_plain hp hv c (by
              have := List.mem_map_of_mem (f := Term.vid) ht
              simp only [Market.plainRefs, List.mem_append]; tauto)
            simp only [Term.mul, Term.resc, hr.tie t ht, h1, one_mul, div_eq_inv_mul]
        · refine List.flatMap_congr fun d hd => ?_
          refine (map_resc_self ?_).symm
          intro t ht
          rw [hr.defs d hd t ht, sv_def hv hw.var c hd (hv.own d hd t ht)]
          refine ⟨rfl, ?_⟩
          unfold rf
          split
          · exact one_ne_zero
          · exact hc.ne'
      · rw [genericTerms_pw]
        refine (map_resc_self ?_).symm
        intro t ht
        unfold Market.genericTerms at ht
        cases hg : m.genericIds with
        | none => rw [hg] at ht; cases ht
        | some ids =>
          rw [hg] at ht
          simp only [Market.genericTermsFor, List.mem_append] at ht
          rcases ht with (ht | ht) | ht
          · split at ht
            · rename_i g v h1 h2
              simp only [genericUnitLhs, List.mem_flatMap, List.mem_map] at ht
              obtain ⟨a, _, b, hb, i, hi, rfl⟩ := ht
              exact hpl (genericIds_factor hr hg (List.mem_filter.1 hi).1)
                (bidUnit_plain hw.bid (by rw [h2]; exact (List.mem_filter.1 hb).1))
            · cases ht
          · split at ht
            · rename_i g v h1 h2
              simp only [genericRegionLhs, List.mem_flatMap, List.mem_map] at ht
              obtain ⟨a, _, b, hb, i, hi, rfl⟩ := ht
              exact hpl (genericIds_factor hr hg (List.mem_filter.1 hi).1)
                (bidReg_plain hw.bid (by rw [h2]; exact (List.mem_filter.1 hb).1))
            · cases ht
          · split at ht
            · rename_i g v h1 h2
              simp only [genericInterLhs, List.mem_flatMap, List.mem_map] at ht
              obtain ⟨a, _, b, hb, i, hi, rfl⟩ := ht
              exact hpl (genericIds_factor hr hg (List.mem_filter.1 hi).1)
                (inters_plain (by rw [h2]; exact (List.mem_filter.1 hb).1))
            · cases ht
    · have e : (m.pw c).regTerms = m.regTerms := rfl
      rw [e]
      refine (map_resc_self ?_).symm
      intro t ht
      simp only [Market.regTerms, createLhsReg, List.mem_flatMap, List.mem_map] at ht
      obtain ⟨a, ha, b, hb, rfl⟩ := ht
      simp only [Dict.concat, List.mem_flatMap] at ha
      obtain ⟨d, hd, ha⟩ := ha
      refine hpl (hr.reg d hd a ha) ?_
      have hb := (List.mem_filter.1 hb).1
      simp only [Market.regVars, List.mem_append, List.mem_map] at hb
      rcases hb with (hb | ⟨i, hi, rfl⟩) | hb
      · exact bidReg_plain hw.bid hb
      · exact interReg_plain hw.inter hi
      · have := List.mem_map_of_mem (f := VarReg.vid) hb
        simp only [Market.plainRefs, List.mem_append]; tauto
  · have e : (m.pw c).unitTerms = m.unitTerms := rfl
    rw [e]
    refine (map_resc_self ?_).symm
    intro t ht
    simp only [Market.unitTerms, createLhsUnit, List.mem_flatMap, List.mem_map] at ht
    obtain ⟨a, ha, b, hb, rfl⟩ := ht
    simp only [Dict.concat, List.mem_flatMap] at ha
    obtain ⟨d, hd, ha⟩ := ha
    exact hpl (hr.unit d hd a ha) (bidUnit_plain hw.bid (List.mem_filter.1 hb).1)

theorem groupBy_map {α β κ : Type} [DecidableEq κ] (f : α → β) (key : β → κ) (l : List α) :
    groupBy key (l.map f) = (groupBy (fun a => key (f a)) l).map (List.map f) := by
  unfold groupBy
  simp only [List.map_map, List.filter_map]
  rfl

theorem sos2_pw (c : ℚ) (m : Market) : (m.pw c).sos2Groups = m.sos2Groups := by
  have e4 : (m.pw c).weights.getD [] = (m.weights.getD []).map (WeightVar.pw c) := getD_map_map _ _
  unfold Market.sos2Groups
  rw [e4, groupBy_map, List.map_map]
  apply List.map_congr_left
  intro g _
  simp only [Function.comp, List.map_map]
  rfl

theorem sos1_pw (c : ℚ) (m : Market) : (m.pw c).sos1Groups = m.sos1Groups := by
  have e4 : (m.pw c).inters.getD [] = (m.inters.getD []).map (InterVar.pw c) := getD_map_map _ _
  unfold Market.sos1Groups
  rw [e4, List.filter_map, groupBy_map, List.map_map]
  apply List.map_congr_left
  intro g _
  simp only [Function.comp, List.map_map]
  rfl

theorem assemble_pw (hc : 0 < c) (hm : Reached m) (hr : RowFactor c m r) :
    (m.pw c).assemble = m.assemble.map (Lp.resc c (m.sv c) r) := by
  have ev : (m.pw c).allVars.map LVar.vid = m.allVars.map LVar.vid := by
    rw [allVars_pw hm, List.map_map]; rfl
  have eo : (m.pw c).objective.all (fun o => decide (o.1 ∈ (m.pw c).allVars.map LVar.vid)) =
      m.objective.all (fun o => decide (o.1 ∈ m.allVars.map LVar.vid)) := by
    rw [ev, objective_pw hc hm, List.all_map]; rfl
  have en : (m.pw c).noVars = m.noVars := by
    unfold Market.noVars
    simp only [Market.pw, Market.pwWith, List.isEmpty_map, Option.isNone_map]
  have el : (m.pw c).lpRows = m.lpRows.map (List.map (fun e : LRow =>
      { e with coefs := e.coefs.map (fun t => (t.1, r e.cid * t.2 / m.sv c t.1)), rhs := e.rhs.mul (r e.cid) })) := by
    have h1 : (m.pw c).conRhs.isEmpty = m.conRhs.isEmpty := by simp only [Market.pw, Market.pwWith, List.isEmpty_map]
    have h2 : (m.pw c).mktRhs.isEmpty = m.mktRhs.isEmpty := by simp only [Market.pw, Market.pwWith, List.isEmpty_map]
    have h3 : (m.pw c).dynRhs = m.dynRhs := rfl
    have h4 : (m.terms.map (Term.resc (m.sv c) r)).all (fun t => decide (t.vid ∈ m.allVars.map LVar.vid)) =
        m.terms.all (fun t => decide (t.vid ∈ m.allVars.map LVar.vid)) := by rw [List.all_map]; rfl
    have h5 : (m.terms.map (Term.resc (m.sv c) r)).map Term.cid = m.terms.map Term.cid := by rw [List.map_map]; rfl
    unfold Market.lpRows
    rw [h1, h2, h3, ev, terms_pw hc hm hr, List.isEmpty_map, h4, h5, allRows_pw hr, solverRows_resc]
    split
    · rfl
    split
    · rfl
    split <;> rfl
  have h1 : (m.pw c).regCon = m.regCon := rfl
  have h2 : (m.pw c).bidReg = m.bidReg := rfl
  have h3 : (m.pw c).interReg = m.interReg := rfl
  have h4 : (m.pw c).lossReg = m.lossReg := rfl
  have h5 : (m.pw c).unitCon = m.unitCon := rfl
  have h6 : (m.pw c).bidUnit = m.bidUnit := rfl
  have h7 : (m.pw c).dynRhs = m.dynRhs := rfl
  unfold Market.assemble
  rw [eo, en, ev, el, h1, h2, h3, h4, h5, h6, h7]
  split
  · rfl
  split
  · rfl
  split
  · rfl
  split
  · rfl
  split
  · rfl
  rw [allVars_pw hm, objective_pw hc hm, sos1_pw, sos2_pw]
  cases m.lpRows <;> rfl

theorem factors_of (hc : 0 < c) (hm : Reached m) (hr : RowFactor c m r) {lp : Lp} (h : m.assemble = .ok lp) : Factors c (m.sv c) r lp := by
  refine ⟨hc, sv_pos hc m, rowFactor_pos hc hr, ?_⟩
  intro e he v hv
  have hrows : m.lpRows = .ok lp.rows := by
    unfold Market.assemble at h
    repeat' split at h
    all_goals first
      | (cases h; done)
      | (rename_i hl; injection h with h; rw [← h]; exact hl)
  have hmem : (e.cid, e.ctype, e.rhs) ∈ m.allRows := by
    unfold Market.lpRows at hrows
    repeat' split at hrows
    · injection hrows with h'; rw [← h'] at he; cases he
    · cases hrows
    · cases hrows
    · exact lookupLast_mem ((solverRows_mem hrows).2 e he).2.2
  rw [hv] at hmem
  simp only [Market.allRows, List.mem_append, List.mem_map, Prod.mk.injEq, reduceCtorEq, and_false, exists_false, or_false, false_or,
    Rhs.var.injEq] at hmem
  obtain ⟨t, ht, h1, _, h2⟩ := hmem
  rw [← h1, ← h2, hr.dyn t ht]
  refine sv_plain hm.pow hm.refs c ?_
  have := List.mem_map_of_mem (f := DynRow.rhsVid) ht
  simp only [Market.plainRefs, List.mem_append]; tauto

end

end Verif
