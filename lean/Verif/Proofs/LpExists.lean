import Verif.Proofs.Farkas
import Verif.Spec.Lp
import Verif.Spec.Price
import Mathlib.Data.List.Sublists

/-!
# Optimal solutions and shadow prices of programs

Consequences of Farkas' lemma for the programs of the specification: a program with special ordered sets that is feasible and
bounded below has an optimal solution, and a linear program has shadow prices at each optimal solution.
-/

namespace Verif

/-- a linear form as a linear function of the values of the variables -/
def linForm (cs : List (Nat × ℚ)) : (Nat → ℚ) →ₗ[ℚ] ℚ where
  toFun x := linVal x cs
  map_add' x y := by
    unfold linVal
    induction cs with
    | nil => simp
    | cons c cs ih => simp only [List.map_cons, List.sum_cons, Pi.add_apply] at ih ⊢; rw [ih]; ring
  map_smul' s x := by
    unfold linVal
    induction cs with
    | nil => simp
    | cons c cs ih =>
      simp only [List.map_cons, List.sum_cons, Pi.smul_apply, smul_eq_mul, RingHom.id_apply] at ih ⊢
      rw [ih]; ring

/-- the inequalities of a program -/
inductive Ineq
  | lo (v : LVar)
  | hi (v : LVar)
  | ge (r : LRow)
  | le (r : LRow)
  | never
  | pos (i : Nat)
  | neg (i : Nat)
  deriving DecidableEq

def Rhs.aff : Rhs → Aff (Nat → ℚ)
  | .const q => ⟨0, q⟩
  | .var v => ⟨linForm [(v, 1)], 0⟩

theorem Rhs.aff_at (r : Rhs) (x : Nat → ℚ) : r.aff.at x = r.eval x := by
  cases r with
  | const q => simp [Rhs.aff, Aff.at, Rhs.eval]
  | var v => simp [Rhs.aff, Aff.at, Rhs.eval, linForm, linVal]

def Ineq.aff : Ineq → Aff (Nat → ℚ)
  | .lo v => ⟨linForm [(v.vid, 1)], -v.lb⟩
  | .hi v => match v.ub with
    | none => ⟨0, 0⟩
    | some u => ⟨linForm [(v.vid, -1)], u⟩
  | .ge r => ⟨linForm r.coefs - r.rhs.aff.lin, -r.rhs.aff.const⟩
  | .le r => ⟨r.rhs.aff.lin - linForm r.coefs, r.rhs.aff.const⟩
  | .never => ⟨0, -1⟩
  | .pos i => ⟨linForm [(i, 1)], 0⟩
  | .neg i => ⟨linForm [(i, -1)], 0⟩

theorem Ineq.lo_at (v : LVar) (x : Nat → ℚ) : (Ineq.lo v).aff.at x = x v.vid - v.lb := by
  simp [Ineq.aff, Aff.at, linForm, linVal]; ring

theorem Ineq.hi_at (v : LVar) (x : Nat → ℚ) : 0 ≤ (Ineq.hi v).aff.at x ↔ ∀ u, v.ub = some u → x v.vid ≤ u := by
  simp only [Ineq.aff]
  cases h : v.ub with
  | none => simp [Aff.at]
  | some u => simp [Aff.at, linForm, linVal]

theorem Ineq.ge_at (r : LRow) (x : Nat → ℚ) : (Ineq.ge r).aff.at x = linVal x r.coefs - r.rhs.eval x := by
  rw [← Rhs.aff_at]
  simp only [Ineq.aff, Aff.at, LinearMap.sub_apply]
  show linVal x r.coefs - _ + _ = _
  ring

theorem Ineq.le_at (r : LRow) (x : Nat → ℚ) : (Ineq.le r).aff.at x = r.rhs.eval x - linVal x r.coefs := by
  rw [← Rhs.aff_at]
  simp only [Ineq.aff, Aff.at, LinearMap.sub_apply]
  show _ - linVal x r.coefs + _ = _
  ring

theorem Ineq.pos_at (i : Nat) (x : Nat → ℚ) : (Ineq.pos i).aff.at x = x i := by
  simp [Ineq.aff, Aff.at, linForm, linVal]

theorem Ineq.neg_at (i : Nat) (x : Nat → ℚ) : (Ineq.neg i).aff.at x = -x i := by
  simp [Ineq.aff, Aff.at, linForm, linVal]

theorem Ineq.never_at (x : Nat → ℚ) : (Ineq.never).aff.at x = -1 := by
  simp [Ineq.aff, Aff.at]

/-- the inequalities of a row -/
def LRow.ineqs (r : LRow) : List Ineq :=
  match r.ctype with
  | .le => [.le r]
  | .ge => [.ge r]
  | .eq => [.ge r, .le r]
  | .other => [.never]

theorem LRow.ineqs_iff (r : LRow) (x : Nat → ℚ) : (∀ i ∈ r.ineqs, 0 ≤ i.aff.at x) ↔ r.holds x := by
  unfold LRow.ineqs LRow.holds CType.holds
  cases r.ctype with
  | le => simp [Ineq.le_at]
  | ge => simp [Ineq.ge_at]
  | eq =>
    simp only [List.mem_cons, List.not_mem_nil, or_false, forall_eq_or_imp, forall_eq, Ineq.ge_at, Ineq.le_at]
    constructor
    · rintro ⟨h1, h2⟩; linarith
    · intro h; constructor <;> linarith
  | other => simp [Ineq.never_at]

/-- the inequalities for the bounds of the variables -/
def Lp.boundIneqs (lp : Lp) : List Ineq := lp.vars.map Ineq.lo ++ lp.vars.map Ineq.hi

theorem Lp.boundIneqs_iff (lp : Lp) (x : Nat → ℚ) : (∀ i ∈ lp.boundIneqs, 0 ≤ i.aff.at x) ↔ ∀ v ∈ lp.vars, v.holds x := by
  unfold Lp.boundIneqs LVar.holds
  simp only [List.mem_append, List.mem_map]
  constructor
  · intro h v hv
    refine ⟨?_, ?_⟩
    · have := h _ (Or.inl ⟨v, hv, rfl⟩)
      rw [Ineq.lo_at] at this; linarith
    · exact (Ineq.hi_at v x).1 (h _ (Or.inr ⟨v, hv, rfl⟩))
  · rintro h i (⟨v, hv, rfl⟩ | ⟨v, hv, rfl⟩)
    · rw [Ineq.lo_at]; linarith [(h v hv).1]
    · exact (Ineq.hi_at v x).2 (h v hv).2

/-- bounds, rows and variables that are kept at zero -/
def Lp.ineqs (lp : Lp) (Z : List Nat) : List Ineq :=
  lp.boundIneqs ++ lp.rows.flatMap LRow.ineqs ++ Z.map Ineq.pos ++ Z.map Ineq.neg

theorem Lp.ineqs_iff (lp : Lp) (Z : List Nat) (x : Nat → ℚ) :
    (∀ i ∈ lp.ineqs Z, 0 ≤ i.aff.at x) ↔ (∀ v ∈ lp.vars, v.holds x) ∧ (∀ r ∈ lp.rows, r.holds x) ∧ ∀ i ∈ Z, x i = 0 := by
  unfold Lp.ineqs
  rw [← Lp.boundIneqs_iff]
  constructor
  · intro h
    refine ⟨fun i hi => h i (by simp [hi]), fun r hr => (LRow.ineqs_iff r x).1 (fun i hi => h i ?_), fun i hi => ?_⟩
    · simp only [List.mem_append, List.mem_flatMap]
      exact Or.inl (Or.inl (Or.inr ⟨r, hr, hi⟩))
    · have h1 := h (.pos i) (by simp [hi])
      have h2 := h (.neg i) (by simp [hi])
      rw [Ineq.pos_at] at h1
      rw [Ineq.neg_at] at h2
      linarith
  · rintro ⟨h1, h2, h3⟩ i hi
    simp only [List.mem_append, List.mem_flatMap, List.mem_map] at hi
    rcases hi with ((hi | ⟨r, hr, hi⟩) | ⟨j, hj, rfl⟩) | ⟨j, hj, rfl⟩
    · exact h1 i hi
    · exact (LRow.ineqs_iff r x).2 (h2 r hr) i hi
    · rw [Ineq.pos_at, h3 j hj]
    · rw [Ineq.neg_at, h3 j hj, neg_zero]

/-- members of the special ordered sets -/
def Lp.members (lp : Lp) : List Nat := lp.sos2.flatMap (·.map Prod.fst) ++ lp.sos1.flatten

/-- the members of special ordered sets that are zero -/
def Lp.zeros (lp : Lp) (x : Nat → ℚ) : List Nat := lp.members.filter (fun i => decide (x i = 0))

/-- A point that has the zeros of a feasible point respects the special ordered sets. -/
theorem feasible_of_zeros {lp : Lp} {x y : Nat → ℚ} (hx : Feasible lp x) (hv : ∀ v ∈ lp.vars, v.holds y) (hr : ∀ r ∈ lp.rows, r.holds y)
    (hz : ∀ i ∈ lp.zeros x, y i = 0) : Feasible lp y := by
  have key : ∀ i ∈ lp.members, y i ≠ 0 → x i ≠ 0 := by
    intro i hi h0 hx0
    exact h0 (hz i (List.mem_filter.2 ⟨hi, decide_eq_true hx0⟩))
  have m2 : ∀ g ∈ lp.sos2, ∀ a ∈ g, a.1 ∈ lp.members := fun g hg a ha =>
    List.mem_append_left _ (List.mem_flatMap.2 ⟨g, hg, List.mem_map_of_mem ha⟩)
  have m1 : ∀ g ∈ lp.sos1, ∀ a ∈ g, a ∈ lp.members := fun g hg a ha =>
    List.mem_append_right _ (List.mem_flatten.2 ⟨g, hg, ha⟩)
  exact ⟨hv, hr, fun g hg a ha b hb h1 h2 => hx.sos2 g hg a ha b hb (key _ (m2 g hg a ha) h1) (key _ (m2 g hg b hb) h2),
    fun g hg a ha b hb h1 h2 => hx.sos1 g hg a ha b hb (key _ (m1 g hg a ha) h1) (key _ (m1 g hg b hb) h2)⟩

theorem best_of_cases {lp : Lp} (L : List (List Nat))
    (h : ∀ Z ∈ L, ∀ x, Feasible lp x → lp.zeros x = Z → ∃ y, Feasible lp y ∧ ∀ z, Feasible lp z → lp.zeros z = Z → lp.cost y ≤ lp.cost z)
    (hne : ∃ x, Feasible lp x ∧ lp.zeros x ∈ L) :
    ∃ y, Feasible lp y ∧ ∀ z, Feasible lp z → lp.zeros z ∈ L → lp.cost y ≤ lp.cost z := by
  induction L with
  | nil => obtain ⟨x, _, hx⟩ := hne; simp at hx
  | cons Z L ih =>
    by_cases h1 : ∃ x, Feasible lp x ∧ lp.zeros x = Z
    · obtain ⟨x, hx, hz⟩ := h1
      obtain ⟨y1, hy1, hm1⟩ := h Z List.mem_cons_self x hx hz
      by_cases h2 : ∃ x, Feasible lp x ∧ lp.zeros x ∈ L
      · obtain ⟨y2, hy2, hm2⟩ := ih (fun Z hZ => h Z (List.mem_cons_of_mem _ hZ)) h2
        rcases le_total (lp.cost y1) (lp.cost y2) with hc | hc
        · refine ⟨y1, hy1, fun z hz hzl => ?_⟩
          rcases List.mem_cons.1 hzl with e | e
          · exact hm1 z hz e
          · exact hc.trans (hm2 z hz e)
        · refine ⟨y2, hy2, fun z hz hzl => ?_⟩
          rcases List.mem_cons.1 hzl with e | e
          · exact hc.trans (hm1 z hz e)
          · exact hm2 z hz e
      · refine ⟨y1, hy1, fun z hz hzl => ?_⟩
        rcases List.mem_cons.1 hzl with e | e
        · exact hm1 z hz e
        · exact absurd ⟨z, hz, e⟩ h2
    · obtain ⟨x, hx, hz⟩ := hne
      have h2 : ∃ x, Feasible lp x ∧ lp.zeros x ∈ L := by
        rcases List.mem_cons.1 hz with e | e
        · exact absurd ⟨x, hx, e⟩ h1
        · exact ⟨x, hx, e⟩
      obtain ⟨y2, hy2, hm2⟩ := ih (fun Z hZ => h Z (List.mem_cons_of_mem _ hZ)) h2
      refine ⟨y2, hy2, fun z hz hzl => ?_⟩
      rcases List.mem_cons.1 hzl with e | e
      · exact absurd ⟨z, hz, e⟩ h1
      · exact hm2 z hz e

/-- the objective as an affine function -/
theorem cost_aff (lp : Lp) (x : Nat → ℚ) : (⟨linForm lp.obj, 0⟩ : Aff (Nat → ℚ)).at x = lp.cost x := by
  simp [Aff.at, linForm, Lp.cost]

/-- **Optimal solutions exist.**  A program with special ordered sets that is feasible and bounded below has an optimal solution. -/
theorem optimal_exists {lp : Lp} (hf : ∃ x, Feasible lp x) {b : ℚ} (hb : ∀ x, (∀ v ∈ lp.vars, v.holds x) → b ≤ lp.cost x) :
    ∃ x, Optimal lp x := by
  obtain ⟨x0, hx0⟩ := hf
  have mem : ∀ x, lp.zeros x ∈ lp.members.sublists := fun x => List.mem_sublists.2 List.filter_sublist
  obtain ⟨y, hy, hm⟩ := best_of_cases (lp := lp) lp.members.sublists (by
    intro Z _ x hx hz
    obtain ⟨y, h1, h2⟩ := attained (lp.ineqs Z) (Nat → ℚ) Ineq.aff ⟨linForm lp.obj, 0⟩ x b (by
        rw [Lp.ineqs_iff]
        refine ⟨hx.vars, hx.rows, fun i hi => ?_⟩
        rw [← hz] at hi
        exact of_decide_eq_true (List.mem_filter.1 hi).2) (by
        intro v hv
        rw [cost_aff]
        exact hb v ((Lp.ineqs_iff ..).1 hv).1)
    rw [Lp.ineqs_iff] at h1
    refine ⟨y, feasible_of_zeros hx h1.1 h1.2.1 (hz ▸ h1.2.2), fun z hz1 hz2 => ?_⟩
    have := h2 z ((Lp.ineqs_iff ..).2 ⟨hz1.vars, hz1.rows, fun i hi => by
      rw [← hz2] at hi
      exact of_decide_eq_true (List.mem_filter.1 hi).2⟩)
    rwa [cost_aff, cost_aff] at this) ⟨x0, hx0, mem x0⟩
  exact ⟨y, hy, fun z hz => hm z hz (mem z)⟩

theorem filter_cid {rows : List LRow} (hn : (rows.map LRow.cid).Nodup) {r : LRow} (hr : r ∈ rows) :
    rows.filter (fun q => decide (q.cid = r.cid)) = [r] := by
  induction rows with
  | nil => simp at hr
  | cons a rows ih =>
    rw [List.map_cons, List.nodup_cons] at hn
    rcases List.mem_cons.1 hr with rfl | hr
    · rw [List.filter_cons_of_pos (by simp), List.filter_eq_nil_iff.2]
      intro q hq
      simp only [decide_eq_true_eq]
      exact fun e => hn.1 (e ▸ List.mem_map_of_mem hq)
    · rw [List.filter_cons_of_neg, ih hn.2 hr]
      simp only [decide_eq_true_eq]
      exact fun e => hn.1 (e ▸ List.mem_map_of_mem hr)

/-- multiplier of a row from the weights of its inequalities -/
def LRow.mult (w : Ineq → ℚ) (r : LRow) : ℚ :=
  match r.ctype with
  | .le => -w (.le r)
  | .ge => w (.ge r)
  | .eq => w (.ge r) - w (.le r)
  | .other => 0

theorem LRow.mult_sum (w : Ineq → ℚ) {r : LRow} (hr : r.ctype ≠ .other) (y : Nat → ℚ) :
    (r.ineqs.map (fun i => w i * i.aff.at y)).sum = r.mult w * (linVal y r.coefs - r.rhs.eval y) := by
  unfold LRow.ineqs LRow.mult
  cases h : r.ctype with
  | le => simp [Ineq.le_at]; ring
  | ge => simp [Ineq.ge_at]
  | eq => simp [Ineq.le_at, Ineq.ge_at]; ring
  | other => exact absurd h hr

theorem LRow.mem_ineqs {r : LRow} (hr : r.ctype ≠ .other) {i : Ineq} (hi : i ∈ r.ineqs) : i = .ge r ∨ i = .le r := by
  unfold LRow.ineqs at hi
  cases h : r.ctype <;> rw [h] at hi <;> simp at hi <;> simp_all

/-- **Shadow prices exist** at each optimal solution of a linear program. -/
theorem shadowPrices_exist {lp : Lp} (h2 : lp.sos2 = []) (h1 : lp.sos1 = []) (hn : (lp.rows.map LRow.cid).Nodup)
    {x : Nat → ℚ} (hx : Optimal lp x) : ∃ p, ShadowPrices lp x p := by
  have hty : ∀ r ∈ lp.rows, r.ctype ≠ .other := by
    intro r hr e
    have := hx.1.rows r hr
    unfold LRow.holds at this
    rw [e] at this
    exact this
  have hnd : (lp.boundIneqs.dedup ++ lp.rows.flatMap LRow.ineqs).Nodup := by
    rw [List.nodup_append]
    refine ⟨List.nodup_dedup _, ?_, ?_⟩
    · rw [List.nodup_flatMap]
      refine ⟨fun r _ => ?_, ?_⟩
      · unfold LRow.ineqs; cases r.ctype <;> simp
      · have hp := List.Nodup.of_map _ hn
        refine (List.pairwise_iff_getElem).2 fun i j hi hj hij => ?_
        intro q h1 h2
        have hne : lp.rows[i] ≠ lp.rows[j] := fun e => by
          have := (List.Nodup.getElem_inj_iff hp).1 e
          omega
        rcases LRow.mem_ineqs (hty _ (List.getElem_mem hi)) h1 with rfl | rfl <;>
          rcases LRow.mem_ineqs (hty _ (List.getElem_mem hj)) h2 with e | e <;> simp at e <;> exact hne e
    · intro a ha b hb e
      subst e
      rw [List.mem_dedup] at ha
      obtain ⟨r, hr, hb⟩ := List.mem_flatMap.1 hb
      unfold Lp.boundIneqs at ha
      rcases LRow.mem_ineqs (hty r hr) hb with rfl | rfl <;> simp at ha
  have hiff : ∀ y, (∀ i ∈ lp.boundIneqs.dedup ++ lp.rows.flatMap LRow.ineqs, 0 ≤ i.aff.at y) ↔
      (∀ v ∈ lp.vars, v.holds y) ∧ ∀ r ∈ lp.rows, r.holds y := by
    intro y
    rw [← Lp.boundIneqs_iff]
    simp only [List.mem_append, List.mem_dedup, List.mem_flatMap]
    constructor
    · intro h
      exact ⟨fun i hi => h i (Or.inl hi), fun r hr => (LRow.ineqs_iff r y).1 fun i hi => h i (Or.inr ⟨r, hr, hi⟩)⟩
    · rintro ⟨h1, h2⟩ i (hi | ⟨r, hr, hi⟩)
      · exact h1 i hi
      · exact (LRow.ineqs_iff r y).2 (h2 r hr) i hi
  obtain ⟨w, hw, hle⟩ := farkas_affine hnd Ineq.aff ⟨linForm lp.obj, -lp.cost x⟩ (y0 := x) ((hiff x).2 ⟨hx.1.vars, hx.1.rows⟩) (by
    intro y hy
    obtain ⟨hy1, hy2⟩ := (hiff y).1 hy
    have := hx.2 y ⟨hy1, hy2, by rw [h2]; simp, by rw [h1]; simp⟩
    show 0 ≤ lp.cost y + -lp.cost x
    linarith)
  have hp : ∀ r ∈ lp.rows, ((lp.rows.filter (fun q => decide (q.cid = r.cid))).map (LRow.mult w)).sum = r.mult w := by
    intro r hr
    rw [filter_cid hn hr]
    simp
  refine ⟨fun c => ((lp.rows.filter (fun q => decide (q.cid = c))).map (LRow.mult w)).sum, hx.1, ?_, ?_, ?_⟩
  · intro r hr e
    rw [hp r hr]
    unfold LRow.mult
    rw [e]
    exact hw _
  · intro r hr e
    rw [hp r hr]
    unfold LRow.mult
    rw [e]
    exact neg_nonpos.2 (hw _)
  · intro y hy
    have h3 := hle y
    rw [List.map_append, List.sum_append] at h3
    have h4 : 0 ≤ (lp.boundIneqs.dedup.map (fun i => w i * i.aff.at y)).sum := by
      apply List.sum_nonneg
      intro q hq
      obtain ⟨i, hi, rfl⟩ := List.mem_map.1 hq
      exact mul_nonneg (hw i) ((Lp.boundIneqs_iff lp y).2 hy i (List.mem_dedup.1 hi))
    have h5 : ((lp.rows.flatMap LRow.ineqs).map (fun i => w i * i.aff.at y)).sum =
        (lp.rows.map (fun r => ((lp.rows.filter (fun q => decide (q.cid = r.cid))).map (LRow.mult w)).sum *
          (linVal y r.coefs - r.rhs.eval y))).sum := by
      have h6 : ∀ rs : List LRow, (∀ r ∈ rs, r ∈ lp.rows) → ((rs.flatMap LRow.ineqs).map (fun i => w i * i.aff.at y)).sum =
          (rs.map (fun r => ((lp.rows.filter (fun q => decide (q.cid = r.cid))).map (LRow.mult w)).sum *
            (linVal y r.coefs - r.rhs.eval y))).sum := by
        intro rs
        induction rs with
        | nil => simp
        | cons r rs ih =>
          intro h
          rw [List.flatMap_cons, List.map_append, List.sum_append, List.map_cons, List.sum_cons,
            ih (fun q hq => h q (List.mem_cons_of_mem _ hq)), hp r (h r List.mem_cons_self),
            LRow.mult_sum w (hty r (h r List.mem_cons_self))]
      exact h6 lp.rows (fun _ h => h)
    have h7 : (⟨linForm lp.obj, -lp.cost x⟩ : Aff (Nat → ℚ)).at y = lp.cost y - lp.cost x := by
      show lp.cost y + -lp.cost x = _
      ring
    rw [h7, h5] at h3
    linarith

end Verif
