import Mathlib.Algebra.Module.LinearMap.Basic
import Mathlib.Algebra.Module.Submodule.Ker
import Mathlib.LinearAlgebra.Prod
import Mathlib.Algebra.Order.Field.Rat
import Mathlib.Algebra.Order.Field.Basic
import Mathlib.Algebra.Order.BigOperators.Group.List
import Mathlib.Tactic.Linarith
import Mathlib.Tactic.Ring

/-!
# Farkas' lemma and minima of linear functions over ℚ

Both are proved by induction on the number of inequalities, for all vector spaces over ℚ.
-/

namespace Verif

/-- Farkas' lemma: a linear function that is not negative where the functions of a list are not negative is a combination of them with
weights that are not negative. -/
theorem farkas {V ι : Type} [AddCommGroup V] [Module ℚ V] : ∀ (l : List ι), l.Nodup → ∀ (F : ι → V →ₗ[ℚ] ℚ) (g : V →ₗ[ℚ] ℚ),
    (∀ v, (∀ i ∈ l, 0 ≤ F i v) → 0 ≤ g v) →
    ∃ w : ι → ℚ, (∀ i, 0 ≤ w i) ∧ ∀ v, g v = (l.map (fun i => w i * F i v)).sum := by
  intro l
  induction l with
  | nil =>
    intro _ F g h
    refine ⟨fun _ => 0, fun _ => le_refl _, fun v => ?_⟩
    have h1 := h v (by simp)
    have h2 := h (-v) (by simp)
    rw [map_neg] at h2
    simp only [List.map_nil, List.sum_nil]
    linarith
  | cons i l ih =>
    classical
    intro hnd F g h
    rw [List.nodup_cons] at hnd
    by_cases hc : ∀ v, (∀ j ∈ l, 0 ≤ F j v) → 0 ≤ g v
    · obtain ⟨w, hw, e⟩ := ih hnd.2 F g hc
      refine ⟨fun j => if j = i then 0 else w j, fun j => ?_, fun v => ?_⟩
      · dsimp only; split
        · exact le_refl _
        · exact hw j
      · dsimp only
        rw [e v, List.map_cons, List.sum_cons, if_pos rfl, zero_mul, zero_add]
        congr 1
        apply List.map_congr_left
        intro j hj
        rw [if_neg (fun (e : j = i) => hnd.1 (e ▸ hj))]
    · push Not at hc
      obtain ⟨v0, h0, hg0⟩ := hc
      have ha : F i v0 < 0 := by
        by_contra hn
        push Not at hn
        have := h v0 (by
          intro j hj
          rcases List.mem_cons.1 hj with rfl | hj
          · exact hn
          · exact h0 j hj)
        linarith
      have hne : F i v0 ≠ 0 := ne_of_lt ha
      -- the direction, scaled
      let x0 : V := (-(F i v0)⁻¹) • v0
      have hpos : 0 < -(F i v0)⁻¹ := by
        rw [neg_pos]; exact inv_lt_zero.2 ha
      have hx : ∀ f : V →ₗ[ℚ] ℚ, f x0 = -(F i v0)⁻¹ * f v0 := fun f => by
        rw [show x0 = (-(F i v0)⁻¹) • v0 from rfl, map_smul, smul_eq_mul]
      have hax : F i x0 = -1 := by rw [hx, neg_mul, inv_mul_cancel₀ hne]
      obtain ⟨w, hw, e⟩ := ih hnd.2 (fun j => F j + (F j x0) • F i) (g + (g x0) • F i) (by
        intro v hv
        have := h (v + (F i v) • x0) (by
          intro j hj
          rcases List.mem_cons.1 hj with rfl | hj
          · rw [map_add, map_smul, hax, smul_eq_mul]; linarith
          · have := hv j hj
            simp only [LinearMap.add_apply, LinearMap.smul_apply, smul_eq_mul] at this
            rw [map_add, map_smul, smul_eq_mul]
            linarith)
        rw [map_add, map_smul, smul_eq_mul] at this
        simp only [LinearMap.add_apply, LinearMap.smul_apply, smul_eq_mul]
        linarith)
      refine ⟨fun j => if j = i then (l.map (fun j => w j * F j x0)).sum - g x0 else w j, fun j => ?_, fun v => ?_⟩
      · dsimp only; split
        · have h1 : 0 ≤ (l.map (fun j => w j * F j x0)).sum := by
            apply List.sum_nonneg
            intro q hq
            obtain ⟨j, hj, rfl⟩ := List.mem_map.1 hq
            rw [hx]
            exact mul_nonneg (hw j) (mul_nonneg hpos.le (h0 j hj))
          have h2 : g x0 < 0 := by rw [hx]; exact mul_neg_of_pos_of_neg hpos hg0
          linarith
        · exact hw j
      · have := e v
        simp only [LinearMap.add_apply, LinearMap.smul_apply, smul_eq_mul] at this
        dsimp only
        rw [List.map_cons, List.sum_cons, if_pos rfl]
        have e1 : (l.map (fun j => (if j = i then (l.map (fun j => w j * F j x0)).sum - g x0 else w j) * F j v)).sum =
            (l.map (fun j => w j * F j v)).sum := by
          congr 1
          apply List.map_congr_left
          intro j hj
          rw [if_neg (fun (e : j = i) => hnd.1 (e ▸ hj))]
        rw [e1]
        have e2 : (l.map (fun j => w j * (F j v + F j x0 * F i v))).sum =
            (l.map (fun j => w j * F j v)).sum + (l.map (fun j => w j * F j x0)).sum * F i v := by
          clear this e1 e ih hnd h0 h hw
          induction l with
          | nil => simp
          | cons j l ih => simp only [List.map_cons, List.sum_cons]; rw [ih]; ring
        rw [e2] at this
        linarith

/-- An affine function: a linear function plus a constant. -/
structure Aff (V : Type) [AddCommGroup V] [Module ℚ V] where
  lin : V →ₗ[ℚ] ℚ
  const : ℚ

def Aff.at {V : Type} [AddCommGroup V] [Module ℚ V] (f : Aff V) (v : V) : ℚ := f.lin v + f.const

/-- Farkas' lemma for affine functions. -/
theorem farkas_affine {V ι : Type} [AddCommGroup V] [Module ℚ V] {l : List ι} (hl : l.Nodup) (F : ι → Aff V) (g : Aff V)
    {y0 : V} (h0 : ∀ i ∈ l, 0 ≤ (F i).at y0) (h : ∀ v, (∀ i ∈ l, 0 ≤ (F i).at v) → 0 ≤ g.at v) :
    ∃ w : ι → ℚ, (∀ i, 0 ≤ w i) ∧ ∀ v, (l.map (fun i => w i * (F i).at v)).sum ≤ g.at v := by
  let hom : Aff V → (V × ℚ) →ₗ[ℚ] ℚ := fun f => f.lin.comp (LinearMap.fst ℚ V ℚ) + f.const • LinearMap.snd ℚ V ℚ
  have hv : ∀ f v t, hom f (v, t) = f.lin v + f.const * t := by
    intro f v t
    simp [hom]
  have key := farkas (V := V × ℚ) (none :: l.map some) (by
      rw [List.nodup_cons]
      exact ⟨by simp, (List.nodup_map_iff (Option.some_injective _)).2 hl⟩)
    (fun i => match i with | none => LinearMap.snd ℚ V ℚ | some i => hom (F i)) (hom g) (by
      rintro ⟨v, t⟩ hvt
      have ht : 0 ≤ t := by simpa using hvt none (by simp)
      have hF : ∀ i ∈ l, 0 ≤ (F i).lin v + (F i).const * t := fun i hi => by
        have := hvt (some i) (by simp [hi])
        dsimp only at this
        rwa [hv] at this
      rw [hv]
      rcases ht.lt_or_eq with ht | ht
      · have := h (t⁻¹ • v) (by
          intro i hi
          unfold Aff.at
          rw [map_smul, smul_eq_mul]
          have := mul_nonneg (inv_nonneg.2 ht.le) (hF i hi)
          have e : t⁻¹ * ((F i).lin v + (F i).const * t) = t⁻¹ * (F i).lin v + (F i).const := by
            rw [mul_add, mul_left_comm, inv_mul_cancel₀ ht.ne', mul_one]
          rwa [e] at this)
        unfold Aff.at at this
        rw [map_smul, smul_eq_mul] at this
        have := mul_nonneg ht.le this
        rw [mul_add, ← mul_assoc, mul_inv_cancel₀ ht.ne', one_mul] at this
        linarith
      · subst ht
        simp only [mul_zero, add_zero] at hF ⊢
        by_contra hn
        push Not at hn
        have key : ∀ s : ℚ, 0 ≤ s → 0 ≤ g.at y0 + s * g.lin v := by
          intro s hs
          have := h (y0 + s • v) (by
            intro i hi
            have h1 := h0 i hi
            have h2 := mul_nonneg hs (hF i hi)
            unfold Aff.at at h1 ⊢
            rw [map_add, map_smul, smul_eq_mul]
            linarith)
          unfold Aff.at at this ⊢
          rw [map_add, map_smul, smul_eq_mul] at this
          linarith
        have hg := key 0 (le_refl _)
        have hpos : 0 < -g.lin v := by linarith
        have := key ((g.at y0 + 1) / (-g.lin v)) (div_nonneg (by linarith) hpos.le)
        have e : (g.at y0 + 1) / (-g.lin v) * g.lin v = -(g.at y0 + 1) := by
          rw [div_neg, neg_mul, div_mul_cancel₀ _ hn.ne]
        rw [e] at this
        linarith)
  obtain ⟨w, hw, e⟩ := key
  refine ⟨fun i => w (some i), fun i => hw _, fun v => ?_⟩
  have := e (v, 1)
  rw [hv] at this
  simp only [List.map_cons, List.sum_cons, List.map_map, LinearMap.snd_apply, mul_one] at this
  have e1 : (l.map ((fun i : Option ι => w i * (match i with | none => LinearMap.snd ℚ V ℚ | some i => hom (F i)) (v, (1 : ℚ))) ∘ some)).sum =
      (l.map (fun i => w (some i) * (F i).at v)).sum := by
    congr 1
    apply List.map_congr_left
    intro i _
    simp only [Function.comp_apply]
    rw [hv, mul_one]
    rfl
  have e2 := hw none
  unfold Aff.at at e1 ⊢
  simp only [Function.comp_def] at this e1
  rw [e1] at this
  linarith

theorem Aff.between {V : Type} [AddCommGroup V] [Module ℚ V] (f : Aff V) (y z : V) (s : ℚ) :
    f.at (y + s • (z - y)) = (1 - s) * f.at y + s * f.at z := by
  unfold Aff.at
  rw [map_add, map_smul, map_sub, smul_eq_mul]
  ring

theorem Aff.add {V : Type} [AddCommGroup V] [Module ℚ V] (f : Aff V) (y z : V) : f.at (y + z) = f.at y + f.lin z := by
  unfold Aff.at
  rw [map_add]
  ring

/-- A linear function that is bounded below on the solutions of finitely many linear inequalities has a minimum there. -/
theorem attained {ι : Type} : ∀ (l : List ι) (V : Type) [AddCommGroup V] [Module ℚ V] (F : ι → Aff V) (g : Aff V) (y0 : V) (b : ℚ),
    (∀ i ∈ l, 0 ≤ (F i).at y0) → (∀ v, (∀ i ∈ l, 0 ≤ (F i).at v) → b ≤ g.at v) →
    ∃ x, (∀ i ∈ l, 0 ≤ (F i).at x) ∧ ∀ v, (∀ i ∈ l, 0 ≤ (F i).at v) → g.at x ≤ g.at v := by
  intro l
  induction l with
  | nil =>
    intro V _ _ F g y0 b _ hb
    have h0 : ∀ v, g.lin v = 0 := by
      intro v
      by_contra hn
      have := hb (((b - g.const - 1) / g.lin v) • v) (by simp)
      unfold Aff.at at this
      rw [map_smul, smul_eq_mul, div_mul_cancel₀ _ hn] at this
      linarith
    refine ⟨y0, by simp, fun v _ => ?_⟩
    unfold Aff.at
    rw [h0, h0]
  | cons i l ih =>
    intro V _ _ F g y0 b h0 hb
    by_cases hc : ∃ x, (∀ j ∈ l, 0 ≤ (F j).at x) ∧ 0 ≤ (F i).at x ∧ ∀ v, (∀ j ∈ l, 0 ≤ (F j).at v) → g.at x ≤ g.at v
    · obtain ⟨x, h1, h2, h3⟩ := hc
      refine ⟨x, ?_, fun v hv => h3 v (fun j hj => hv j (List.mem_cons_of_mem _ hj))⟩
      intro j hj
      rcases List.mem_cons.1 hj with rfl | hj
      · exact h2
      · exact h1 j hj
    · have face : ∀ y, (∀ j ∈ i :: l, 0 ≤ (F j).at y) → ∃ z, (∀ j ∈ l, 0 ≤ (F j).at z) ∧ (F i).at z = 0 ∧ g.at z ≤ g.at y := by
        intro y hy
        have hyl : ∀ j ∈ l, 0 ≤ (F j).at y := fun j hj => hy j (List.mem_cons_of_mem _ hj)
        have hyi : 0 ≤ (F i).at y := hy i List.mem_cons_self
        have : ∃ y', (∀ j ∈ l, 0 ≤ (F j).at y') ∧ (F i).at y' < 0 ∧ g.at y' ≤ g.at y := by
          by_cases hbd : ∃ b', ∀ v, (∀ j ∈ l, 0 ≤ (F j).at v) → b' ≤ g.at v
          · obtain ⟨b', hb'⟩ := hbd
            obtain ⟨x, h1, h2⟩ := ih V F g y b' hyl hb'
            refine ⟨x, h1, ?_, h2 y hyl⟩
            by_contra hn
            push Not at hn
            exact hc ⟨x, h1, hn, h2⟩
          · push Not at hbd
            obtain ⟨y', h1, h2⟩ := hbd (min b (g.at y))
            refine ⟨y', h1, ?_, (h2.trans_le (min_le_right _ _)).le⟩
            by_contra hn
            push Not at hn
            have := hb y' (by
              intro j hj
              rcases List.mem_cons.1 hj with rfl | hj
              · exact hn
              · exact h1 j hj)
            exact absurd (h2.trans_le (min_le_left _ _)) (not_lt.2 this)
        obtain ⟨y', h1, h2, h3⟩ := this
        have hd : 0 < (F i).at y - (F i).at y' := by linarith
        let s := (F i).at y / ((F i).at y - (F i).at y')
        have hs0 : 0 ≤ s := div_nonneg hyi hd.le
        have hs1 : 0 ≤ 1 - s := by
          have : s ≤ 1 := (div_le_iff₀ hd).2 (by linarith)
          linarith
        refine ⟨y + s • (y' - y), fun j hj => ?_, ?_, ?_⟩
        · rw [Aff.between]
          exact add_nonneg (mul_nonneg hs1 (hyl j hj)) (mul_nonneg hs0 (h1 j hj))
        · rw [Aff.between]
          have : s * ((F i).at y - (F i).at y') = (F i).at y := div_mul_cancel₀ _ hd.ne'
          linarith
        · rw [Aff.between]
          have := mul_le_mul_of_nonneg_left h3 hs0
          linarith
      obtain ⟨z0, hz0, hz1, _⟩ := face y0 h0
      let W := LinearMap.ker (F i).lin
      let res : Aff V → Aff W := fun f => ⟨f.lin.comp W.subtype, f.at z0⟩
      have hres : ∀ f (u : W), (res f).at u = f.at (z0 + u) := by
        intro f u
        rw [Aff.add]
        unfold Aff.at
        simp only [res, LinearMap.comp_apply, Submodule.subtype_apply]
        rw [add_comm]
        rfl
      have hWi : ∀ u : W, (F i).at (z0 + u) = 0 := by
        intro u
        rw [Aff.add, hz1, LinearMap.mem_ker.1 u.2, add_zero]
      obtain ⟨x, hx1, hx2⟩ := ih W (fun j => res (F j)) (res g) 0 b (by
          intro j hj
          rw [hres]
          simpa using hz0 j hj) (by
          intro u hu
          rw [hres]
          apply hb
          intro j hj
          rcases List.mem_cons.1 hj with rfl | hj
          · rw [hWi]
          · have := hu j hj
            rwa [hres] at this)
      refine ⟨z0 + x, fun j hj => ?_, fun v hv => ?_⟩
      · rcases List.mem_cons.1 hj with rfl | hj
        · rw [hWi]
        · have := hx1 j hj
          rwa [hres] at this
      · obtain ⟨z, h1, h2, h3⟩ := face v hv
        have hz : z - z0 ∈ W := by
          rw [LinearMap.mem_ker, map_sub]
          unfold Aff.at at h2 hz1
          linarith
        have := hx2 ⟨z - z0, hz⟩ (by
          intro j hj
          rw [hres]
          simpa using h1 j hj)
        rw [hres, hres] at this
        simp only [add_sub_cancel] at this
        exact this.trans h3

end Verif
