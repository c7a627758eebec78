import Verif.Spec.Equilibrium

/-!
# Specification: markets that differ in one call
-/

namespace Verif

/-- The markets `m` and `m'` are the result of the same calls except one: where `op` was called for `m`, `op'` was called for `m'`.
Both calls succeeded, and later calls are about other parts of the market definition (and not about the parts `keep`). -/
def OneCall (keep : List Part) (op op' : Op) (m m' : Market) : Prop :=
  ∃ (regions : List String) (units : List UnitInfo) (di : ℚ) (m0 : Market) (before after : List Op),
    Market.init regions units di = .ok m0 ∧
    Benign m0 (before ++ op :: after) ∧ Benign m0 (before ++ op' :: after) ∧
    ((m0.run before).step op).2 = none ∧ ((m0.run before).step op').2 = none ∧
    (∀ o ∈ after, ∀ p ∈ keep ++ op.parts ++ op'.parts, p ∉ o.parts) ∧
    m = m0.run (before ++ op :: after) ∧ m' = m0.run (before ++ op' :: after)

/-- A right hand side `b` is at least as easy to meet as `a`. -/
def CType.easier : CType → ℚ → ℚ → Prop
  | .le, a, b => a ≤ b
  | .ge, a, b => b ≤ a
  | _, a, b => a = b

/-- The same limits of the same units, some of them higher. -/
def limsLooser (ls ls' : List Lim) : Prop := List.Forall₂ (fun l l' => l' = { l with val := l'.val } ∧ l.val ≤ l'.val) ls ls'

/-- The second call sets the same constraints as the first with right hand sides that are as easy or easier to meet: higher limits of
units, lower requirements `≥`, higher limits `≤`. -/
def Op.looser : Op → Op → Prop
  | .capacity ls vc, .capacity ls' vc' => vc = vc' ∧ limsLooser ls ls'
  | .uigf ls vc, .uigf ls' vc' => vc = vc' ∧ limsLooser ls ls'
  | .fcasMaxAvail ls vc, .fcasMaxAvail ls' vc' => vc = vc' ∧ limsLooser ls ls'
  | .fcasReq rs vc, .fcasReq rs' vc' => vc = vc' ∧
      List.Forall₂ (fun r r' => r' = { r with volume := r'.volume } ∧ r.ctype.easier r.volume r'.volume) rs rs'
  | .generic gs vc, .generic gs' vc' => vc = vc' ∧
      List.Forall₂ (fun g g' => g' = { g with rhs := g'.rhs } ∧ g.ctype.easier g.rhs g'.rhs) gs gs'
  | _, _ => False

end Verif
