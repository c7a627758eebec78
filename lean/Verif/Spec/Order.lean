import Verif.Spec.Replace

/-!
# Specification: the order of calls
-/

namespace Verif

/-- The call is not `set_generic_constraints` with an empty table, after which no further call works. -/
def Op.keepsIds : Op → Bool
  | .generic g _ => !g.isEmpty
  | _ => true

/-- Two calls are independent: they are about different parts of the market definition, neither reads a part the other is
about, and neither stops all further calls. -/
def Op.independent (a b : Op) : Prop :=
  (∀ p ∈ a.parts, p ∉ b.parts ∧ p ∉ b.needs) ∧ (∀ p ∈ b.parts, p ∉ a.needs) ∧ a.keepsIds = true ∧ b.keepsIds = true

instance (a b : Op) : Decidable (a.independent b) := by unfold Op.independent; infer_instance

/-- Histories that differ in the order of independent calls: obtained from one another by exchanging neighbouring independent
calls any number of times. -/
inductive Reordered : List Op → List Op → Prop
  | refl (ops : List Op) : Reordered ops ops
  | exchange {a b : Op} (before after : List Op) (h : a.independent b) :
      Reordered (before ++ a :: b :: after) (before ++ b :: a :: after)
  | trans {l l' l'' : List Op} : Reordered l l' → Reordered l' l'' → Reordered l l''

/-- What the calls of a history raise, if anything. -/
def Market.outcomes (m : Market) : List Op → List (Op × Option Err)
  | [] => []
  | op :: ops => (op, (m.step op).2) :: Market.outcomes (m.step op).1 ops

end Verif
