import Verif.Model.MmsDays

/-!
# Specification: market days and versions in the historical database
-/

namespace Verif.Mms

open Verif Verif.Xml

/-- The interval that ends at `t` is in the market day `d`, which goes from 04:00 of the day to 04:00 of the next day. -/
def InMarketDay (d : Date) (t : Time) : Prop :=
  1440 * d.ordinal + 240 < t.minutes ∧ t.minutes ≤ 1440 * (d.ordinal + 1) + 240

/-- `DISPATCHCONSTRAINT` says that this version of the constraint was used at the time. -/
def Used {τ κ β : Type} (dispatch : List (DispRow τ κ (τ × ℚ))) (t : τ) (r : ConRow τ κ β) : Prop :=
  ∃ d ∈ dispatch, d.time = t ∧ d.id = r.constraint ∧ d.data = (r.date, r.version)

instance {τ κ β : Type} [DecidableEq τ] [DecidableEq κ] (dispatch : List (DispRow τ κ (τ × ℚ))) (t : τ) (r : ConRow τ κ β) :
    Decidable (Used dispatch t r) := by
  unfold Used
  infer_instance

end Verif.Mms
