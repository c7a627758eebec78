import Verif.Model.MmsDb

/-!
# Specification: the historical database
-/

namespace Verif.Mms

open Verif

/-- Number of months since the year zero -/
def monthIndex (p : ℕ × ℕ) : ℕ := 12 * p.1 + p.2

/-- a month of the calendar -/
def ValidMonth (p : ℕ × ℕ) : Prop := 1 ≤ p.2 ∧ p.2 ≤ 12

/-- `r` is in the file, is not of an intervention run, and no earlier such row of the file has its key. -/
def FirstInFile {τ κ β : Type} (file : List (FileRow τ κ β)) (r : DispRow τ κ β) : Prop :=
  ∃ before after i, file = before ++ ⟨i, r⟩ :: after ∧ (∀ v, i = some v → v = 0) ∧
    ∀ q ∈ before, (∀ v, q.intervention = some v → v = 0) → ¬(q.row.time = r.time ∧ q.row.id = r.id)

/-- `r` is in effect at `t`: its date is not after `t`, no row of its id in effect has a later date, and none with its date has
a higher version. -/
def InEffect {τ κ β : Type} [LinearOrder τ] [DecidableEq κ] (rows : List (EffRow τ κ β)) (t : τ) (r : EffRow τ κ β) : Prop :=
  r.date ≤ t ∧ ∀ s ∈ rows, s.id = r.id → s.date ≤ t → s.date < r.date ∨ (s.date = r.date ∧ s.version ≤ r.version)

instance {τ κ β : Type} [LinearOrder τ] [DecidableEq κ] (rows : List (EffRow τ κ β)) (t : τ) (r : EffRow τ κ β) :
    Decidable (InEffect rows t r) := by
  unfold InEffect
  infer_instance

/-- `r` is the last to start among the rows of its id that have started at `t`. -/
def LastStarted {τ κ β : Type} [LinearOrder τ] [DecidableEq κ] (rows : List (SpanRow τ κ β)) (t : τ) (r : SpanRow τ κ β) : Prop :=
  r.start ≤ t ∧ ∀ s ∈ rows, s.id = r.id → s.start ≤ t → s.start ≤ r.start

instance {τ κ β : Type} [LinearOrder τ] [DecidableEq κ] (rows : List (SpanRow τ κ β)) (t : τ) (r : SpanRow τ κ β) :
    Decidable (LastStarted rows t r) := by
  unfold LastStarted
  infer_instance

/-- the rows of a key in the first of the months (the newest) that has any -/
def newest {ρ κ : Type} [DecidableEq κ] (key : ρ → κ) (k : κ) : List (Option (List ρ)) → List ρ
  | [] => []
  | none :: ms => newest key k ms
  | some d :: ms =>
    if ∃ r ∈ d, key r = k then d.filter (fun r => decide (key r = k)) else newest key k ms

end Verif.Mms
