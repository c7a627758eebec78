import Verif.Model.MmsPopulate
import Verif.Spec.MmsDb

/-!
# Specification: the whole historical database
-/

namespace Verif.Mms

open Verif

variable {τ κ β γ : Type}

/-- the two databases have the same tables of the manager -/
structure SameTables (db db' : Db τ κ β γ) : Prop where
  dispatch : ∀ t ∈ dispatchTables, db.dispatch t = db'.dispatch t
  month : ∀ t ∈ monthTables.map Prod.fst, db.month t = db'.month t
  history : ∀ t ∈ historyTables.map Prod.fst, db.history t = db'.history t

/-- the two databases have the same tables apart from those of the manager -/
structure SameOthers (db db' : Db τ κ β γ) : Prop where
  dispatch : ∀ t, t ∉ dispatchTables → db.dispatch t = db'.dispatch t
  month : ∀ t, t ∉ monthTables.map Prod.fst → db.month t = db'.month t
  history : ∀ t, t ∉ historyTables.map Prod.fst → db.history t = db'.history t

/-- The archive has a file of the table (with columns `columns`) for the month that has all its columns and one more, and `row` is one
of its rows, cut down to the columns of the table. -/
def InMonth (a : Archive τ κ β γ) (table : String) (columns : List String) (m : ℕ × ℕ) (row : List (String × γ)) : Prop :=
  ∃ f, a.file table m = some f ∧ (∀ c ∈ columns, c ∈ f.columns) ∧ (∃ c ∈ f.columns, c ∉ columns) ∧
    ∃ r ∈ f.rows, row = columns.map (fun c => (c, r c))

/-- the rows have the same values in the columns `keys` -/
def SameKey (keys : List String) (row row' : List (String × γ)) : Prop :=
  row.filter (fun p => decide (p.1 ∈ keys)) = row'.filter (fun p => decide (p.1 ∈ keys))

end Verif.Mms
