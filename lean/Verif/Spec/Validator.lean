import Verif.Model.Validator

/-! # Specification: well formed tables -/

namespace Verif.Validator

/-- The column names are unique and every column has as many cells as the frame has rows. -/
def Frame.Regular (f : Frame) : Prop :=
  (f.cols.map (·.1)).Nodup ∧ ∀ c ∈ f.cols, c.2.cells.length = f.size

/-- A cell is a finite number, text or object, not infinite and not missing. -/
def Cell.Real (c : Cell) : Prop := c ≠ .posInf ∧ c ≠ .negInf ∧ c ≠ .nan ∧ c ≠ .none

/-- A cell is a negative number. -/
def Cell.Negative : Cell → Prop
  | .num q => q < 0
  | .negInf => True
  | _ => False

/-- The column has the type, values and numbers its schema demands. -/
structure ColumnOk (c : SeriesSchema) (s : Series) : Prop where
  kind : match c.kind with
    | .str => ∀ x ∈ s.cells, ∃ t, x = .str t
    | .callable => ∀ x ∈ s.cells, ∃ t, x = .fn t
    | .dtype d => s.dtype = d
  allowed : ∀ vs, c.allowed = some vs → ∀ x ∈ s.cells, x ∈ vs
  real : c.real = true → ∀ x ∈ s.cells, x.Real
  notNeg : c.notNeg = true → ∀ x ∈ s.cells, ¬ x.Negative

/-- The table is well formed for the schema. -/
structure WellFormed (s : Schema) (f : Frame) : Prop where
  known : ∀ c ∈ f.cols, ∃ d ∈ s.columns, d.1 = c.1
  required : ∀ n ∈ s.required, ∃ c ∈ f.cols, c.1 = n
  columns : ∀ d ∈ s.columns, ∀ c ∈ f.cols, c.1 = d.1 → ColumnOk d.2 c.2
  keys : ∀ ks, s.keys = some ks → ∀ i j, i < f.size → j < f.size →
    (∀ k ∈ ks, ∀ c ∈ f.cols, c.1 = k → c.2.cells[i]? = c.2.cells[j]?) → i = j

/-- The prices of every row do not decrease from one band column to the next. -/
def NonDecreasing (bands : List String) (f : Frame) : Prop :=
  ∀ i < f.size, ((bands.filterMap f.col?).filterMap (fun s => s.cells[i]?)).Pairwise
    (fun a b => ∀ p q, a = .num p → b = .num q → p ≤ q)

end Verif.Validator
