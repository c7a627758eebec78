import Verif.Model.Backend

/-!
# Specification: piecewise linear interpolation
-/

namespace Verif

/-- The line through `(a, fa)` and `(b, fb)` at `t` (the value `fa` if the points coincide). -/
def lineAt (a fa b fb t : ℚ) : ℚ := if a = b then fa else fa + (fb - fa) / (b - a) * (t - a)

/-- `v` is the value at `t` of the piecewise linear interpolation of `fn` with break points `pts`: there are two
neighbouring break points around `t` and `v` is on the line between their function values. -/
def Interpolates (fn : ℚ → ℚ) (pts : List ℚ) (t v : ℚ) : Prop :=
  ∃ a ∈ pts, ∃ b ∈ pts, a ≤ t ∧ t ≤ b ∧ (∀ c ∈ pts, ¬ (a < c ∧ c < b)) ∧ v = lineAt a (fn a) b (fn b) t

/-- The break points of a link. -/
def pointsOf (bs : List BreakPt) (inter link : String) : List BreakPt :=
  bs.filter (fun b => decide (b.inter = inter ∧ b.link = link))

/-- Break points increase with their segment numbers. -/
def Increasing (bs : List BreakPt) : Prop := ∀ b ∈ bs, ∀ b' ∈ bs, b.seg < b'.seg → b.bp < b'.bp

/-- No gap between neighbouring points `a`, `b` is wider than the next two gaps together on either side. -/
def EvenlySpaced (pts : List ℚ) : Prop :=
  ∀ a ∈ pts, ∀ b ∈ pts, a < b → (∀ c ∈ pts, ¬ (a < c ∧ c < b)) →
    (∀ c ∈ pts, ∀ d ∈ pts, b < c → c < d → b - a ≤ d - b) ∧ (∀ c ∈ pts, ∀ d ∈ pts, d < c → c < a → b - a ≤ a - d)

end Verif
