import Verif.Model.Market

/-!
# Specification: fast start inflexibility profiles

Which energy dispatch `e` a profile allows at the end of the interval.  In modes 0 and 1 the unit is off,
in mode 2 it is on the straight line from 0 to minimum loading, in mode 3 it is at minimum loading or
above, in mode 4 it is on or above the straight line from minimum loading back to 0.
-/

namespace Verif

def FsInput.allows (p : FsInput) (e : ℚ) : Prop :=
  (p.endMode = 0 ∨ p.endMode = 1 → e ≤ 0) ∧
  (p.endMode = 2 → e = p.minLoading * (p.time / p.len2)) ∧
  (p.endMode = 3 → p.minLoading ≤ e) ∧
  (p.endMode = 4 → p.minLoading * (1 - p.time / p.len4) ≤ e)

end Verif
