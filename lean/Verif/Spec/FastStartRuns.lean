import Verif.Spec.FastStartModes
import Verif.Model.XmlInputs

/-!
# Specification: fast start units in the second run

A market is dispatched first without fast start constraints; the profiles for the second run depend on that dispatch.
-/

namespace Verif.Units

/-- a row of `get_unit_fast_start_parameters`, whose modes are 0, 1, 2, 3 or 4 -/
def Profile.ofFile (r : Xml.FastRow) : Profile where
  unit := r.duid
  minLoading := r.minLoading
  mode := r.mode.toNat
  time := r.modeTime
  len1 := r.t1
  len2 := r.t2
  len3 := r.t3
  len4 := r.t4

/-- a row of `get_fast_start_profiles_for_dispatch` passed to `set_fast_start_constraints` -/
def ModeOut.toMarket (o : ModeOut) : FsInput where
  unit := o.profile.unit
  endMode := o.endMode
  time := o.endTime
  len2 := o.profile.len2
  len4 := o.profile.len4
  minLoading := o.profile.minLoading

/-- The energy dispatch `e` agrees with a profile that is in mode `m` for `t` minutes at the end of the interval: off in modes zero and
one, on the line from zero to minimum loading in mode two, not below minimum loading in mode three, and not below the line
from minimum loading to zero in mode four. -/
def Profile.agrees (p : Profile) (m : Nat) (t e : ℚ) : Prop :=
  match m with
  | 0 | 1 => e = 0
  | 2 => e = p.minLoading * (t / p.len2)
  | 3 => p.minLoading ≤ e
  | 4 => p.minLoading * (1 - t / p.len4) ≤ e
  | _ => True

end Verif.Units
