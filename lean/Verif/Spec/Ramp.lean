import Verif.Model.Backend

/-!
# Specification: ramping

The limits a user expects from ramp rates, in MW, MW/h and hours.
-/

namespace Verif

/-- the SCADA rate given for a unit, if there is one -/
def scadaRate (sc : Option (List Scada)) (f : Scada → Option ℚ) (u : String) : Option ℚ :=
  ((sc.getD []).find? (fun s => decide (s.unit = u))).bind f

/-- the smaller of the bid rate and the SCADA rate -/
def tighter (bid : ℚ) : Option ℚ → ℚ
  | none => bid
  | some v => if v ≤ bid then v else bid

/-- Net output reached after `t` hours of ramping up from `init`: below zero the unit moves at the rate
at which consumption can be reduced, from zero on at the rate at which generation can be raised. -/
def reachUp (init t genUp loadDown : ℚ) : ℚ :=
  if 0 ≤ init then init + genUp * t
  else if init + loadDown * t ≤ 0 then init + loadDown * t
  else genUp * (t - (-init) / loadDown)

/-- Net output reached after `t` hours of ramping down from `init`: above zero the unit moves at the rate
at which generation can be reduced, from zero on at the rate at which consumption can be raised. -/
def reachDown (init t genDown loadUp : ℚ) : ℚ :=
  if init ≤ 0 then init - loadUp * t
  else if 0 ≤ init - genDown * t then init - genDown * t
  else - (loadUp * (t - init / genDown))

/-- Upper limit on the energy dispatch of a unit, `none` if it has none.  Without fast start profiles it
is the initial output plus the ramp over the interval of `di` minutes.  In the first run units that
start in mode 0, 1 or 2 have no limit.  In the second run units that end in mode 0, 1 or 2 have no limit,
and a unit that left mode 2 `s` minutes ago can have ramped for `s` minutes from its minimum loading. -/
def upLimit (rt : RunType) (ps : List FsRamp) (di init up : ℚ) (u : String) : Option ℚ :=
  match rt, ps.find? (fun p => decide (p.unit = u)) with
  | .noFastStart, _ => some (init + up * (di / 60))
  | .other, _ => none
  | _, none => some (init + up * (di / 60))
  | .first, some p => if p.curMode ≤ 2 then none else some (init + up * (di / 60))
  | .second, some p =>
    if p.endMode ≤ 2 then none
    else match p.since with
      | none => some (init + up * (di / 60))
      | some s => some (p.minLoading + up * (s / 60))

/-- Lower limit on the energy dispatch of a unit, `none` if it has none. -/
def downLimit (rt : RunType) (ps : List FsRamp) (di init down : ℚ) (u : String) : Option ℚ :=
  match rt, ps.find? (fun p => decide (p.unit = u)) with
  | .noFastStart, _ => some (init - down * (di / 60))
  | .other, _ => none
  | _, none => some (init - down * (di / 60))
  | .first, some p => if p.curMode ≤ 2 then none else some (init - down * (di / 60))
  | .second, some p => if p.endMode ≤ 2 then none else some (init - down * (di / 60))

end Verif
