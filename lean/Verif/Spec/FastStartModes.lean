import Verif.Model.Units

/-!
# Specification: following a fast start profile

A unit that is committed runs through mode one, two and three, staying in each for its length, and then is in mode four.
`Follows p m t d m' t'` says that a unit with profile `p` that has been in mode `m` for `t` minutes is in mode `m'` for
`t'` minutes after `d` more minutes.
-/

namespace Verif.Units

/-- the length of modes one to three -/
def Profile.length (p : Profile) : Nat → ℚ
  | 1 => p.len1
  | 2 => p.len2
  | 3 => p.len3
  | _ => 0

inductive Follows (p : Profile) : Nat → ℚ → ℚ → Nat → ℚ → Prop
  /-- a unit that is off stays off -/
  | off (t d : ℚ) : Follows p 0 t d 0 0
  /-- there is enough time left in the mode -/
  | stay (m : Nat) (t d : ℚ) : 1 ≤ m → m ≤ 3 → t + d ≤ p.length m → Follows p m t d m (t + d)
  /-- the mode ends, the minutes after its end are spent from the start of the next mode -/
  | next (m : Nat) (t d : ℚ) (m' : Nat) (t' : ℚ) : 1 ≤ m → m ≤ 3 → p.length m < t + d →
      Follows p (m + 1) 0 (t + d - p.length m) m' t' → Follows p m t d m' t'
  /-- mode four does not end, its time is counted up to its length -/
  | last (t d : ℚ) : Follows p 4 t d 4 (min (t + d) p.len4)

/-- The mode and the time in it that a unit starts the interval with: a unit that is off and has a positive dispatch
starts mode one now. -/
def Profile.start (p : Profile) (dispatch : ℚ) : Nat × ℚ :=
  if p.mode = 0 ∧ 0 < dispatch then (1, 0) else (p.mode, p.time)

/-- total length of the modes `from, …, to - 1` -/
def Profile.span (p : Profile) (m : Nat) : Nat → ℚ
  | 0 => 0
  | n + 1 => if m ≤ n then p.span m n + p.length n else 0

end Verif.Units
