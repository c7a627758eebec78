import Verif.Spec.Regional

/-!
# Specification: the whole system
-/

namespace Verif

/-- Net output of all units: dispatched energy of generators less that of loads. -/
def Market.totalSupply (m : Market) (x : Nat → ℚ) : ℚ :=
  (m.units.map (fun u => (if u.dtype = .load then -1 else 1) * m.dispatched x u.unit .energy u.dtype)).sum

/-- What links take out of the system: the losses of those with a loss function, and the difference of their loss factors times the
flow. -/
def Market.totalLoss (m : Market) (x : Nat → ℚ) (fs : List LossFn) : ℚ :=
  ((m.dirs.getD []).map (fun d => (d.fromLf - d.toLf) * m.flow x d.inter d.link +
    ((fs.filter (fun f => decide (f.inter = d.inter ∧ f.link = d.link))).map (fun _ => m.linkLoss x d.inter d.link)).sum)).sum

end Verif
