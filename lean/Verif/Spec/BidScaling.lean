import Verif.Model.Units

/-!
# Specification: scaling and enabling of FCAS bids

The trapezium of a bid has the corners (emin, 0), (lbp, maxAvail), (hbp, maxAvail) and (emax, 0).  The left side goes
over the energy `lbp - emin`, the right side over `emax - hbp`.
-/

namespace Verif.Units

/-- only the trapezium of a bid has changed -/
def SameBid (b b' : VolBid) : Prop :=
  b'.duid = b.duid ∧ b'.service = b.service ∧ b'.dir = b.dir ∧ b'.bands = b.bands ∧ b'.rampUp = b.rampUp ∧
    b'.rampDown = b.rampDown

/-- The AGC limit `lo` replaces the lower enablement limit if it is given, higher and positive, the left side moves with
it. -/
def AgcLow (lo : Option ℚ) (b b' : VolBid) : Prop :=
  (∀ l, lo = some l → b.emin < l → 0 < l → b'.emin = l) ∧
  ((∀ l, lo = some l → ¬(b.emin < l ∧ 0 < l)) → b'.emin = b.emin) ∧
  b'.lbp - b'.emin = b.lbp - b.emin

/-- The AGC limit `hi` replaces the upper enablement limit if it is given, lower and positive, the right side moves with
it. -/
def AgcHigh (hi : Option ℚ) (b b' : VolBid) : Prop :=
  (∀ u, hi = some u → u < b.emax → 0 < u → b'.emax = u) ∧
  ((∀ u, hi = some u → ¬(u < b.emax ∧ 0 < u)) → b'.emax = b.emax) ∧
  b'.emax - b'.hbp = b.emax - b.hbp

def AgcScaled (lo hi : Option ℚ) (b b' : VolBid) : Prop :=
  SameBid b b' ∧ b'.maxAvail = b.maxAvail ∧ AgcLow lo b b' ∧ AgcHigh hi b b'

/-- The limits of the row `l` for the service of a bid. -/
def AgcLimits.low (l : AgcLimits) : Service → Option ℚ
  | .raiseReg => l.raiseMin
  | .lowerReg => l.lowerMin
  | _ => none

def AgcLimits.high (l : AgcLimits) : Service → Option ℚ
  | .raiseReg => l.raiseMax
  | .lowerReg => l.lowerMax
  | _ => none

/-- The telemetered ramp rate in MW/h in the direction of a regulation service -/
def InitCond.rate (c : InitCond) : Service → Option ℚ
  | .raiseReg => c.rampUp
  | .lowerReg => c.rampDown
  | _ => none

/-- A rate that is missing or zero or that allows the offered availability in five minutes leaves the bid as it is.
Otherwise the availability is what the rate allows and both sides keep their slopes. -/
def RampScaled (rate : Option ℚ) (b b' : VolBid) : Prop :=
  ((∀ r, rate = some r → r = 0 ∨ b.maxAvail ≤ r * (5 / 60)) → b' = b) ∧
  ∀ r, rate = some r → r ≠ 0 → r * (5 / 60) < b.maxAvail →
    SameBid b b' ∧ b'.emin = b.emin ∧ b'.emax = b.emax ∧ b'.maxAvail = r * (5 / 60) ∧
    b'.maxAvail * (b.lbp - b.emin) = b.maxAvail * (b'.lbp - b'.emin) ∧
    b'.maxAvail * (b.emax - b.hbp) = b.maxAvail * (b'.emax - b'.hbp)

/-- enablement `q` is inside the trapezium at the energy level `e` -/
def VolBid.allows (b : VolBid) (e q : ℚ) : Prop :=
  0 ≤ q ∧ q ≤ b.maxAvail ∧
  b.emin + q / b.maxAvail * (b.lbp - b.emin) ≤ e ∧ e ≤ b.emax - q / b.maxAvail * (b.emax - b.hbp)

/-- The upper enablement limit is at most the forecast and the right side moves with it. -/
def UigfScaled (u : ℚ) (b b' : VolBid) : Prop :=
  SameBid b b' ∧ b'.maxAvail = b.maxAvail ∧ b'.emin = b.emin ∧ b'.lbp = b.lbp ∧
  b'.emax = min b.emax u ∧ b'.emax - b'.hbp = b.emax - b.hbp

/-! ### Enabling conditions -/

/-- all capacities given for a unit and direction meet a condition; there is at most one -/
def CapsMeet (caps : List CapLimit) (duid : String) (dir : Option DType) (P : ℚ → Prop) : Prop :=
  ∀ c ∈ caps, c.unit = duid → c.dtype = dir → P c.capacity

/-- A bid has availability, a band with volume, and its lower enablement limit is not above the energy capacity if one
is given. -/
def Offered (caps : List CapLimit) (b : VolBid) : Prop :=
  b.service ≠ .energy ∧ 0 < b.maxAvail ∧ (∃ v ∈ b.bands, 0 < v) ∧ CapsMeet caps b.duid b.dir (fun c => b.emin ≤ c)

/-- `o` is the bid for the same unit and service in the direction `d` -/
def Counterpart (caps : List CapLimit) (b : VolBid) (d : DType) (o : VolBid) : Prop :=
  Offered caps o ∧ o.duid = b.duid ∧ o.service = b.service ∧ o.dir = some d

/-- The enabling conditions for units that only generate or only consume: `mw` is the initial output -/
def EnabledOneWay (b : VolBid) (mw : ℚ) : Prop :=
  0 ≤ b.emax ∧ b.emin ≤ round5 (max mw 0) ∧ round5 (max mw 0) ≤ b.emax

/-- The conditions for bidirectional units, where negative outputs are consumption.  The limits for regulation run from
the lower limit of the load side to the upper limit of the generation side. -/
def EnabledTwoWay (bs : List VolBid) (caps : List CapLimit) (b : VolBid) (mw : ℚ) : Prop :=
  (b.dir = some .generator ∧ 0 ≤ b.emax ∧ round5 mw ≤ b.emax ∧
    (isReg b.service = false → b.emin ≤ round5 mw ∧ CapsMeet caps b.duid (some .load) (fun c => -c ≤ b.emax)) ∧
    (isReg b.service = true → (∀ o ∈ bs, Counterpart caps b .load o → o.emin ≤ round5 mw) ∧
      ((∀ o ∈ bs, ¬Counterpart caps b .load o) → b.emin ≤ round5 mw))) ∨
  (b.dir = some .load ∧ b.emin ≤ 0 ∧ b.emin ≤ round5 mw ∧
    (isReg b.service = false → round5 mw ≤ b.emax) ∧
    (isReg b.service = true → CapsMeet caps b.duid (some .load) (fun c => -c ≤ b.emax) ∧
      (∀ o ∈ bs, Counterpart caps b .generator o → round5 mw ≤ o.emax) ∧
      ((∀ o ∈ bs, ¬Counterpart caps b .generator o) → round5 mw ≤ b.emax)))

/-- All conditions on an FCAS bid -/
def Enabled (bs : List VolBid) (cs : List InitCond) (caps : List CapLimit) (b : VolBid) : Prop :=
  Offered caps b ∧ ∃ c ∈ cs, c.duid = b.duid ∧ (isReg b.service = true → c.agc ≠ some 0) ∧
    ∃ mw, c.initMw = some mw ∧
      ((c.traderType ≠ "BIDIRECTIONAL" ∧ EnabledOneWay b mw) ∨
       (c.traderType = "BIDIRECTIONAL" ∧ EnabledTwoWay bs caps b mw))

/-- identification of bids -/
def VolBid.key (b : VolBid) : String × Service × Option DType := (b.duid, b.service, b.dir)
def PriceBid.key (p : PriceBid) : String × Service × Option DType := (p.duid, p.service, some p.dir)
def CapLimit.key (c : CapLimit) : String × Option DType := (c.unit, c.dtype)

end Verif.Units
