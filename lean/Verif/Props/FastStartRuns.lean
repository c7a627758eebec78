import Verif.Spec.FastStartRuns
import Verif.Props.FastStartModes
import Verif.Props.FastStart
import Verif.Props.Outputs
import Verif.Props.XmlInputs

/-!
# Fast start units over two runs: C101

The fast start parameters of the file, the dispatch of a first run, the profiles for the second run and the dispatch of the second run.
-/

namespace Verif.Units

open Verif

/-- **C101** A market `m₁` has the solution `x₁`.  The profiles that `get_fast_start_profiles_for_dispatch` gives for its reported
dispatch are passed to `set_fast_start_constraints` of a market `m₂`, the same one after further calls or another one.  In every
feasible solution of `m₂` a fast start unit agrees with the mode that it reaches in five minutes when it follows its profile in the
file, where it starts mode one if it is off and has a positive dispatch in the first run. -/
theorem C101_second_run {ps : List Profile} (hm : ∀ p ∈ ps, p.mode ≤ 4) (h0 : ∀ p ∈ ps, p.mode = 0 → p.time = 0) {m₁ m₂ : Market}
    {x₁ x₂ : Nat → ℚ} {ds : List DispatchRow} (h1 : m₁.unitDispatch x₁ = .ok ds)
    (hf : InForce (.fastStart ((updateModes ps ds).map ModeOut.toMarket) none) m₂) {lp : Lp} (hl : m₂.assemble = .ok lp)
    (hx : Feasible lp x₂) {p : Profile} (hp : p ∈ ps) {d : DType} (hb1 : m₁.bidsFor p.unit .energy d) (hb : p.unit ∉ m₂.bidi)
    (hd : m₂.lists p.unit d) (hb2 : m₂.bidsFor p.unit .energy d) :
    ∃ m t, Follows p (p.start (m₁.dispatched x₁ p.unit .energy d)).1 (p.start (m₁.dispatched x₁ p.unit .energy d)).2 5 m t ∧
      p.agrees m t (m₂.dispatched x₂ p.unit .energy d) := by
  obtain ⟨-, hrows, hval⟩ := C29_unit_dispatch h1
  obtain ⟨row, hrow, e1, e2, e3⟩ := (hrows p.unit d .energy).2 hb1
  obtain ⟨out, hperm, hmem, hout⟩ := C56_follows_partial ps ds hm h0
  have hq : (p, row) ∈ mergeDispatch ps ds := (hmem _).2 ⟨hp, hrow, e3, e1⟩
  obtain ⟨o1, o2, -⟩ := hout _ hq
  have hdisp : row.dispatch = m₁.dispatched x₁ p.unit .energy d := by rw [hval row hrow, e1, e2, e3]
  dsimp only at o1 o2
  rw [hdisp] at o2
  refine ⟨_, _, o2, ?_⟩
  have hin : (out (p, row)).toMarket ∈ (updateModes ps ds).map ModeOut.toMarket :=
    List.mem_map.2 ⟨_, hperm.mem_iff.2 (List.mem_map.2 ⟨_, hq, rfl⟩), rfl⟩
  have hu : (out (p, row)).toMarket.unit = p.unit := by show (out (p, row)).profile.unit = _; rw [o1]
  obtain ⟨⟨a1, a2, a3, a4⟩, a5⟩ := C11_fast_start_profile hf hl hx hin (by rw [hu]; exact hb) (by rw [hu]; exact hd)
    (by rw [hu]; exact hb2)
  rw [hu] at a2 a3 a4 a5
  simp only [ModeOut.toMarket, o1] at a2 a3 a4 a5
  unfold Profile.agrees
  split <;> rename_i hmode
  · exact a5 (by omega)
  · exact a5 (by omega)
  · exact a2 hmode
  · exact a3 hmode
  · exact a4 hmode
  · trivial

/-- **C101** A unit that is off and is not dispatched in the first run is off in the second run. -/
theorem C101_stays_off {ps : List Profile} (hm : ∀ p ∈ ps, p.mode ≤ 4) (h0 : ∀ p ∈ ps, p.mode = 0 → p.time = 0) {m₁ m₂ : Market}
    {x₁ x₂ : Nat → ℚ} {ds : List DispatchRow} (h1 : m₁.unitDispatch x₁ = .ok ds)
    (hf : InForce (.fastStart ((updateModes ps ds).map ModeOut.toMarket) none) m₂) {lp : Lp} (hl : m₂.assemble = .ok lp)
    (hx : Feasible lp x₂) {p : Profile} (hp : p ∈ ps) {d : DType} (hb1 : m₁.bidsFor p.unit .energy d) (hb : p.unit ∉ m₂.bidi)
    (hd : m₂.lists p.unit d) (hb2 : m₂.bidsFor p.unit .energy d) (hoff : p.mode = 0)
    (hz : m₁.dispatched x₁ p.unit .energy d = 0) : m₂.dispatched x₂ p.unit .energy d = 0 := by
  obtain ⟨m, t, hfo, ha⟩ := C101_second_run hm h0 h1 hf hl hx hp hb1 hb hd hb2
  unfold Profile.start at hfo
  rw [if_neg (by rw [hz]; simp), hoff] at hfo
  obtain ⟨rfl, -⟩ := (C56_conserved _ _ _ _ _ _ hfo).2.2.1 rfl
  exact ha

/-- **C101** A unit that is off, is dispatched in the first run and needs five minutes or more to synchronise is off in the second
run. -/
theorem C101_synchronises {ps : List Profile} (hm : ∀ p ∈ ps, p.mode ≤ 4) (h0 : ∀ p ∈ ps, p.mode = 0 → p.time = 0) {m₁ m₂ : Market}
    {x₁ x₂ : Nat → ℚ} {ds : List DispatchRow} (h1 : m₁.unitDispatch x₁ = .ok ds)
    (hf : InForce (.fastStart ((updateModes ps ds).map ModeOut.toMarket) none) m₂) {lp : Lp} (hl : m₂.assemble = .ok lp)
    (hx : Feasible lp x₂) {p : Profile} (hp : p ∈ ps) {d : DType} (hb1 : m₁.bidsFor p.unit .energy d) (hb : p.unit ∉ m₂.bidi)
    (hd : m₂.lists p.unit d) (hb2 : m₂.bidsFor p.unit .energy d) (hoff : p.mode = 0) (h5 : 5 ≤ p.len1)
    (hpos : 0 < m₁.dispatched x₁ p.unit .energy d) : m₂.dispatched x₂ p.unit .energy d = 0 := by
  obtain ⟨m, t, hfo, ha⟩ := C101_second_run hm h0 h1 hf hl hx hp hb1 hb hd hb2
  unfold Profile.start at hfo
  rw [if_pos ⟨hoff, hpos⟩] at hfo
  have hst : Follows p 1 0 5 1 (0 + 5) := Follows.stay 1 0 5 (by decide) (by decide) (by simpa [Profile.length] using h5)
  obtain ⟨rfl, -⟩ := C56_unique _ _ _ _ _ _ _ _ hfo hst
  exact ha

/-- **C101** The profiles are those of the units of the file that have a current mode. -/
theorem C101_file {int : String → Option ℤ} {traders : List Xml.Trader} {rows : List Xml.FastRow}
    (h : Xml.fastStart int traders = .ok rows) :
    List.Forall₂ (fun t p => t.attrs.get? "@TraderID" = some p.unit ∧
      (∃ q : ℤ, Xml.IsNumber int t.attrs "@MinLoadingMW" q ∧ p.minLoading = (q : ℚ)) ∧
      (∃ q : ℤ, Xml.WhatIf int t.attrs "@CurrentMode" "@WhatIfCurrentMode" q ∧ p.mode = q.toNat) ∧
      (∃ q : ℤ, Xml.WhatIf int t.attrs "@CurrentModeTime" "@WhatIfCurrentModeTime" q ∧ p.time = (q : ℚ)) ∧
      (∃ q : ℤ, Xml.IsNumber int t.attrs "@T1" q ∧ p.length 1 = (q : ℚ)) ∧ (∃ q : ℤ, Xml.IsNumber int t.attrs "@T2" q ∧ p.length 2 = (q : ℚ)) ∧
      (∃ q : ℤ, Xml.IsNumber int t.attrs "@T3" q ∧ p.length 3 = (q : ℚ)) ∧ (∃ q : ℤ, Xml.IsNumber int t.attrs "@T4" q ∧ p.len4 = (q : ℚ)))
      (traders.filter fun t => decide (t.attrs.get? "@CurrentMode" ≠ none)) (rows.map Profile.ofFile) := by
  rw [List.forall₂_map_right_iff]
  refine (Xml.C80_fast_start int traders rows h).imp ?_
  rintro t r ⟨a1, a2, a3, a4, a5, a6, a7, a8⟩
  exact ⟨a1, ⟨_, a2, rfl⟩, ⟨_, a3, rfl⟩, ⟨_, a4, rfl⟩, ⟨_, a5, rfl⟩, ⟨_, a6, rfl⟩, ⟨_, a7, rfl⟩, ⟨_, a8, rfl⟩⟩

/-! Three fast start units: A is off and dispatched in the first run, B is in mode two, C is off and stays off; D is not a fast start
unit. -/

def twoProfiles : List Profile :=
  [⟨"A", 20, 0, 0, 5, 10, 5, 5⟩, ⟨"B", 20, 2, 3, 5, 10, 5, 5⟩, ⟨"C", 20, 0, 0, 5, 10, 5, 5⟩]

def twoHist : List Op :=
  [.volumeBids (["A", "B", "C", "D"].map (fun u => { unit := u, bands := [("1", 100)] })), .demand [{ region := "NSW", demand := 100 }] none]

def firstCase : Case where
  regions := ["NSW"]
  units := ["A", "B", "C", "D"].map (fun u => { unit := u, region := "NSW" })
  hist := twoHist
  sol := [40, 10, 0, 50]

def firstRows : List DispatchRow :=
  [⟨"A", .generator, .energy, 40⟩, ⟨"B", .generator, .energy, 10⟩, ⟨"C", .generator, .energy, 0⟩, ⟨"D", .generator, .energy, 50⟩]

def secondCase : Case where
  regions := ["NSW"]
  units := ["A", "B", "C", "D"].map (fun u => { unit := u, region := "NSW" })
  hist := twoHist ++ [.fastStart ((updateModes twoProfiles firstRows).map ModeOut.toMarket) none]
  sol := [0, 16, 0, 84]

example : ∃ (m₁ m₂ : Market) (lp : Lp), m₁.unitDispatch firstCase.x = .ok firstRows ∧
    InForce (.fastStart ((updateModes twoProfiles firstRows).map ModeOut.toMarket) none) m₂ ∧ m₂.assemble = .ok lp ∧
    Feasible lp secondCase.x ∧ (∀ p ∈ twoProfiles, m₁.bidsFor p.unit .energy .generator ∧ p.unit ∉ m₂.bidi ∧
      m₂.lists p.unit .generator ∧ m₂.bidsFor p.unit .energy .generator) ∧
    (∀ p ∈ twoProfiles, p.mode ≤ 4 ∧ (p.mode = 0 → p.time = 0)) ∧ m₁.dispatched firstCase.x "A" .energy .generator = 40 ∧
    m₁.dispatched firstCase.x "C" .energy .generator = 0 := by
  have hw1 : firstCase.ok (fun m => decide (m.unitDispatch firstCase.x = .ok firstRows ∧
      (∀ p ∈ twoProfiles, m.bidsFor p.unit .energy .generator) ∧ m.dispatched firstCase.x "A" .energy .generator = 40 ∧
      m.dispatched firstCase.x "C" .energy .generator = 0)) = true := by decide +kernel
  have hw2 : secondCase.ok (fun m => decide (∀ p ∈ twoProfiles, p.unit ∉ m.bidi ∧
      m.lists p.unit .generator ∧ m.bidsFor p.unit .energy .generator)) = true := by decide +kernel
  obtain ⟨m₁, lp₁, -, -, -, a⟩ := Case.witness hw1
  obtain ⟨m₂, lp₂, h0, h1, h2, b⟩ := Case.witness hw2
  obtain ⟨a1, a2, a3, a4⟩ := of_decide_eq_true a
  have b := of_decide_eq_true b
  exact ⟨m₁, m₂, lp₂, a1, Case.inForce (i := 2) (keep := []) h0 rfl (by decide +kernel), h1, h2,
    fun p hp => ⟨a2 p hp, b p hp⟩, by decide +kernel, a3, a4⟩

end Verif.Units
