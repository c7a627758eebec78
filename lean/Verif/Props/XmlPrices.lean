import Verif.Props.XmlInputs
import Verif.Props.XmlCache
import Verif.Spec.XmlPrices

/-!
# Prices in the NEMDE files and the rerun flag

* **C83** violation prices and types of constraints.
* **C84** prices of the services.
* **C85** the flag of an over constrained dispatch rerun.
-/

namespace Verif.Xml

open Verif

/-! ### C83 -/

theorem priceNames_eq : priceNames = violationPriceAttributes := by decide +kernel

/-- **C83** Each kind of constraint has the violation price in its attribute of the case. -/
theorem C83_violation_prices (float : String → Option ℚ) (case : Attrs) (vs : List (String × ℚ)) :
    violationPrices float case = .ok vs ↔
      List.Forall₂ (fun n e => e.1 = n.1 ∧ HasNumber float case n.2 e.2) violationPriceAttributes vs := by
  unfold violationPrices
  rw [mapM_ok, priceNames_eq]
  have key : ∀ n e, violationPrice float case n = .ok e ↔ e.1 = n.1 ∧ HasNumber float case n.2 e.2 := by
    rintro n ⟨a, q⟩
    unfold violationPrice HasNumber
    simp only [bind_ok, attr_ok, number_ok, pure_ok, Prod.mk.injEq]
    constructor
    · rintro ⟨v, hv, q', hq, h1, h2⟩
      exact ⟨h1.symm, v, hv, by rw [hq, h2]⟩
    · rintro ⟨h1, v, hv, hq⟩
      exact ⟨v, hv, q, hq, h1.symm, rfl⟩
  simp only [key]

/-- **C83** There is one row for each constraint of the file, with its type and violation price. -/
theorem C83_types (float : String → Option ℚ) (cs : List GenericConstraint) (rows : List TypeRow) :
    constraintTypes float cs = .ok rows ↔
      List.Forall₂ (fun c r => c.attrs.get? "@ConstraintID" = some r.set ∧ c.attrs.get? "@Type" = some r.type ∧
        HasNumber float c.attrs "@ViolationPrice" r.cost) cs rows := by
  unfold constraintTypes
  rw [mapM_ok]
  have key : ∀ c r, typeRow float c = .ok r ↔ c.attrs.get? "@ConstraintID" = some r.set ∧ c.attrs.get? "@Type" = some r.type ∧
      HasNumber float c.attrs "@ViolationPrice" r.cost := by
    rintro c ⟨a, b, q⟩
    unfold typeRow HasNumber
    simp only [bind_ok, attr_ok, number_ok, pure_ok, TypeRow.mk.injEq]
    constructor
    · rintro ⟨s, hs, t, ht, v, hv, q', hq, rfl, rfl, rfl⟩
      exact ⟨hs, ht, v, hv, hq⟩
    · rintro ⟨hs, ht, v, hv, hq⟩
      exact ⟨a, hs, b, ht, v, hv, q, hq, rfl, rfl, rfl⟩
  simp only [key]

/-- a case for the example: every price is 5, but the value of lost load is 7 -/
def demoCase : Attrs := violationPriceAttributes.map fun n => (n.2, if n.1 = "voll" then "7" else "5")

def demoNumber (s : String) : Option ℚ := if s = "7" then some 7 else if s = "5" then some 5 else none

example : ∃ vs, violationPrices demoNumber demoCase = .ok vs ∧ vs.length = 17 ∧ ("voll", 7) ∈ vs ∧ ("tiebreak", 5) ∈ vs :=
  ⟨violationPriceAttributes.map fun n => (n.1, if n.1 = "voll" then 7 else 5), by decide +kernel, by decide +kernel,
    by decide +kernel, by decide +kernel⟩

def demoTyped (id type price : String) : GenericConstraint :=
  ⟨[("@ConstraintID", id), ("@Type", type), ("@ViolationPrice", price)], none, none, none⟩

example : constraintTypes demoNumber [demoTyped "A" "LE" "5", demoTyped "B" "EQ" "7"] =
    .ok [⟨"A", "LE", 5⟩, ⟨"B", "EQ", 7⟩] := by decide +kernel

/-! ### C84 -/

theorem servicePrice_ok {region : Attrs} {n : String × String} {rows : List PriceRow} (h : servicePrice region n = .ok rows)
    (r : PriceRow) : r ∈ rows ↔
      region.get? n.1 = some r.price ∧ region.get? "@RegionID" = some r.region ∧ r.service = n.2 := by
  unfold servicePrice at h
  cases hg : region.get? n.1 with
  | none =>
    rw [hg] at h
    injection h with h
    subst h
    simp
  | some p =>
    rw [hg] at h
    simp only [bind_ok, attr_ok, pure_ok] at h
    obtain ⟨reg, hreg, rfl⟩ := h
    rw [List.mem_singleton]
    constructor
    · rintro rfl
      exact ⟨rfl, hreg, rfl⟩
    · obtain ⟨a, b, c⟩ := r
      rintro ⟨h1, h2, h3⟩
      rw [hreg] at h2
      injection h1 with h1
      injection h2 with h2
      simp only at h1 h2 h3
      rw [h1, h2, h3]

theorem forall₂_mem_flatten {α β : Type} {P : α → List β → Prop} {l : List α} {m : List (List β)} (h : List.Forall₂ P l m) (b : β)
    {Q : α → Prop} (hQ : ∀ a x, P a x → (b ∈ x ↔ Q a)) : b ∈ m.flatten ↔ ∃ a ∈ l, Q a := by
  induction h with
  | nil => simp
  | cons hab _ ih =>
    rw [List.flatten_cons, List.mem_append, ih, hQ _ _ hab]
    simp

theorem readPrices_iff (n : String × String) : n ∈ serviceTypeMap ↔ (n.2, n.1) ∈ readPriceAttributes := by
  have h1 : ∀ n ∈ serviceTypeMap, (n.2, n.1) ∈ readPriceAttributes := by decide +kernel
  have h2 : ∀ e ∈ readPriceAttributes, (e.2, e.1) ∈ serviceTypeMap := by decide +kernel
  exact ⟨h1 n, fun h => h2 _ h⟩

/-- **C84, the part that holds** The prices are those in the attributes that are read, of all elements `RegionSolution`.  Missing:
lower 5 minute prices and prices as numbers, and the elements of intervention runs are not left out. -/
theorem C84_prices_partial (regions : List Attrs) (rows : List PriceRow) (h : servicePrices regions = .ok rows) (r : PriceRow) :
    r ∈ rows ↔ ∃ element ∈ regions, element.get? "@RegionID" = some r.region ∧
      ∃ name, (r.service, name) ∈ readPriceAttributes ∧ element.get? name = some r.price := by
  unfold servicePrices at h
  rw [bind_ok] at h
  obtain ⟨l, hl, h⟩ := h
  rw [pure_ok] at h
  subst h
  refine forall₂_mem_flatten (mapM_ok.1 hl) r ?_
  intro a x hx
  unfold regionPrices at hx
  rw [bind_ok] at hx
  obtain ⟨l', hl', hx⟩ := hx
  rw [pure_ok] at hx
  subst hx
  rw [forall₂_mem_flatten (mapM_ok.1 hl') r (fun n y hy => servicePrice_ok hy r)]
  constructor
  · rintro ⟨n, hn, h1, h2, h3⟩
    exact ⟨h2, n.1, by rw [h3]; exact (readPrices_iff n).1 hn, h1⟩
  · rintro ⟨h2, name, hn, h1⟩
    exact ⟨(name, r.service), (readPrices_iff _).2 hn, h1, h2, rfl⟩

/-- **C84** A file whose regions all have a name is read without an error. -/
theorem C84_no_error (regions : List Attrs) (h : ∀ e ∈ regions, ∃ r, e.get? "@RegionID" = some r) :
    ∃ rows, servicePrices regions = .ok rows := by
  have build : ∀ {α β : Type} {f : α → Except XErr β} (l : List α), (∀ a ∈ l, ∃ b, f a = .ok b) → ∃ m, l.mapM f = .ok m := by
    intro α β f l hl
    induction l with
    | nil => exact ⟨[], rfl⟩
    | cons a l ih =>
      obtain ⟨b, hb⟩ := hl a List.mem_cons_self
      obtain ⟨m, hm⟩ := ih fun x hx => hl x (List.mem_cons_of_mem _ hx)
      exact ⟨b :: m, mapM_ok.2 (.cons hb (mapM_ok.1 hm))⟩
  obtain ⟨m, hm⟩ := build (f := regionPrices) regions (by
    intro e he
    obtain ⟨r, hr⟩ := h e he
    obtain ⟨m, hm⟩ := build (f := servicePrice e) serviceTypeMap (by
      intro n _
      unfold servicePrice
      cases e.get? n.1 with
      | none => exact ⟨_, rfl⟩
      | some p => exact ⟨_, bind_ok.2 ⟨r, attr_ok.2 hr, rfl⟩⟩)
    exact ⟨_, bind_ok.2 ⟨m, hm, rfl⟩⟩)
  exact ⟨_, bind_ok.2 ⟨m, hm, rfl⟩⟩

example : servicePrices [[("@RegionID", "NSW1"), ("@EnergyPrice", "53.99"), ("@L6Price", "1")], [("@RegionID", "SA1"), ("@R1Price", "2")]] =
    .ok [⟨"NSW1", "ENERGY", "53.99"⟩, ⟨"NSW1", "LOWER6SEC", "1"⟩, ⟨"SA1", "RAISE1SEC", "2"⟩] := by decide +kernel

/-- **C84 fails** The lower 5 minute price, in the attribute named like those of the other services, is not reported. -/
theorem C84_lower_5min_negation : ∃ (regions : List Attrs) (rows : List PriceRow) (e : Attrs) (p : String),
    servicePrices regions = .ok rows ∧ e ∈ regions ∧ e.get? "@R5Price" = some p ∧ e.get? "@L5Price" = some p ∧
    (∃ r ∈ rows, r.service = "RAISE5MIN") ∧ ∀ r ∈ rows, r.service ≠ "LOWER5MIN" :=
  ⟨[[("@RegionID", "NSW1"), ("@R5Price", "0.25"), ("@L5Price", "0.25")]], [⟨"NSW1", "RAISE5MIN", "0.25"⟩],
    [("@RegionID", "NSW1"), ("@R5Price", "0.25"), ("@L5Price", "0.25")], "0.25", by decide +kernel, by decide +kernel,
    by decide +kernel, by decide +kernel, by decide +kernel, by decide +kernel⟩

/-- **C84 fails** In an interval with intervention a region has two energy prices. -/
theorem C84_intervention_negation : ∃ (regions : List Attrs) (rows : List PriceRow), servicePrices regions = .ok rows ∧
    (regions.map (fun e => (e.get? "@RegionID", e.get? "@Intervention"))).Nodup ∧
    ¬(rows.map (fun r => (r.region, r.service))).Nodup :=
  ⟨[[("@RegionID", "NSW1"), ("@Intervention", "0"), ("@EnergyPrice", "50")],
    [("@RegionID", "NSW1"), ("@Intervention", "1"), ("@EnergyPrice", "300")]],
    [⟨"NSW1", "ENERGY", "50"⟩, ⟨"NSW1", "ENERGY", "300"⟩], by decide +kernel, by decide +kernel, by decide +kernel⟩

/-! ### C85 -/

theorem plain_no_C (t : Time) : 'C' ∉ t.plain := by
  have hd : ∀ n, 'C' ∉ Nat.toDigits 10 n := by
    intro n h
    have := Nat.isDigit_of_mem_toDigits (by decide) (by decide) h
    exact absurd this (by decide)
  have hz : ∀ w n, 'C' ∉ zfill w n := by
    intro w n h
    unfold zfill at h
    rw [List.mem_append] at h
    rcases h with h | h
    · exact absurd (List.eq_of_mem_replicate h) (by decide)
    · exact hd n h
  unfold Time.plain Time.stem
  simp only [List.mem_append, not_or]
  exact ⟨⟨⟨by decide, hd _, hz _ _, hz _ _, hz _ _⟩, by decide⟩, by decide⟩

theorem isRerun_iff {ρ : Type} (cache : Dict Name ρ) (t : Time) : isRerun cache t = true ↔ cache.get? t.plain = none := by
  unfold isRerun fileName
  rw [decide_eq_true_iff]
  have hb : cache.has t.plain = (cache.get? t.plain).isSome := rfl
  rw [hb]
  cases hg : cache.get? t.plain with
  | none =>
    simp only [Option.isSome_none, Bool.false_eq_true, if_false, iff_true]
    exact ⟨t.stem ++ ['_'], ".loaded".toList, by unfold Time.ocd; simp⟩
  | some v =>
    simp only [Option.isSome_some, if_true, reduceCtorEq, iff_false]
    intro h
    exact plain_no_C t (h.subset (by decide))

/-- **C85** After an interval has been loaded the flag is set exactly when the data are those of the file of a rerun. -/
theorem C85_rerun {ρ ξ : Type} (parse : ρ → Option ξ) (m m' : Manager ρ ξ) (t : Time) (net : Attempt ρ × Attempt ρ)
    (h : load parse m t net = (m', none)) :
    (isRerun m'.cache t = true → ∃ raw, m'.cache.get? t.ocd = some raw ∧ m'.cache.get? t.plain = none ∧ m'.xml = parse raw) ∧
    (isRerun m'.cache t = false → ∃ raw, m'.cache.get? t.plain = some raw ∧ m'.xml = parse raw) := by
  obtain ⟨-, raw, ha, hx, -⟩ := C71_loaded parse m m' t net h
  constructor
  · intro hr
    have hn := (isRerun_iff _ _).1 hr
    rcases ha with ha | ⟨-, ha⟩
    · rw [hn] at ha
      simp at ha
    · exact ⟨raw, ha, hn, hx⟩
  · intro hr
    rcases ha with ha | ⟨hn, -⟩
    · exact ⟨raw, ha, hx⟩
    · rw [(isRerun_iff _ _).2 hn] at hr
      simp at hr

/-- **C85** Before anything of the interval is in the folder the flag is set as well. -/
theorem C85_not_loaded {ρ : Type} (cache : Dict Name ρ) (t : Time) (h : cache.get? t.plain = none) : isRerun cache t = true :=
  (isRerun_iff _ _).2 h

example : ∃ m' : Manager ℕ ℕ, load some demoManager demoTime (.files demoFiles, .fails) = (m', none) ∧
    isRerun m'.cache demoTime = false := ⟨_, rfl, by decide +kernel⟩
example : ∃ m' : Manager ℕ ℕ, load some demoManager ⟨⟨2019, 1, 1⟩, 610⟩ (.files demoFiles, .fails) = (m', none) ∧
    isRerun m'.cache ⟨⟨2019, 1, 1⟩, 610⟩ = true := ⟨_, rfl, by decide +kernel⟩

end Verif.Xml
