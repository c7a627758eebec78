import Verif.Model.XmlCache

/-!
# Specification: calendar and cache of NEMDE files
-/

namespace Verif.Xml

open Verif

/-- A date of the calendar -/
def Date.Valid (d : Date) : Prop :=
  1 ≤ d.year ∧ 1 ≤ d.month ∧ d.month ≤ 12 ∧ 1 ≤ d.day ∧ d.day ≤ daysInMonth d.year d.month

/-- The end of a five minute interval, after the first year of the calendar -/
def Time.Valid (t : Time) : Prop := t.date.Valid ∧ 2 ≤ t.date.year ∧ t.minute < 1440 ∧ t.minute % 5 = 0

instance (d : Date) : Decidable d.Valid := by unfold Date.Valid; infer_instance
instance (t : Time) : Decidable t.Valid := by unfold Time.Valid; infer_instance

/-- The first day of the month after a month -/
def nextMonth (year month : ℕ) : Date := ⟨year + month / 12, month % 12 + 1, 1⟩

/-- The file published for an interval: the plain one, or else the one of an over constrained dispatch rerun -/
def Available {ρ : Type} (cache : Dict Name ρ) (t : Time) (raw : ρ) : Prop :=
  cache.get? t.plain = some raw ∨ (cache.get? t.plain = none ∧ cache.get? t.ocd = some raw)

/-- Published files by market day: file names are not repeated, each is the name of an interval of the day, and no interval has
both files. -/
structure Archive (ρ : Type) where
  files : Date → List (Name × ρ)
  nodup : ∀ d, ((files d).map Prod.fst).Nodup
  named : ∀ d f, f ∈ files d → ∃ t : Time, t.Valid ∧ t.marketDay = d ∧ (f.1 = t.plain ∨ f.1 = t.ocd)
  single : ∀ d (t : Time) a b, (t.plain, a) ∈ files d → (t.ocd, b) ∉ files d

/-- The file of an interval in the archive -/
def Archive.Has {ρ : Type} (a : Archive ρ) (t : Time) (raw : ρ) : Prop :=
  (t.plain, raw) ∈ a.files t.marketDay ∨ (t.ocd, raw) ∈ a.files t.marketDay

/-- the network gives the files of the market day of the interval, at the first or at the second attempt -/
def Archive.Serves {ρ : Type} (a : Archive ρ) (net : Time → Attempt ρ × Attempt ρ) : Prop :=
  ∀ t, (net t).1 = .files (a.files t.marketDay) ∨ ((net t).1 = .badZip ∧ (net t).2 = .files (a.files t.marketDay))

/-- the cache has files of the archive, and of each market day all or none. -/
def Archive.Cached {ρ : Type} (a : Archive ρ) (cache : Dict Name ρ) : Prop :=
  (∀ name raw, cache.get? name = some raw → ∃ d, (name, raw) ∈ a.files d) ∧
  ∀ d f, f ∈ a.files d → cache.has f.1 = true → ∀ g ∈ a.files d, cache.get? g.1 = some g.2

end Verif.Xml
