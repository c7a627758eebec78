import Verif.Proofs.XmlLoad

/-!
# NEMDE files: names, loading, download and search

* **C70** five minute intervals have a market day, a number from 1 to 288 and file names of their own.
* **C71** a loaded file is the file of the interval.
* **C72** the search for violations.
* **C78** after `populate` all published intervals of the months are in the cache.
-/

namespace Verif.Xml

open Verif

variable {ρ ξ : Type}

/-- 10:05 and 04:00 of 1 January 2019 -/
def demoTime : Time := ⟨⟨2019, 1, 1⟩, 605⟩
def demoEarly : Time := ⟨⟨2019, 1, 1⟩, 240⟩

/-! ### C70 -/

/-- **C70** The interval is in the market day that begins at 04:05 and is counted from there: the end of interval number n is
4 hours and 5 n minutes after midnight of the market day, n from 1 to 288. -/
theorem C70_number (t : Time) (h : t.Valid) :
    t.marketDay.Valid ∧ 1 ≤ t.intervalNumber ∧ t.intervalNumber ≤ 288 ∧
    t.minutes = 1440 * t.marketDay.ordinal + 240 + 5 * t.intervalNumber := by
  have h1 := marketDay_valid h
  have h2 := intervalNumber_eq h
  obtain ⟨-, -, h3, h4⟩ := h
  refine ⟨h1.1, ?_⟩
  unfold Time.minutes
  rcases Nat.lt_or_ge t.minute 245 with hlt | hge
  · have a := (h1.2.1 hlt).2
    have b := h2.1 hlt
    omega
  · have a := h1.2.2 hge
    have b := h2.2 hge
    rw [a]
    omega

example : demoTime.Valid ∧ demoTime.marketDay = ⟨2019, 1, 1⟩ ∧ demoTime.intervalNumber = 73 := by decide +kernel
example : demoEarly.Valid ∧ demoEarly.marketDay = ⟨2018, 12, 31⟩ ∧ demoEarly.intervalNumber = 288 := by decide +kernel

/-- **C70** Days are counted as in the calendar: the next valid date has the next number, no two valid dates have the same. -/
theorem C70_calendar (d : Date) (h : d.Valid) :
    d.next.Valid ∧ d.next.ordinal = d.ordinal + 1 ∧ ∀ e : Date, e.Valid → e.ordinal = d.ordinal → e = d :=
  ⟨(next_valid h).1, (next_valid h).2.1, fun _ he hh => ordinal_inj he h hh⟩

example : (⟨2020, 2, 28⟩ : Date).next = ⟨2020, 2, 29⟩ ∧ (⟨2019, 2, 28⟩ : Date).next = ⟨2019, 3, 1⟩ ∧
    (⟨2000, 2, 28⟩ : Date).next = ⟨2000, 2, 29⟩ ∧ (⟨1900, 2, 28⟩ : Date).next = ⟨1900, 3, 1⟩ ∧
    (⟨2019, 12, 31⟩ : Date).next = ⟨2020, 1, 1⟩ := by decide +kernel

/-- **C70** Every market day and number is that of an interval. -/
theorem C70_onto (d : Date) (n : ℕ) (hd : d.Valid) (hy : 2 ≤ d.year) (h1 : 1 ≤ n) (h2 : n ≤ 288) :
    ∃ t : Time, t.Valid ∧ t.marketDay = d ∧ t.intervalNumber = n := by
  by_cases h : 240 + 5 * n < 1440
  · have hv : (⟨d, 240 + 5 * n⟩ : Time).Valid := ⟨hd, hy, h, by dsimp only; omega⟩
    refine ⟨⟨d, 240 + 5 * n⟩, hv, (marketDay_valid hv).2.2 (by dsimp only; omega), ?_⟩
    rw [(intervalNumber_eq hv).2 (by dsimp only; omega)]
    dsimp only
    omega
  · obtain ⟨nv, no, np, ny⟩ := next_valid hd
    have hv : (⟨d.next, 240 + 5 * n - 1440⟩ : Time).Valid := ⟨nv, by dsimp only; omega, by dsimp only; omega, by dsimp only; omega⟩
    refine ⟨⟨d.next, 240 + 5 * n - 1440⟩, hv, ?_, ?_⟩
    · rw [((marketDay_valid hv).2.1 (by dsimp only; omega)).1]
      exact np
    · rw [(intervalNumber_eq hv).1 (by dsimp only; omega)]
      dsimp only
      omega

/-- **C70** No file name, plain or of a rerun, belongs to two intervals. -/
theorem C70_names (s t : Time) (hs : s.Valid) (ht : t.Valid) (name : Name) (h1 : name = s.plain ∨ name = s.ocd)
    (h2 : name = t.plain ∨ name = t.ocd) : s = t ∧ t.plain ≠ t.ocd :=
  ⟨name_inj hs ht h1 h2, plain_ne_ocd t t⟩

example : demoTime.plain = "NEMSPDOutputs_2019010107300.loaded".toList ∧
    demoEarly.ocd = "NEMSPDOutputs_2018123128800_OCD.loaded".toList := by decide +kernel

/-! ### C71 -/

/-- **C71** When `load_interval` returns, the interval is the one asked for and the data are what is in the file of the interval in
the folder, the plain one if there is one. -/
theorem C71_loaded (parse : ρ → Option ξ) (m m' : Manager ρ ξ) (t : Time) (net : Attempt ρ × Attempt ρ)
    (h : load parse m t net = (m', none)) :
    m'.interval = some t ∧ ∃ raw, Available m'.cache t raw ∧ m'.xml = parse raw ∧ m'.xml.isSome = true := by
  have hread : ∀ m1 : Manager ρ ξ, readFile parse m1 t = (m', none) →
      m'.interval = m1.interval ∧ ∃ raw, Available m'.cache t raw ∧ m'.xml = parse raw ∧ m'.xml.isSome = true := by
    intro m1 h
    unfold readFile at h
    cases hg : m1.cache.get? (fileName m1.cache t) with
    | none => rw [hg] at h; simp at h
    | some raw =>
      rw [hg] at h
      dsimp only at h
      cases hp : parse raw with
      | none => rw [hp] at h; simp at h
      | some x =>
        rw [hp] at h
        have hm : { m1 with xml := some x } = m' := congrArg Prod.fst h
        subst hm
        exact ⟨rfl, raw, fileName_available.1 hg, hp.symm, rfl⟩
  unfold load at h
  split at h
  · exact hread _ h
  · split at h
    · simp at h
    · split at h
      · exact hread _ h
      · simp at h

/-- Published files for the examples: the plain file of one interval, the rerun file of another, of the same market day -/
def demoFiles : List (Name × ℕ) := [(demoTime.plain, 7), ((⟨⟨2019, 1, 1⟩, 610⟩ : Time).ocd, 8), ((⟨⟨2019, 1, 2⟩, 0⟩ : Time).plain, 9)]

def demoManager : Manager ℕ ℕ := ⟨[], none, none⟩

example : (load some demoManager demoTime (.badZip, .files demoFiles)).2 = none ∧
    (load some demoManager demoTime (.badZip, .files demoFiles)).1.xml = some 7 ∧
    (load some demoManager ⟨⟨2019, 1, 1⟩, 610⟩ (.files demoFiles, .fails)).1.xml = some 8 := by decide +kernel

/-- **C71** `MissingDataError` is raised exactly when the file is not in the folder, and the download, which succeeded, has not put
it there. -/
theorem C71_missing (parse : ρ → Option ξ) (m : Manager ρ ξ) (t : Time) (net : Attempt ρ × Attempt ρ) :
    (load parse m t net).2 = some .missing ↔
      (∀ raw, ¬ Available m.cache t raw) ∧
      ∃ fs, (net.1 = .files fs ∨ (net.1 = .badZip ∧ net.2 = .files fs)) ∧ ∀ raw, ¬ Available (extract m.cache fs) t raw := by
  have hread : ∀ m1 : Manager ρ ξ, inCache m1.cache t = true → (readFile parse m1 t).2 ≠ some .missing := by
    intro m1 hin h
    obtain ⟨raw, hraw⟩ := inCache_iff.1 hin
    unfold readFile at h
    rw [fileName_available.2 hraw] at h
    dsimp only at h
    cases hp : parse raw <;> rw [hp] at h <;> simp at h
  have hdl : ∀ c, download m.cache net = .ok c ↔
      ∃ fs, (net.1 = .files fs ∨ (net.1 = .badZip ∧ net.2 = .files fs)) ∧ c = extract m.cache fs := by
    intro c
    unfold download
    rcases net with ⟨n1, n2⟩
    cases n1 <;> cases n2 <;> simp [eq_comm]
  unfold load
  by_cases hin : inCache m.cache t = true
  · rw [if_pos hin]
    constructor
    · intro h
      exact absurd h (hread _ hin)
    · rintro ⟨h, -⟩
      obtain ⟨raw, hraw⟩ := inCache_iff.1 hin
      exact absurd hraw (h raw)
  · rw [if_neg hin]
    have hno : ∀ raw, ¬ Available m.cache t raw := fun raw hr => hin (inCache_iff.2 ⟨raw, hr⟩)
    cases hd : download m.cache net with
    | error e =>
      dsimp only
      constructor
      · intro h
        exfalso
        have he : e = .missing := Option.some.inj h
        subst he
        unfold download at hd
        rcases net with ⟨n1, n2⟩
        cases n1 <;> cases n2 <;> simp at hd
      · rintro ⟨-, fs, hfs, -⟩
        have := (hdl _).2 ⟨fs, hfs, rfl⟩
        rw [hd] at this
        simp at this
    | ok c =>
      dsimp only
      obtain ⟨fs, hfs, rfl⟩ := (hdl c).1 hd
      by_cases hin' : inCache (extract m.cache fs) t = true
      · rw [if_pos hin']
        constructor
        · intro h
          exact absurd h (hread { m with cache := _, interval := some t } hin')
        · rintro ⟨-, fs', hfs', hno'⟩
          have he := (hdl _).2 ⟨fs', hfs', rfl⟩
          rw [hd] at he
          have he := Except.ok.inj he
          obtain ⟨raw, hraw⟩ := inCache_iff.1 hin'
          rw [he] at hraw
          exact absurd hraw (hno' raw)
      · rw [if_neg hin']
        exact ⟨fun _ => ⟨hno, fs, hfs, fun raw hr => hin' (inCache_iff.2 ⟨raw, hr⟩)⟩, fun _ => rfl⟩

example : (load some demoManager ⟨⟨2019, 1, 1⟩, 300⟩ (.files demoFiles, .fails)).2 = some .missing := by decide +kernel

/-- **C71** An interval in the folder is loaded without the network: nothing is downloaded. -/
theorem C71_offline (parse : ρ → Option ξ) (m : Manager ρ ξ) (t : Time) (net net' : Attempt ρ × Attempt ρ) (raw : ρ)
    (h : Available m.cache t raw) :
    load parse m t net = load parse m t net' ∧ (load parse m t net).1.cache = m.cache ∧
    ((load parse m t net).2 = none ↔ (parse raw).isSome = true) := by
  unfold load
  rw [if_pos (inCache_iff.2 ⟨raw, h⟩), if_pos (inCache_iff.2 ⟨raw, h⟩)]
  refine ⟨rfl, ?_⟩
  unfold readFile
  rw [show (fileName _ t) = fileName m.cache t from rfl, fileName_available.2 h]
  dsimp only
  cases parse raw <;> simp

example : (load some ⟨demoFiles, none, none⟩ demoTime (.fails, .fails)).2 = none := by decide +kernel

/-- **C71** Files of other intervals, in the folder or downloaded, have no effect on what is loaded. -/
theorem C71_own_file (parse : ρ → Option ξ) (m m' : Manager ρ ξ) (t s : Time) (net : Attempt ρ × Attempt ρ) (raw : ρ)
    (ht : t.Valid) (hs : s.Valid) (hne : s ≠ t) (name : Name) (hn : name = s.plain ∨ name = s.ocd)
    (h : load parse m t net = (m', none)) :
    ∃ r, m'.xml = parse r ∧ Available (m'.cache.set name raw) t r ∧ Available m'.cache t r := by
  obtain ⟨-, r, hr, hx, -⟩ := C71_loaded parse m m' t net h
  refine ⟨r, hx, ?_, hr⟩
  have h1 : name ≠ t.plain := fun e => hne (name_inj hs ht hn (Or.inl e))
  have h2 : name ≠ t.ocd := fun e => hne (name_inj hs ht hn (Or.inr e))
  unfold Available at hr ⊢
  rw [Dict.get?_set_ne _ _ h1, Dict.get?_set_ne _ _ h2]
  exact hr

/-- **C71** does not hold for calls that raise: after a call that raises the object has the new interval, with the data of the
interval before. -/
theorem C71_stale_negation : ∃ (m : Manager ℕ ℕ) (t : Time) (net : Attempt ℕ × Attempt ℕ),
    t.Valid ∧ m.interval = some demoTime ∧ m.xml = some 7 ∧ t ≠ demoTime ∧
    (load some m t net).2 = some .missing ∧ (load some m t net).1.interval = some t ∧ (load some m t net).1.xml = some 7 :=
  ⟨(load some demoManager demoTime (.files demoFiles, .fails)).1, ⟨⟨2019, 1, 1⟩, 300⟩, (.files demoFiles, .fails), by decide +kernel⟩

/-! ### Archive for the examples -/

/-- An archive with the one day of the examples -/
def demoArchive : Archive ℕ where
  files d := if d = ⟨2019, 1, 1⟩ then demoFiles else []
  nodup d := by
    split
    · decide +kernel
    · exact List.nodup_nil
  named d f h := by
    split at h
    · rename_i hd
      subst hd
      simp only [demoFiles, List.mem_cons, List.not_mem_nil, or_false] at h
      rcases h with rfl | rfl | rfl
      · exact ⟨demoTime, by decide +kernel, by decide +kernel, Or.inl rfl⟩
      · exact ⟨⟨⟨2019, 1, 1⟩, 610⟩, by decide +kernel, by decide +kernel, Or.inr rfl⟩
      · exact ⟨⟨⟨2019, 1, 2⟩, 0⟩, by decide +kernel, by decide +kernel, Or.inl rfl⟩
    · simp at h
  single d t a b h1 h2 := by
    split at h1
    · rename_i hd
      rw [if_pos hd] at h2
      simp only [demoFiles, List.mem_cons, List.not_mem_nil, or_false, Prod.mk.injEq] at h1 h2
      rcases h2 with ⟨h2, -⟩ | ⟨h2, -⟩ | ⟨h2, -⟩
      · exact plain_ne_ocd _ _ h2.symm
      · have e : t.stem = (⟨⟨2019, 1, 1⟩, 610⟩ : Time).stem := List.append_cancel_right h2
        rcases h1 with ⟨h1, -⟩ | ⟨h1, -⟩ | ⟨h1, -⟩
        · have e' : t.stem = demoTime.stem := List.append_cancel_right h1
          rw [e] at e'
          exact absurd e' (by decide +kernel)
        · exact plain_ne_ocd _ _ h1
        · have e' : t.stem = (⟨⟨2019, 1, 2⟩, 0⟩ : Time).stem := List.append_cancel_right h1
          rw [e] at e'
          exact absurd e' (by decide +kernel)
      · exact plain_ne_ocd _ _ h2.symm
    · simp at h1

def demoNet (t : Time) : Attempt ℕ × Attempt ℕ := (.badZip, .files (demoArchive.files t.marketDay))

example : demoArchive.Serves demoNet ∧ demoArchive.Cached (demoManager).cache :=
  ⟨fun _ => Or.inr ⟨rfl, rfl⟩, fun _ _ h => by simp [demoManager, Dict.get?] at h, fun _ _ _ h => by simp [demoManager, Dict.has, Dict.get?] at h⟩

theorem monthEnd_eq {y m : ℕ} (h : 1 ≤ m ∧ m ≤ 12) : monthEnd y m = nextMonth y m := by
  obtain ⟨h1, h2⟩ := h
  unfold monthEnd nextMonth
  split
  · rename_i e; subst e; rfl
  · have e1 : m / 12 = 0 := by omega
    have e2 : m % 12 = m := by omega
    rw [e1, e2]; rfl

/-! ### C72 -/

/-- **C72** The search returns at most `limit` intervals, in order of time; all are in the range and published, with exactly the
types of their violations, at least one; and an interval in the range with a violation is missed only if the limit was reached
with earlier ones. -/
theorem C72_search (a : Archive ρ) (net : Time → Attempt ρ × Attempt ρ) (parse : ρ → Option ξ) (m : Manager ρ ξ)
    (violations : ξ → List (String × ℚ)) (limit startYear startMonth endYear endMonth : ℕ)
    (hy : 2 ≤ startYear) (hm : 1 ≤ startMonth ∧ startMonth ≤ 12) (he : 1 ≤ endMonth ∧ endMonth ≤ 12)
    (hs : a.Serves net) (hc : a.Cached m.cache) (hp : ∀ raw, (parse raw).isSome = true) :
    ∃ m' L, findViolations parse violations net limit startYear startMonth endYear endMonth m = (m', .ok L) ∧
      L.length ≤ limit ∧ (L.Pairwise fun p q => p.1.minutes < q.1.minutes) ∧
      (∀ p ∈ L, p.1.Valid ∧ (⟨⟨startYear, startMonth, 1⟩, 0⟩ : Time).minutes ≤ p.1.minutes ∧
        p.1.minutes ≤ (⟨nextMonth endYear endMonth, 0⟩ : Time).minutes ∧ p.2 ≠ [] ∧
        ∃ raw x, a.Has p.1 raw ∧ parse raw = some x ∧ ∀ v, v ∈ p.2 ↔ ∃ q, (v, q) ∈ violations x ∧ 0 < q) ∧
      ∀ s raw x v q, s.Valid → (⟨⟨startYear, startMonth, 1⟩, 0⟩ : Time).minutes ≤ s.minutes →
        s.minutes ≤ (⟨nextMonth endYear endMonth, 0⟩ : Time).minutes → a.Has s raw → parse raw = some x →
        (v, q) ∈ violations x → 0 < q →
        (∃ names, (s, names) ∈ L) ∨ (L.length = limit ∧ ∀ p ∈ L, p.1.minutes < s.minutes) := by
  rw [← monthEnd_eq he]
  have hv : (⟨⟨startYear, startMonth, 1⟩, 0⟩ : Time).Valid := by
    refine ⟨⟨by dsimp only; omega, hm.1, hm.2, le_refl _, ?_⟩, hy, show 0 < 1440 by decide, show 0 % 5 = 0 by decide⟩
    have := daysInMonth_pos startYear startMonth hm.1 hm.2
    dsimp only
    omega
  obtain ⟨m', L, r1, r2, r3, r4, r5⟩ :=
    findLoop_spec hs hp violations limit ⟨monthEnd endYear endMonth, 0⟩ _ _ m [] hc hv rfl (Nat.zero_le _)
  simp only [List.nil_append, List.length_nil, Nat.zero_add] at r1 r2 r5
  exact ⟨m', L, r1, r2, r3, r4, r5⟩

/-- The violations of the examples: the number in the file -/
def demoViolations (n : ℕ) : List (String × ℚ) := [("regional_demand", (n : ℚ) - 7), ("ramp_rate", (n : ℚ) - 8)]

example : (match (findLoop some demoViolations demoNet 5 ⟨⟨2019, 1, 1⟩, 620⟩ 4 demoTime demoManager []).2 with
    | .ok L => decide (L = [(⟨⟨2019, 1, 1⟩, 610⟩, ["regional_demand"])])
    | .error _ => false) = true := by decide +kernel

/-- **C72** Other exceptions of the download end the search: one bad archive in the range is enough. -/
theorem C72_bad_archive_negation : ∃ (net : Time → Attempt ℕ × Attempt ℕ),
    (∀ t : Time, t.marketDay ≠ ⟨2018, 12, 31⟩ → net t = demoNet t) ∧
    (findViolations some demoViolations net 5 2019 1 2019 1 demoManager).2 = .error .badZip := by
  refine ⟨fun t => if t.marketDay = ⟨2018, 12, 31⟩ then (.badZip, .badZip) else demoNet t, fun t h => if_neg h, ?_⟩
  unfold findViolations
  dsimp only
  rw [show (((⟨monthEnd 2019 1, 0⟩ : Time).minutes - (⟨⟨2019, 1, 1⟩, 0⟩ : Time).minutes) / 5 + 1).toNat = 8928 + 1 by decide +kernel]
  rw [findLoop]
  rfl

/-! ### C78 -/

/-- **C78** After `populate` returned, every published interval from the beginning of the first month to 04:00 of the day after the
last month is loaded without the network, with its own file. -/
theorem C78_populated (a : Archive ρ) (net : Time → Attempt ρ × Attempt ρ) (parse : ρ → Option ξ) (m m' : Manager ρ ξ)
    (startYear startMonth endYear endMonth : ℕ)
    (hy : 3 ≤ startYear) (hm : 1 ≤ startMonth ∧ startMonth ≤ 12) (he : 1 ≤ endMonth ∧ endMonth ≤ 12)
    (hs : a.Serves net) (hc : a.Cached m.cache) (hp : ∀ raw, (parse raw).isSome = true)
    (h : populate parse net startYear startMonth endYear endMonth m = (m', none))
    (t : Time) (raw : ρ) (ht : t.Valid)
    (h1 : (⟨⟨startYear, startMonth, 1⟩, 0⟩ : Time).minutes ≤ t.minutes)
    (h2 : t.minutes ≤ (⟨nextMonth endYear endMonth, 240⟩ : Time).minutes) (hr : a.Has t raw) (net' : Attempt ρ × Attempt ρ) :
    (load parse m' t net').2 = none ∧ (load parse m' t net').1.xml = parse raw ∧ (load parse m' t net').1.cache = m'.cache := by
  rw [← monthEnd_eq he] at h2
  have hv : (⟨startYear, startMonth, 1⟩ : Date).Valid := by
    refine ⟨by dsimp only; omega, hm.1, hm.2, le_refl _, ?_⟩
    have := daysInMonth_pos startYear startMonth hm.1 hm.2
    dsimp only
    omega
  obtain ⟨pv, po, pn⟩ := prev_valid hv (by dsimp only; omega)
  have py : 2 ≤ (⟨startYear, startMonth, 1⟩ : Date).prev.year := by
    unfold Date.prev
    rw [if_neg (show ¬ 1 < 1 by decide)]
    split <;> dsimp only <;> omega
  obtain ⟨c1, c2, c3⟩ := loadDays_spec hs hp _ _ m m' hc pv py h
  have key : ∀ g ∈ a.files t.marketDay, m'.cache.get? g.1 = some g.2 := by
    have hn := C70_number t ht
    refine c3 t.marketDay hn.1 ?_ ?_
    · unfold Time.minutes at h1 hn
      simp only at h1 hn
      omega
    · unfold Time.minutes at h1 h2 hn
      simp only at h1 h2 hn
      omega
  have hav := Archive.available_of c1 ht hr key
  obtain ⟨x, hx⟩ := Option.isSome_iff_exists.1 (hp raw)
  unfold load
  rw [if_pos (inCache_iff.2 ⟨raw, hav⟩), readFile_of (m := { m' with interval := some t }) hav hx]
  exact ⟨rfl, hx.symm, rfl⟩

/-- An archive with the files of midnight and of 04:00 of every day -/
def dailyArchive : Archive ℕ where
  files d := if d.Valid ∧ 2 ≤ d.year then [((⟨d.next, 0⟩ : Time).plain, 1), ((⟨d.next, 240⟩ : Time).ocd, 2)] else []
  nodup d := by
    split
    · rw [List.map_cons, List.map_cons, List.map_nil, List.nodup_cons]
      refine ⟨fun h => ?_, List.nodup_singleton _⟩
      rw [List.mem_singleton] at h
      exact plain_ne_ocd _ _ h
    · exact List.nodup_nil
  named d f h := by
    split at h
    · rename_i hd
      obtain ⟨n1, -, n3, n4⟩ := next_valid hd.1
      simp only [List.mem_cons, List.not_mem_nil, or_false] at h
      rcases h with rfl | rfl
      · exact ⟨⟨d.next, 0⟩, ⟨n1, by dsimp only; omega, show 0 < 1440 by decide, rfl⟩, n3, Or.inl rfl⟩
      · exact ⟨⟨d.next, 240⟩, ⟨n1, by dsimp only; omega, show 240 < 1440 by decide, show 240 % 5 = 0 by decide⟩, n3, Or.inr rfl⟩
    · simp at h
  single d t a b h1 h2 := by
    split at h1
    · rename_i hd
      rw [if_pos hd] at h2
      obtain ⟨n1, -, n3, n4⟩ := next_valid hd.1
      simp only [List.mem_cons, List.not_mem_nil, or_false, Prod.mk.injEq] at h1 h2
      rcases h1 with ⟨h1, -⟩ | ⟨h1, -⟩
      · rcases h2 with ⟨h2, -⟩ | ⟨h2, -⟩
        · exact plain_ne_ocd _ _ h2.symm
        · have e1 : t.stem = (⟨d.next, 0⟩ : Time).stem := List.append_cancel_right h1
          have e2 : t.stem = (⟨d.next, 240⟩ : Time).stem := List.append_cancel_right h2
          have := stem_inj (s := ⟨d.next, 0⟩) (t := ⟨d.next, 240⟩) ⟨n1, by dsimp only; omega, show 0 < 1440 by decide, rfl⟩
            ⟨n1, by dsimp only; omega, show 240 < 1440 by decide, show 240 % 5 = 0 by decide⟩ (e1.symm.trans e2)
          exact absurd (congrArg Time.minute this) (show ¬ 0 = 240 by decide)
      · exact plain_ne_ocd _ _ h1
    · simp at h1

def dailyNet (t : Time) : Attempt ℕ × Attempt ℕ := (.files (dailyArchive.files t.marketDay), .fails)

example : dailyArchive.Serves dailyNet := fun _ => Or.inl rfl

/-- the hypotheses of `C78_populated` are met: February 2020, the interval 04:00 of 1 March -/
example : (populate some dailyNet 2020 2 2020 2 demoManager).2 = none := by decide +kernel
example : dailyArchive.Has ⟨⟨2020, 3, 1⟩, 240⟩ 2 := Or.inr (by decide +kernel)

/-- **C78** does not hold for a folder from which files were removed: a day of which the midnight file is there is not downloaded
again. -/
theorem C78_gap_negation : ∃ (m : Manager ℕ ℕ) (t : Time),
    t.Valid ∧ (∃ raw, demoArchive.Has t raw) ∧
    (loadDays some demoNet 1 ⟨2019, 1, 2⟩ m).2 = none ∧ (load some (loadDays some demoNet 1 ⟨2019, 1, 2⟩ m).1 t (.fails, .fails)).2 = some .other :=
  ⟨⟨[((⟨⟨2019, 1, 2⟩, 0⟩ : Time).plain, 9)], none, none⟩, demoTime, by decide +kernel, ⟨7, Or.inl (by decide +kernel)⟩, by decide +kernel⟩

end Verif.Xml
