import Verif.Model.Core
import Mathlib.Algebra.Order.Field.Rat

/-!
# The cache of NEMDE files, `historical_inputs/xml_cache.py`

Times are dates of the calendar of Python's `datetime` with a minute of the day: `%Y/%m/%d %H:%M:%S` with seconds 00.  File
names are lists of characters.  The content of a file is a value of a type `ρ` and parsing it (`xmltodict`, line 95) a partial
function to a type `ξ`.  What the network does is an argument of each call.
-/

namespace Verif.Xml

open Verif

/-! ### Calendar -/

/-- A date of `datetime` -/
structure Date where
  year : ℕ
  month : ℕ
  day : ℕ
  deriving DecidableEq, Repr

/-- leap years of `datetime` -/
def isLeap (y : ℕ) : Bool := decide (y % 4 = 0 ∧ (y % 100 ≠ 0 ∨ y % 400 = 0))

/-- days of a month of `datetime` -/
def daysInMonth (y m : ℕ) : ℕ :=
  match m with
  | 1 => 31
  | 2 => if isLeap y then 29 else 28
  | 3 => 31
  | 4 => 30
  | 5 => 31
  | 6 => 30
  | 7 => 31
  | 8 => 31
  | 9 => 30
  | 10 => 31
  | 11 => 30
  | 12 => 31
  | _ => 0

/-- days of the year before a month -/
def daysBeforeMonth (y m : ℕ) : ℕ := ((List.range' 1 (m - 1)).map (daysInMonth y)).sum

/-- `toordinal` of `datetime` -/
def Date.ordinal (d : Date) : ℤ :=
  365 * ((d.year : ℤ) - 1) + ((d.year : ℤ) - 1) / 4 - ((d.year : ℤ) - 1) / 100 + ((d.year : ℤ) - 1) / 400 +
    daysBeforeMonth d.year d.month + d.day

/-- `+ timedelta(days=1)` -/
def Date.next (d : Date) : Date :=
  if d.day < daysInMonth d.year d.month then { d with day := d.day + 1 }
  else if d.month < 12 then ⟨d.year, d.month + 1, 1⟩ else ⟨d.year + 1, 1, 1⟩

/-- `- timedelta(days=1)`, from the second day of the year 1 on -/
def Date.prev (d : Date) : Date :=
  if 1 < d.day then { d with day := d.day - 1 }
  else if 1 < d.month then ⟨d.year, d.month - 1, daysInMonth d.year (d.month - 1)⟩ else ⟨d.year - 1, 12, 31⟩

/-- A date and time of `datetime`, to the minute -/
structure Time where
  date : Date
  minute : ℕ
  deriving DecidableEq, Repr

/-- minutes since the start of the calendar, for differences of `datetime` -/
def Time.minutes (t : Time) : ℤ := 1440 * t.date.ordinal + t.minute

/-- `+ timedelta(minutes=5)` -/
def Time.next (t : Time) : Time :=
  if t.minute + 5 < 1440 then { t with minute := t.minute + 5 } else ⟨t.date.next, t.minute + 5 - 1440⟩

/-! ### File names -/

/-- `xml_cache.py:175-188` (`_get_market_year_month_day`): before 04:05 the market day is the day before -/
def Time.marketDay (t : Time) : Date := if t.minute < 245 then t.date.prev else t.date

/-- `xml_cache.py:200-206` (`_get_interval_number`) -/
def Time.intervalNumber (t : Time) : ℕ := ((t.minutes - (⟨t.marketDay, 245⟩ : Time).minutes) / 5).toNat + 1

/-- `str(n).zfill(w)` -/
def zfill (w n : ℕ) : List Char := List.replicate (w - (Nat.toDigits 10 n).length) '0' ++ Nat.toDigits 10 n

/-- a file name -/
abbrev Name := List Char

/-- `xml_cache.py:147-149`: the part of the name with the interval -/
def Time.stem (t : Time) : Name :=
  "NEMSPDOutputs_".toList ++
    (Nat.toDigits 10 t.marketDay.year ++ (zfill 2 t.marketDay.month ++ (zfill 2 t.marketDay.day ++ zfill 3 t.intervalNumber))) ++
    "00".toList

/-- `xml_cache.py:149-150` -/
def Time.plain (t : Time) : Name := t.stem ++ ".loaded".toList

/-- `xml_cache.py:152` -/
def Time.ocd (t : Time) : Name := t.stem ++ "_OCD.loaded".toList

/-! ### Cache -/

/-- Exceptions -/
inductive XErr
  /-- `MissingDataError`, line 90 -/
  | missing
  /-- `zipfile.BadZipFile` at the second attempt, line 172 -/
  | badZip
  /-- any other exception of the download, lines 166-173, or `KeyError` of the data -/
  | other
  /-- exceptions of `xmltodict.parse`, line 95 -/
  | parse
  deriving DecidableEq, Repr

/-- What an attempt to download the file of a day gives -/
inductive Attempt (ρ : Type)
  | files (fs : List (Name × ρ))
  | badZip
  | fails
  deriving Repr

/-- An `XMLCacheManager` and the folder of the cache -/
structure Manager (ρ ξ : Type) where
  cache : Dict Name ρ
  interval : Option Time
  xml : Option ξ

section
variable {ρ ξ : Type}

/-- `xml_cache.py:135-159` (`get_file_name`): the second branch (line 156) is always taken, a path is never false. -/
def fileName (cache : Dict Name ρ) (t : Time) : Name := if cache.has t.plain then t.plain else t.ocd

/-- `xml_cache.py:97-114` (`interval_inputs_in_cache`) -/
def inCache (cache : Dict Name ρ) (t : Time) : Bool := cache.has (fileName cache t)

/-- `extractall` -/
def extract (cache : Dict Name ρ) (fs : List (Name × ρ)) : Dict Name ρ := fs.foldl (fun c f => c.set f.1 f.2) cache

/-- `xml_cache.py:161-173` (`_download_xml_from_nemweb`): a second attempt after a bad file.  An attempt that fails leaves the
cache as it was. -/
def download (cache : Dict Name ρ) (net : Attempt ρ × Attempt ρ) : Except XErr (Dict Name ρ) :=
  match net.1 with
  | .files fs => .ok (extract cache fs)
  | .fails => .error .other
  | .badZip =>
    match net.2 with
    | .files fs => .ok (extract cache fs)
    | .fails => .error .other
    | .badZip => .error .badZip

/-- `xml_cache.py:93-95` -/
def readFile (parse : ρ → Option ξ) (m : Manager ρ ξ) (t : Time) : Manager ρ ξ × Option XErr :=
  match m.cache.get? (fileName m.cache t) with
  | none => (m, some .missing)
  | some raw =>
    match parse raw with
    | none => (m, some .parse)
    | some x => ({ m with xml := some x }, none)

/-- `xml_cache.py:64-95` (`load_interval`): the object after the call and the exception, if any -/
def load (parse : ρ → Option ξ) (m : Manager ρ ξ) (t : Time) (net : Attempt ρ × Attempt ρ) : Manager ρ ξ × Option XErr :=
  if inCache m.cache t then readFile parse { m with interval := some t } t
  else
    match download m.cache net with
    | .error e => ({ m with interval := some t }, some e)
    | .ok cache =>
      if inCache cache t then readFile parse { m with cache := cache, interval := some t } t
      else ({ m with cache := cache, interval := some t }, some .missing)

/-- `xml_cache.py:52-62`: `load_interval` at the start of each day, `n` days -/
def loadDays (parse : ρ → Option ξ) (net : Time → Attempt ρ × Attempt ρ) : ℕ → Date → Manager ρ ξ → Manager ρ ξ × Option XErr
  | 0, _, m => (m, none)
  | n + 1, d, m =>
    match load parse m ⟨d, 0⟩ (net ⟨d, 0⟩) with
    | (m', some e) => (m', some e)
    | (m', none) => loadDays parse net n d.next m'

/-- `xml_cache.py:48-62` (`populate_by_day`): from the day before the start to the end -/
def populateByDay (parse : ρ → Option ξ) (net : Time → Attempt ρ × Attempt ρ) (start finish : Date) (m : Manager ρ ξ) :
    Manager ρ ξ × Option XErr :=
  loadDays parse net (finish.ordinal - start.prev.ordinal + 1).toNat start.prev m

/-- `xml_cache.py:39-43`, `1073-1078`: the first day after the month -/
def monthEnd (year month : ℕ) : Date := if month = 12 then ⟨year + 1, 1, 1⟩ else ⟨year, month + 1, 1⟩

/-- `xml_cache.py:36-46` (`populate`) -/
def populate (parse : ρ → Option ξ) (net : Time → Attempt ρ × Attempt ρ) (startYear startMonth endYear endMonth : ℕ)
    (m : Manager ρ ξ) : Manager ρ ξ × Option XErr :=
  populateByDay parse net ⟨startYear, startMonth, 1⟩ (monthEnd endYear endMonth) m

/-- `xml_cache.py:1086-1091`: types with a positive violation -/
def violated (violations : ξ → List (String × ℚ)) (x : ξ) : List String :=
  ((violations x).filter (fun v => decide (0 < v.2))).map Prod.fst

/-- `xml_cache.py:1087-1091`: an interval is entered with its first violation -/
def enter (intervals : List (Time × List String)) (t : Time) (names : List String) : List (Time × List String) :=
  if names = [] then intervals else intervals ++ [(t, names)]

/-- `xml_cache.py:1082-1095`: the loop, for at most `n` rounds.  Only `MissingDataError` is caught. -/
def findLoop (parse : ρ → Option ξ) (violations : ξ → List (String × ℚ)) (net : Time → Attempt ρ × Attempt ρ) (limit : ℕ)
    (finish : Time) : ℕ → Time → Manager ρ ξ → List (Time × List String) →
    Manager ρ ξ × Except XErr (List (Time × List String))
  | 0, _, m, acc => (m, .ok acc)
  | n + 1, t, m, acc =>
    if t.minutes ≤ finish.minutes ∧ acc.length < limit then
      match load parse m t (net t) with
      | (m', some .missing) => findLoop parse violations net limit finish n t.next m' acc
      | (m', some e) => (m', .error e)
      | (m', none) =>
        match m'.xml with
        | none => (m', .error .other)
        | some x => findLoop parse violations net limit finish n t.next m' (enter acc t (violated violations x))
    else (m, .ok acc)

/-- `xml_cache.py:1043-1095` (`find_intervals_with_violations`): times are 5 minutes apart, so that the number of rounds is not
more than the number of times in the range. -/
def findViolations (parse : ρ → Option ξ) (violations : ξ → List (String × ℚ)) (net : Time → Attempt ρ × Attempt ρ)
    (limit startYear startMonth endYear endMonth : ℕ) (m : Manager ρ ξ) :
    Manager ρ ξ × Except XErr (List (Time × List String)) :=
  let start : Time := ⟨⟨startYear, startMonth, 1⟩, 0⟩
  let finish : Time := ⟨monthEnd endYear endMonth, 0⟩
  findLoop parse violations net limit finish ((finish.minutes - start.minutes) / 5 + 1).toNat start m []

end

end Verif.Xml
