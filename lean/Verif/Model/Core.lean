import Mathlib.Algebra.Order.Field.Rat
import Mathlib.Data.List.Sort

/-!
# Basic vocabulary of the model

Shared types and table helpers.  A `pd.DataFrame` is a `List` of row structures.
-/

namespace Verif

/-- The services a unit can bid for, `markets.py:112-113` (`_allowed_services`). -/
inductive Service
  | energy | raiseReg | lowerReg | raise5min | lower5min | raise60s | lower60s
  | raise6s | lower6s | raise1s | lower1s
  deriving DecidableEq, Repr

/-- Dispatch types, `markets.py:111` (`_allowed_dispatch_types`). -/
inductive DType
  | generator | load
  deriving DecidableEq, Repr

/-- Constraint types.  `markets.py:120` allows `<=`, `=`, `>=`; generic constraints are not checked
against this list (`markets.py:2369`), so any other string is represented by `other`. -/
inductive CType
  | le | eq | ge | other
  deriving DecidableEq, Repr

/-- Names of the constraint sets used as dictionary keys in `markets.py` (`'unit_bid_capacity'` at
527, `'uigf_capacity'` 638, `'ramp_up'` 851, `'ramp_down'` 857, `'bidirectional_ramp_up'` 865,
`'bidirectional_ramp_down'` 871, `'fast_start'` 1034, `'demand'` 1140, `'fcas'` 1245,
`'fcas_max_availability'` 1344, `'joint_ramping_*'` 1548-1592, `'joint_capacity'` 1725,
`'energy_and_regulation_capacity'` 1864, `'interpolation_weights'` 2261, `'generic'` 2359,
`'tie_break'` 2851).  `other s` is any other string a user may pass to
`make_constraints_elastic`. -/
inductive CKey
  | unitBidCapacity | uigf | rampUp | rampDown | biRampUp | biRampDown | fastStart
  | demand | fcas | fcasMaxAvail | jrRaise | jrRaiseBdu | jrLower | jrLowerBdu
  | jointCapacity | energyReg | interpWeights | generic | tieBreak
  | other (s : String)
  deriving DecidableEq, Repr

/-- `helper_functions.py:5-14` (`save_index`): number the rows from `offset`. -/
def saveIndex {α β : Type} (rows : List α) (offset : Nat) (f : Nat → α → β) : List β :=
  match rows with
  | [] => []
  | r :: rs => f offset r :: saveIndex rs (offset + 1) f

/-- `DataFrame.drop_duplicates(key)` (pandas): keep the first row of every key. -/
def dropDup {α κ : Type} [DecidableEq κ] (key : α → κ) : List α → List α
  | [] => []
  | r :: rs => r :: (dropDup key rs).filter (fun s => decide (key s ≠ key r))

/-- Python dictionaries with insertion order (`_decision_variables` etc., `markets.py:95-103`):
assignment replaces the value in place or appends. -/
abbrev Dict (κ α : Type) := List (κ × α)

namespace Dict
variable {κ α : Type} [DecidableEq κ]

/-- `d.get(k)` -/
def get? : Dict κ α → κ → Option α
  | [], _ => none
  | (k', v) :: d, k => if k' = k then some v else get? d k

/-- `d[k] = v` -/
def set : Dict κ α → κ → α → Dict κ α
  | [], k, v => [(k, v)]
  | (k', v') :: d, k, v => if k' = k then (k', v) :: d else (k', v') :: set d k v

/-- `del d[k]` (after a membership test) -/
def erase : Dict κ α → κ → Dict κ α
  | [], _ => []
  | (k', v') :: d, k => if k' = k then erase d k else (k', v') :: erase d k

/-- `list(d.values())` followed by `pd.concat` for dictionaries of tables. -/
def concat {β : Type} (d : Dict κ (List β)) : List β := d.flatMap (·.2)

/-- `k in d` -/
def has (d : Dict κ α) (k : κ) : Bool := (get? d k).isSome
end Dict

/-- Kinds of exceptions raised by the modelled code. -/
inductive Err
  | modelBuild        -- ModelBuildError
  | validation        -- any exception of dataframe_validator.py
  | valueError        -- ValueError
  | keyError          -- KeyError
  | typeError         -- TypeError
  | indexError        -- IndexError
  | attributeError    -- AttributeError
  | nanIds            -- not an exception: ids have become NaN, the model stops (see Market.lean)
  deriving DecidableEq, Repr

end Verif
