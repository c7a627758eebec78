import Verif.Proofs.MmsDb
import Verif.Props.MmsDb
import Verif.Props.XmlCache
import Verif.Spec.MmsDays

/-!
# Market days, versions of constraints and tables of one month

* **C86** tables by day give the rows of the market day of the interval.
* **C87** tables of generic constraints give the versions used in the interval.
* **C88** tables of one month have what the last download had.
-/

namespace Verif.Mms

open Verif Verif.Xml

/-! ### C86 -/

theorem dayOf_eq {t : Time} (h : t.Valid) : dayOf t = t.marketDay := by
  unfold dayOf Time.marketDay
  obtain ⟨-, -, -, h5⟩ := h
  by_cases h1 : t.minute < 245
  · rw [if_pos h1, if_pos (by omega)]
  · rw [if_neg h1, if_neg (by omega)]

theorem marketDay_unique {t : Time} (h : t.Valid) {d : Date} (hd : d.Valid) : InMarketDay d t ↔ d = t.marketDay := by
  obtain ⟨hv, h1, h2, h3⟩ := C70_number t h
  unfold InMarketDay
  rw [h3]
  constructor
  · rintro ⟨h4, h5⟩
    exact ordinal_inj hd hv (by omega)
  · rintro rfl
    omega

/-- **C86** The rows returned for an interval are those dated at midnight of the market day the interval is in. -/
theorem C86_market_day {κ β : Type} (table : List (DispRow Time κ β)) (t : Time) (h : t.Valid) (r : DispRow Time κ β)
    (hr : r.time.date.Valid) :
    r ∈ byDay table t ↔ r ∈ table ∧ r.time.minute = 0 ∧ InMarketDay r.time.date t := by
  unfold byDay bySettlementDate
  rw [List.mem_filter, decide_eq_true_iff, marketDay_unique h hr, dayOf_eq h]
  constructor
  · rintro ⟨h1, h2⟩
    exact ⟨h1, by rw [h2], by rw [h2]⟩
  · rintro ⟨h1, h2, h3⟩
    refine ⟨h1, ?_⟩
    cases hh : r.time with
    | mk d m =>
      rw [hh] at h2 h3
      simp only at h2 h3
      rw [h2, h3]

/-- **C86** Every interval is in exactly one market day, and the day is the one in the name of its NEMDE file. -/
theorem C86_one_day (t : Time) (h : t.Valid) : InMarketDay t.marketDay t ∧ ∀ d : Date, d.Valid → InMarketDay d t → d = t.marketDay :=
  ⟨(marketDay_unique h (C70_number t h).1).2 rfl, fun _ hd => (marketDay_unique h hd).1⟩

/-- two days for the examples -/
def dayTable : List (DispRow Time String ℕ) := [⟨⟨⟨2019, 1, 1⟩, 0⟩, "A", 1⟩, ⟨⟨⟨2019, 1, 2⟩, 0⟩, "A", 2⟩]

example : byDay dayTable ⟨⟨2019, 1, 2⟩, 240⟩ = [⟨⟨⟨2019, 1, 1⟩, 0⟩, "A", 1⟩] ∧
    byDay dayTable ⟨⟨2019, 1, 2⟩, 245⟩ = [⟨⟨⟨2019, 1, 2⟩, 0⟩, "A", 2⟩] ∧
    (⟨⟨2019, 1, 2⟩, 240⟩ : Time).Valid ∧ (⟨⟨2019, 1, 2⟩, 245⟩ : Time).Valid := by decide +kernel

/-! ### C87 -/

/-- **C87** After `populate` the rows returned for an interval are exactly those of the versions `DISPATCHCONSTRAINT` has for it,
each as often as it is in the table. -/
theorem C87_versions {τ κ β : Type} [DecidableEq τ] [DecidableEq κ] (rows : List (ConRow τ κ β))
    {download : ℕ × ℕ → Option (List (FileRow τ κ (τ × ℚ)))} {sy sm ey em : ℕ} {old dispatch : List (DispRow τ κ (τ × ℚ))}
    (h : populate download sy sm ey em old = .ok dispatch) (t : τ) :
    matchConstraints rows dispatch t = rows.filter (fun r => decide (Used dispatch t r)) := by
  have hn : (dispatch.map DispRow.key).Nodup := (addMonths_ok h (by simp)).2
  unfold matchConstraints bySettlementDate
  refine flatMap_if _ _ _ ?_
  intro r _
  rw [List.filter_filter]
  have hp : ∀ d : DispRow τ κ (τ × ℚ), (decide (r.constraint = d.id ∧ r.date = d.data.1 ∧ r.version = d.data.2) && decide (d.time = t)) = true ↔
      d.time = t ∧ d.id = r.constraint ∧ d.data = (r.date, r.version) := by
    intro d
    rw [Bool.and_eq_true, decide_eq_true_iff, decide_eq_true_iff]
    constructor
    · rintro ⟨⟨h1, h2, h3⟩, h4⟩
      exact ⟨h4, h1.symm, Prod.ext h2.symm h3.symm⟩
    · rintro ⟨h1, h2, h3⟩
      rw [h3]
      exact ⟨⟨h2.symm, rfl, rfl⟩, h1⟩
  rcases filter_one_or_none hn _ (t, r.constraint) (fun d _ hd => by
      obtain ⟨h1, h2, -⟩ := (hp d).1 hd
      unfold DispRow.key
      rw [h1, h2]) with hf | ⟨d, hd, hf, hpd⟩
  · rw [hf]
    have : ¬Used dispatch t r := by
      rintro ⟨d, hd, hu⟩
      exact List.filter_eq_nil_iff.1 hf d hd ((hp d).2 hu)
    simp [this]
  · rw [hf]
    have : Used dispatch t r := ⟨d, hd, (hp d).1 hpd⟩
    simp [this]

/-- Downloads for the example: constraint X is dispatched with its first version at 5 and with its second version at 10. -/
def conDownload : ℕ × ℕ → Option (List (FileRow ℕ String (ℕ × ℚ)))
  | (2019, 1) => some [⟨some 0, ⟨5, "X", (3, 1)⟩⟩, ⟨some 1, ⟨10, "X", (3, 1)⟩⟩, ⟨some 0, ⟨10, "X", (3, 2)⟩⟩]
  | _ => some []

def conRows : List (ConRow ℕ String String) := [⟨"X", 3, 1, "NSW1"⟩, ⟨"X", 3, 1, "SA1"⟩, ⟨"X", 3, 2, "NSW1"⟩, ⟨"Y", 3, 1, "NSW1"⟩]

example : ∃ dispatch, populate conDownload 2019 1 2019 1 [] = .ok dispatch ∧
    matchConstraints conRows dispatch 5 = [⟨"X", 3, 1, "NSW1"⟩, ⟨"X", 3, 1, "SA1"⟩] ∧
    matchConstraints conRows dispatch 10 = [⟨"X", 3, 2, "NSW1"⟩] ∧ matchConstraints conRows dispatch 15 = [] :=
  ⟨[⟨5, "X", (3, 1)⟩, ⟨10, "X", (3, 2)⟩], by decide +kernel, by decide +kernel, by decide +kernel, by decide +kernel⟩

/-! ### C88 -/

/-- **C88** After several calls of `set_data` the table has the contents of the last file that was downloaded: its rows in their order
with the columns of the table, missing where the file does not have the column. -/
theorem C88_last_download {γ : Type} (tableColumns : List String) (old : List (List (String × Option γ)))
    (before after : List (Option (File γ))) (f : File γ) (h : ∀ g ∈ after, g = none) :
    List.Forall₂ (fun r row => row.map Prod.fst = tableColumns ∧
        ∀ c v, (c, v) ∈ row → (c ∈ f.columns → v = some (r c)) ∧ (c ∉ f.columns → v = none))
      f.rows (setDataAll tableColumns old (before ++ some f :: after)) := by
  have hafter : ∀ (l : List (Option (File γ))) (table : List (List (String × Option γ))), (∀ g ∈ l, g = none) →
      l.foldl (fun table f => (setData tableColumns table f).1) table = table := by
    intro l
    induction l with
    | nil => intro table _; rfl
    | cons g l ih =>
      intro table hl
      rw [List.foldl_cons, hl g List.mem_cons_self]
      exact ih _ fun x hx => hl x (List.mem_cons_of_mem _ hx)
  unfold setDataAll
  rw [List.foldl_append, List.foldl_cons, hafter after _ h]
  show List.Forall₂ _ _ (fitColumns tableColumns f)
  unfold fitColumns
  rw [List.forall₂_map_right_iff, List.forall₂_same]
  intro r _
  refine ⟨?_, ?_⟩
  · rw [List.map_map]
    exact List.map_id _
  · intro c v hv
    rw [List.mem_map] at hv
    obtain ⟨c', -, e⟩ := hv
    injection e with e1 e2
    subst e1
    exact ⟨fun hc => by rw [← e2, if_pos hc], fun hc => by rw [← e2, if_neg hc]⟩

/-- **C88** As long as nothing could be downloaded the table stays as it is, and each call has raised an error. -/
theorem C88_nothing_downloaded {γ : Type} (tableColumns : List String) (old : List (List (String × Option γ)))
    (fs : List (Option (File γ))) (h : ∀ g ∈ fs, g = none) :
    setDataAll tableColumns old fs = old ∧ ∀ g ∈ fs, (setData tableColumns old g).2 = some .missing := by
  constructor
  · unfold setDataAll
    induction fs with
    | nil => rfl
    | cons g l ih =>
      rw [List.foldl_cons, h g List.mem_cons_self]
      exact ih fun x hx => h x (List.mem_cons_of_mem _ hx)
  · intro g hg
    rw [h g hg]
    rfl

example : setDataAll ["DUID", "SECONDARY_TLF"] []
      [some ⟨["DUID"], [fun _ => "A"]⟩, some ⟨["DUID", "LASTCHANGED"], [fun _ => "B", fun _ => "C"]⟩, none] =
    [[("DUID", some "B"), ("SECONDARY_TLF", none)], [("DUID", some "C"), ("SECONDARY_TLF", none)]] := by decide +kernel

/-! ### C68: which months count -/

/-- **C68** A month of the history is used exactly when its file can be downloaded and has all columns of the table and another one;
then all its rows are used, in the columns of the table. -/
theorem C68_used_months {γ : Type} (tableColumns : List String) (f : Option (File γ)) (rows : List (List (String × γ))) :
    usedMonth tableColumns f = some rows ↔
      ∃ g, f = some g ∧ (∀ c ∈ tableColumns, c ∈ g.columns) ∧ (∃ c ∈ g.columns, c ∉ tableColumns) ∧
        rows = g.rows.map (fun r => tableColumns.map (fun c => (c, r c))) := by
  cases f with
  | none => simp [usedMonth]
  | some g =>
    unfold usedMonth hasColumns
    dsimp only
    by_cases h1 : ∀ c ∈ tableColumns, c ∈ g.columns
    · by_cases h2 : ∃ c ∈ g.columns, c ∉ tableColumns
      · have e : (tableColumns.all (fun c => decide (c ∈ g.columns)) && g.columns.any (fun c => !decide (c ∈ tableColumns))) = true := by
          rw [Bool.and_eq_true, List.all_eq_true, List.any_eq_true]
          exact ⟨by simpa using h1, by simpa using h2⟩
        rw [e]
        constructor
        · intro h
          exact ⟨g, rfl, h1, h2, (Option.some.inj h).symm⟩
        · rintro ⟨g', hg, -, -, rfl⟩
          injection hg with hg
          subst hg
          rfl
      · have e : ¬(tableColumns.all (fun c => decide (c ∈ g.columns)) && g.columns.any (fun c => !decide (c ∈ tableColumns))) = true := by
          rw [Bool.and_eq_true, List.any_eq_true]
          rintro ⟨-, h⟩
          exact h2 (by simpa using h)
        simp only [e, if_false]
        constructor
        · intro h; simp at h
        · rintro ⟨g', hg, -, h3, -⟩
          injection hg with hg
          subst hg
          exact absurd h3 h2
    · have e : ¬(tableColumns.all (fun c => decide (c ∈ g.columns)) && g.columns.any (fun c => !decide (c ∈ tableColumns))) = true := by
        rw [Bool.and_eq_true, List.all_eq_true]
        rintro ⟨h, -⟩
        exact h1 (by simpa using h)
      simp only [e, if_false]
      constructor
      · intro h; simp at h
      · rintro ⟨g', hg, h3, -, -⟩
        injection hg with hg
        subst hg
        exact absurd h3 h1

/-- **C68** A month whose file has exactly the columns of the table is skipped. -/
theorem C68_exact_columns_skipped : ∃ (tableColumns : List String) (f : File ℕ), f.columns = tableColumns ∧ f.rows ≠ [] ∧
    usedMonth tableColumns (some f) = none :=
  ⟨["DUID", "VERSIONNO"], ⟨["DUID", "VERSIONNO"], [fun _ => 1]⟩, rfl, by simp, rfl⟩

example : usedMonth ["DUID"] (some ⟨["DUID", "LASTCHANGED"], [fun _ => 1]⟩) = some [[("DUID", 1)]] := by decide +kernel

end Verif.Mms
