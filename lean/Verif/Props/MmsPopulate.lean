import Verif.Model.MmsPopulate
import Verif.Spec.MmsPopulate
import Verif.Props.MmsDb
import Verif.Proofs.XmlCache

/-!
# C117, C118: filling the whole database, addresses of downloads
-/

namespace Verif.Mms

open Verif Verif.Xml

section
variable {τ κ β γ : Type} [DecidableEq τ] [DecidableEq κ] [DecidableEq γ]

/-! ### Calls touch their own table -/

/-- the call is for a table of the manager -/
def Load.default : Load → Prop
  | .add t _ => t ∈ dispatchTables
  | .set t _ => t ∈ monthTables
  | .history t _ => t ∈ historyTables

theorem lastLoads_default (m : ℕ × ℕ) : ∀ l ∈ lastLoads m, l.default := by
  intro l hl
  unfold lastLoads at hl
  simp only [List.mem_cons, List.not_mem_nil, or_false] at hl
  rcases hl with rfl | rfl | rfl | rfl | rfl | rfl | rfl | rfl | rfl | rfl | rfl | rfl <;> (dsimp only [Load.default]; decide)

theorem populateLoads_default (sy sm ey em : ℕ) : ∀ l ∈ populateLoads sy sm ey em, l.default := by
  intro l hl
  unfold populateLoads at hl
  rcases List.mem_append.1 hl with h | h
  · obtain ⟨m, -, hm⟩ := List.mem_flatMap.1 h
    obtain ⟨t, ht, rfl⟩ := List.mem_map.1 hm
    exact (by decide : ∀ t ∈ addOrder, t ∈ dispatchTables) t ht
  · exact lastLoads_default _ l h

theorem run_same (a : Archive τ κ β γ) {l : Load} (hl : l.default) {db db' : Db τ κ β γ} (h : SameTables db db') :
    (l.run a db).2 = (l.run a db').2 ∧ SameTables (l.run a db).1 (l.run a db').1 := by
  cases l with
  | add t m =>
    unfold Load.run
    dsimp only
    rw [h.dispatch t hl]
    cases addData (db'.dispatch t) (a.dispatch t m) with
    | error e => exact ⟨rfl, h⟩
    | ok rows =>
      refine ⟨rfl, ⟨fun s hs => ?_, h.month, h.history⟩⟩
      dsimp only
      by_cases e : s = t
      · rw [e, Function.update_self, Function.update_self]
      · rw [Function.update_of_ne e, Function.update_of_ne e, h.dispatch s hs]
  | set t m =>
    unfold Load.run
    dsimp only
    rw [h.month t.1 (List.mem_map_of_mem hl)]
    refine ⟨rfl, ⟨h.dispatch, fun s hs => ?_, h.history⟩⟩
    dsimp only
    by_cases e : s = t.1
    · rw [e, Function.update_self, Function.update_self]
    · rw [Function.update_of_ne e, Function.update_of_ne e, h.month s hs]
  | history t m =>
    unfold Load.run
    dsimp only
    rw [h.history t.1 (List.mem_map_of_mem hl)]
    refine ⟨rfl, ⟨h.dispatch, h.month, fun s hs => ?_⟩⟩
    dsimp only
    by_cases e : s = t.1
    · rw [e, Function.update_self, Function.update_self]
    · rw [Function.update_of_ne e, Function.update_of_ne e, h.history s hs]

theorem run_others (a : Archive τ κ β γ) {l : Load} (hl : l.default) (db : Db τ κ β γ) : SameOthers (l.run a db).1 db := by
  cases l with
  | add t m =>
    unfold Load.run
    dsimp only
    cases addData (db.dispatch t) (a.dispatch t m) with
    | error e => exact ⟨fun _ _ => rfl, fun _ _ => rfl, fun _ _ => rfl⟩
    | ok rows => exact ⟨fun s hs => Function.update_of_ne (fun e => hs (by rw [e]; exact hl)) _ _, fun _ _ => rfl, fun _ _ => rfl⟩
  | set t m =>
    exact ⟨fun _ _ => rfl, fun s hs => Function.update_of_ne (fun e => hs (by rw [e]; exact List.mem_map_of_mem hl)) _ _, fun _ _ => rfl⟩
  | history t m =>
    exact ⟨fun _ _ => rfl, fun _ _ => rfl, fun s hs => Function.update_of_ne (fun e => hs (by rw [e]; exact List.mem_map_of_mem hl)) _ _⟩

theorem runLoads_same (a : Archive τ κ β γ) : ∀ (ls : List Load), (∀ l ∈ ls, l.default) → ∀ {db db' : Db τ κ β γ},
    SameTables db db' → (runLoads a ls db).2 = (runLoads a ls db').2 ∧ SameTables (runLoads a ls db).1 (runLoads a ls db').1
  | [], _, _, _, h => ⟨rfl, h⟩
  | l :: ls, hd, db, db', h => by
    obtain ⟨h1, h2⟩ := run_same a (hd l List.mem_cons_self) h
    unfold runLoads
    revert h1 h2
    generalize l.run a db = p
    generalize l.run a db' = q
    obtain ⟨p1, p2⟩ := p
    obtain ⟨q1, q2⟩ := q
    intro h1 h2
    dsimp only at h1 h2
    subst h1
    cases p2 with
    | some e => exact ⟨rfl, h2⟩
    | none => exact runLoads_same a ls (fun x hx => hd x (List.mem_cons_of_mem _ hx)) h2

theorem runLoads_others (a : Archive τ κ β γ) : ∀ (ls : List Load), (∀ l ∈ ls, l.default) → ∀ (db : Db τ κ β γ),
    SameOthers (runLoads a ls db).1 db
  | [], _, _ => ⟨fun _ _ => rfl, fun _ _ => rfl, fun _ _ => rfl⟩
  | l :: ls, hd, db => by
    have h1 := run_others a (hd l List.mem_cons_self) db
    unfold runLoads
    revert h1
    generalize l.run a db = p
    obtain ⟨p1, p2⟩ := p
    intro h1
    cases p2 with
    | some e => exact h1
    | none =>
      have h2 := runLoads_others a ls (fun x hx => hd x (List.mem_cons_of_mem _ hx)) p1
      exact ⟨fun t ht => (h2.dispatch t ht).trans (h1.dispatch t ht), fun t ht => (h2.month t ht).trans (h1.month t ht),
        fun t ht => (h2.history t ht).trans (h1.history t ht)⟩

omit [DecidableEq τ] [DecidableEq κ] [DecidableEq γ] in
theorem createTables_same (db db' : Db τ κ β γ) : SameTables (createTables db) (createTables db') := by
  refine ⟨fun t ht => ?_, fun t ht => ?_, fun t ht => ?_⟩ <;> simp only [createTables, if_pos ht]

omit [DecidableEq τ] [DecidableEq κ] [DecidableEq γ] in
theorem createTables_others (db : Db τ κ β γ) : SameOthers (createTables db) db := by
  refine ⟨fun t ht => ?_, fun t ht => ?_, fun t ht => ?_⟩ <;> simp only [createTables, if_neg ht]

/-- **C117** Whatever was in the database before, `populate` leaves the same tables and raises the same exception or none.  It does
not touch other tables in the database. -/
theorem C117_any_database (a : Archive τ κ β γ) (sy sm ey em : ℕ) (db db' : Db τ κ β γ) :
    (populateAll a sy sm ey em db).2 = (populateAll a sy sm ey em db').2 ∧
    SameTables (populateAll a sy sm ey em db).1 (populateAll a sy sm ey em db').1 ∧
    SameOthers (populateAll a sy sm ey em db).1 db := by
  obtain ⟨h1, h2⟩ := runLoads_same a _ (populateLoads_default sy sm ey em) (createTables_same db db')
  refine ⟨h1, h2, ?_⟩
  have h3 := runLoads_others a _ (populateLoads_default sy sm ey em) (createTables db)
  have h4 := createTables_others db
  exact ⟨fun t ht => (h3.dispatch t ht).trans (h4.dispatch t ht), fun t ht => (h3.month t ht).trans (h4.month t ht),
    fun t ht => (h3.history t ht).trans (h4.history t ht)⟩

/-- **C117** Attempts to fill the database that failed or were broken off, with any arguments, at any call, with any state of the
archive, leave no trace once `populate` is called again. -/
theorem C117_repair (a : Archive τ κ β γ) (sy sm ey em : ℕ) (db : Db τ κ β γ)
    (attempts : List (Archive τ κ β γ × (ℕ × ℕ × ℕ × ℕ) × ℕ)) :
    let left := attempts.foldl (fun d t => brokenOff t.1 t.2.1.1 t.2.1.2.1 t.2.1.2.2.1 t.2.1.2.2.2 t.2.2 d) db
    (populateAll a sy sm ey em left).2 = (populateAll a sy sm ey em db).2 ∧
    SameTables (populateAll a sy sm ey em left).1 (populateAll a sy sm ey em db).1 :=
  ⟨(C117_any_database a sy sm ey em _ db).1, (C117_any_database a sy sm ey em _ db).2.1⟩

/-! ### One table -/

/-- the months added to a table -/
def monthsOf (t : String) (ls : List Load) : List (ℕ × ℕ) :=
  ls.filterMap (fun l => match l with
    | .add s m => if s = t then some m else none
    | _ => none)

theorem runLoads_dispatch (a : Archive τ κ β γ) (t : String) : ∀ (ls : List Load) (db : Db τ κ β γ),
    ∃ k, addMonths (a.dispatch t) ((monthsOf t ls).take k) (db.dispatch t) = .ok ((runLoads a ls db).1.dispatch t) ∧
      ((runLoads a ls db).2 = none → k = (monthsOf t ls).length)
  | [], db => ⟨0, rfl, fun _ => rfl⟩
  | .add s m :: ls, db => by
    unfold runLoads Load.run
    dsimp only
    cases h : addData (db.dispatch s) (a.dispatch s m) with
    | error e => exact ⟨0, rfl, fun h => nomatch (show some e = none from h)⟩
    | ok rows =>
      dsimp only
      obtain ⟨k, h1, h2⟩ := runLoads_dispatch a t ls { db with dispatch := Function.update db.dispatch s rows }
      by_cases e : s = t
      · subst e
        have hm : monthsOf s (.add s m :: ls) = m :: monthsOf s ls := by simp [monthsOf]
        refine ⟨k + 1, ?_, fun hn => ?_⟩
        · rw [hm, List.take_succ_cons]
          unfold addMonths
          rw [h]
          dsimp only at h1 ⊢
          rw [Function.update_self] at h1
          exact h1
        · rw [hm, List.length_cons, h2 hn]
      · have hm : monthsOf t (.add s m :: ls) = monthsOf t ls := by simp [monthsOf, e]
        refine ⟨k, ?_, fun hn => ?_⟩
        · rw [hm]
          dsimp only at h1
          rw [Function.update_of_ne (fun e' => e e'.symm)] at h1
          exact h1
        · rw [hm]; exact h2 hn
  | .set s m :: ls, db => by
    unfold runLoads Load.run
    dsimp only
    cases h : (setData s.2 (db.month s.1) (a.file s.1 m)).2 with
    | some e => exact ⟨0, rfl, fun h => nomatch (show some e = none from h)⟩
    | none =>
      exact runLoads_dispatch a t ls { db with month := Function.update db.month s.1 (setData s.2 (db.month s.1) (a.file s.1 m)).1 }
  | .history s m :: ls, db => by
    unfold runLoads Load.run
    dsimp only
    exact runLoads_dispatch a t ls { db with history := Function.update db.history s.1 _ }

theorem monthsOf_append (t : String) (l l' : List Load) : monthsOf t (l ++ l') = monthsOf t l ++ monthsOf t l' := by
  unfold monthsOf
  exact List.filterMap_append

theorem monthsOf_lastLoads (t : String) (m : ℕ × ℕ) : monthsOf t (lastLoads m) = [] := rfl

theorem monthsOf_populate {t : String} (ht : t ∈ dispatchTables) (sy sm ey em : ℕ) :
    monthsOf t (populateLoads sy sm ey em) = populateMonths sy sm ey em := by
  unfold populateLoads
  rw [monthsOf_append, monthsOf_lastLoads, List.append_nil]
  generalize populateMonths sy sm ey em = ms
  induction ms with
  | nil => rfl
  | cons m ms ih =>
    rw [List.flatMap_cons, monthsOf_append, ih]
    have : monthsOf t (addOrder.map (fun t => .add t m)) = [m] := by
      unfold dispatchTables at ht
      simp only [List.mem_cons, List.not_mem_nil, or_false] at ht
      rcases ht with rfl | rfl | rfl | rfl | rfl <;> simp [monthsOf, addOrder]
    rw [this]
    rfl

theorem monthsOf_take (t : String) (ls : List Load) (n : ℕ) : ∃ k, monthsOf t (ls.take n) = (monthsOf t ls).take k := by
  refine ⟨(monthsOf t (ls.take n)).length, ?_⟩
  have h : monthsOf t ls = monthsOf t (ls.take n) ++ monthsOf t (ls.drop n) := by
    rw [← monthsOf_append, List.take_append_drop]
  rw [h, List.take_left']
  rfl

/-- **C117** Wherever `populate` raises or is broken off, each dispatch table holds whole months: exactly the rows of the files of the
first `k` of the requested months (the first row of each key, without intervention runs), no key twice. -/
theorem C117_whole_months (a : Archive τ κ β γ) (sy sm ey em n : ℕ) (db : Db τ κ β γ) {t : String} (ht : t ∈ dispatchTables) :
    ∃ k, (∀ m ∈ (populateMonths sy sm ey em).take k, (a.dispatch t m).isSome) ∧
      (∀ r, r ∈ (brokenOff a sy sm ey em n db).dispatch t ↔
        ∃ m ∈ (populateMonths sy sm ey em).take k, ∃ file, a.dispatch t m = some file ∧ FirstInFile file r) ∧
      (((brokenOff a sy sm ey em n db).dispatch t).map (fun r => (r.time, r.id))).Nodup := by
  obtain ⟨k, h1, -⟩ := runLoads_dispatch a t ((populateLoads sy sm ey em).take n) (createTables db)
  obtain ⟨j, hj⟩ := monthsOf_take t (populateLoads sy sm ey em) n
  rw [hj, monthsOf_populate ht, List.take_take] at h1
  have h0 : (createTables db).dispatch t = [] := by simp only [createTables, if_pos ht]
  rw [h0] at h1
  obtain ⟨h2, h3⟩ := addMonths_ok h1 (by simp)
  refine ⟨min k j, fun m hm => ?_, fun r => ?_, h3⟩
  · have key : ∀ (ms : List (ℕ × ℕ)) (table t' : List (DispRow τ κ β)), addMonths (a.dispatch t) ms table = .ok t' →
        ∀ m ∈ ms, (a.dispatch t m).isSome := by
      intro ms
      induction ms with
      | nil => intro _ _ _ m hm; cases hm
      | cons m0 ms ih =>
        intro table t' h m hm
        unfold addMonths at h
        cases ha : addData table (a.dispatch t m0) with
        | error e => rw [ha] at h; cases h
        | ok t1 =>
          rw [ha] at h
          rcases List.mem_cons.1 hm with rfl | hm
          · obtain ⟨f, hf, -⟩ := addData_ok.1 ha
            rw [hf]
            rfl
          · exact ih _ _ h m hm
    exact key _ _ _ h1 m hm
  · refine (h2 r).trans ?_
    simp

/-! ### Tables that are set -/

theorem runLoads_error (a : Archive τ κ β γ) (l : Load) (ls : List Load) (db : Db τ κ β γ) (h : (runLoads a (l :: ls) db).2 = none) :
    (l.run a db).2 = none ∧ (runLoads a (l :: ls) db).1 = (runLoads a ls (l.run a db).1).1 ∧
      (runLoads a ls (l.run a db).1).2 = none := by
  have hc : ∀ d, runLoads a (l :: ls) d = match l.run a d with
      | (db', some e) => (db', some e)
      | (db', none) => runLoads a ls db' := fun _ => rfl
  rw [hc] at h ⊢
  revert h
  generalize l.run a db = p
  obtain ⟨p1, p2⟩ := p
  cases p2 with
  | some e => intro h; exact nomatch (show some e = none from h)
  | none => intro h; exact ⟨rfl, rfl, h⟩

theorem runLoads_month (a : Archive τ κ β γ) (t : String × List String) (m : ℕ × ℕ) : ∀ (ls : List Load) (db : Db τ κ β γ),
    (runLoads a ls db).2 = none → (∀ s n, Load.set s n ∈ ls → s.1 = t.1 → s = t ∧ n = m) →
    (Load.set t m ∈ ls ∨ ∃ f, a.file t.1 m = some f ∧ db.month t.1 = fitColumns t.2 f) →
    ∃ f, a.file t.1 m = some f ∧ (runLoads a ls db).1.month t.1 = fitColumns t.2 f
  | [], db, _, _, h => by
    rcases h with h | h
    · cases h
    · exact h
  | l :: ls, db, hn, hu, h => by
    obtain ⟨h1, h2, h3⟩ := runLoads_error a l ls db hn
    rw [h2]
    refine runLoads_month a t m ls _ h3 (fun s n hs => hu s n (List.mem_cons_of_mem _ hs)) ?_
    cases l with
    | add s n =>
      refine h.imp (fun h => ?_) (fun ⟨f, hf, e⟩ => ⟨f, hf, ?_⟩)
      · rcases List.mem_cons.1 h with h | h
        · cases h
        · exact h
      · rw [← e]
        unfold Load.run
        dsimp only
        cases addData (db.dispatch s) (a.dispatch s n) <;> rfl
    | history s n =>
      refine h.imp (fun h => ?_) (fun h => h)
      rcases List.mem_cons.1 h with h | h
      · cases h
      · exact h
    | set s n =>
      by_cases e : s.1 = t.1
      · obtain ⟨rfl, rfl⟩ := hu s n List.mem_cons_self e
        right
        unfold Load.run at h1 ⊢
        dsimp only at h1 ⊢
        rw [Function.update_self]
        cases hf : a.file s.1 n with
        | none => rw [hf] at h1; exact nomatch (show some DbErr.missing = none from h1)
        | some f => exact ⟨f, rfl, rfl⟩
      · refine h.imp (fun h => ?_) (fun ⟨f, hf, e'⟩ => ⟨f, hf, ?_⟩)
        · rcases List.mem_cons.1 h with h | h
          · cases h
            exact absurd rfl e
          · exact h
        · rw [← e']
          unfold Load.run
          dsimp only
          exact Function.update_of_ne (fun e' => e e'.symm) _ _

theorem runLoads_append (a : Archive τ κ β γ) : ∀ (l l' : List Load) (db : Db τ κ β γ), (runLoads a (l ++ l') db).2 = none →
    (runLoads a (l ++ l') db).1 = (runLoads a l' (runLoads a l db).1).1 ∧ (runLoads a l' (runLoads a l db).1).2 = none
  | [], _, _, h => ⟨rfl, h⟩
  | x :: l, l', db, h => by
    obtain ⟨h1, h2, h3⟩ := runLoads_error a x (l ++ l') db h
    obtain ⟨h4, h5⟩ := runLoads_append a l l' (x.run a db).1 h3
    have h6 : (runLoads a (x :: l) db).1 = (runLoads a l (x.run a db).1).1 := by
      conv => lhs; unfold runLoads
      revert h1
      generalize x.run a db = p
      obtain ⟨p1, p2⟩ := p
      intro h1
      cases h1
      rfl
    rw [h6]
    exact ⟨h2.trans h4, h5⟩

theorem runLoads_history_frame (a : Archive τ κ β γ) (t : String) : ∀ (ls : List Load) (db : Db τ κ β γ),
    (∀ s n, Load.history s n ∈ ls → s.1 ≠ t) → (runLoads a ls db).1.history t = db.history t
  | [], _, _ => rfl
  | l :: ls, db, h => by
    have h1 : (l.run a db).1.history t = db.history t := by
      cases l with
      | add s n =>
        unfold Load.run
        dsimp only
        cases addData (db.dispatch s) (a.dispatch s n) <;> rfl
      | set s n => rfl
      | history s n => exact Function.update_of_ne (fun e => h s n List.mem_cons_self e.symm) _ _
    rw [← h1]
    unfold runLoads
    generalize l.run a db = p
    obtain ⟨p1, p2⟩ := p
    cases p2 with
    | some e => rfl
    | none => exact runLoads_history_frame a t ls p1 (fun s n hs => h s n (List.mem_cons_of_mem _ hs))

theorem runLoads_history (a : Archive τ κ β γ) (t : String × List String × List String) (m : ℕ × ℕ) (pre post : List Load)
    (db : Db τ κ β γ) (h : (runLoads a (pre ++ .history t m :: post) db).2 = none)
    (h1 : ∀ s n, Load.history s n ∈ pre → s.1 ≠ t.1) (h2 : ∀ s n, Load.history s n ∈ post → s.1 ≠ t.1) :
    (runLoads a (pre ++ .history t m :: post) db).1.history t.1 =
      setHistory (rowKey t.2.2) (fun m => usedMonth t.2.1 (a.file t.1 m)) m.1 m.2 (db.history t.1) := by
  obtain ⟨h3, h4⟩ := runLoads_append a pre _ db h
  obtain ⟨-, h5, -⟩ := runLoads_error a _ post _ h4
  rw [h3, h5, runLoads_history_frame a t.1 post _ h2]
  unfold Load.run
  dsimp only
  rw [Function.update_self, runLoads_history_frame a t.1 pre _ h1]

theorem populate_history (a : Archive τ κ β γ) (sy sm ey em : ℕ) (db : Db τ κ β γ) (h : (populateAll a sy sm ey em db).2 = none)
    {t : String × List String × List String} (ht : t ∈ historyTables) :
    (populateAll a sy sm ey em db).1.history t.1 =
      setHistory (rowKey t.2.2) (fun m => usedMonth t.2.1 (a.file t.1 m)) ey em [] := by
  have h0 : (createTables db).history t.1 = [] := by simp only [createTables, if_pos (List.mem_map_of_mem ht)]
  have hadd : ∀ s n, Load.history s n ∉ (populateMonths sy sm ey em).flatMap (fun m => addOrder.map (fun t => Load.add t m)) := by
    intro s n hs
    obtain ⟨m, -, hm⟩ := List.mem_flatMap.1 hs
    obtain ⟨t, -, e⟩ := List.mem_map.1 hm
    cases e
  have key : ∀ (p q : List Load), lastLoads (ey, em) = p ++ Load.history t (ey, em) :: q →
      (∀ s n, Load.history s n ∈ p ++ q → s.1 ≠ t.1) →
      (populateAll a sy sm ey em db).1.history t.1 =
        setHistory (rowKey t.2.2) (fun m => usedMonth t.2.1 (a.file t.1 m)) ey em [] := by
    intro p q e hpq
    unfold populateAll populateLoads at h ⊢
    rw [e, ← List.append_assoc] at h ⊢
    rw [runLoads_history a t (ey, em) _ q (createTables db) h, h0]
    · intro s n hs
      rcases List.mem_append.1 hs with hs | hs
      · exact absurd hs (hadd s n)
      · exact hpq s n (List.mem_append_left _ hs)
    · intro s n hs
      exact hpq s n (List.mem_append_right _ hs)
  have hex : ∃ i, i < 12 ∧ (lastLoads (ey, em))[i]? = some (Load.history t (ey, em)) ∧
      ∀ s n, Load.history s n ∈ (lastLoads (ey, em)).take i ++ (lastLoads (ey, em)).drop (i + 1) → s.1 ≠ t.1 := by
    unfold historyTables at ht
    simp only [List.mem_cons, List.not_mem_nil, or_false] at ht
    rcases ht with rfl | rfl | rfl | rfl
    · refine ⟨5, by decide, rfl, ?_⟩
      intro s n hs
      simp [lastLoads] at hs
      rcases hs with ⟨rfl, -⟩ | ⟨rfl, -⟩ | ⟨rfl, -⟩ <;> decide
    · refine ⟨7, by decide, rfl, ?_⟩
      intro s n hs
      simp [lastLoads] at hs
      rcases hs with ⟨rfl, -⟩ | ⟨rfl, -⟩ | ⟨rfl, -⟩ <;> decide
    · refine ⟨6, by decide, rfl, ?_⟩
      intro s n hs
      simp [lastLoads] at hs
      rcases hs with ⟨rfl, -⟩ | ⟨rfl, -⟩ | ⟨rfl, -⟩ <;> decide
    · refine ⟨8, by decide, rfl, ?_⟩
      intro s n hs
      simp [lastLoads] at hs
      rcases hs with ⟨rfl, -⟩ | ⟨rfl, -⟩ | ⟨rfl, -⟩ <;> decide
  obtain ⟨i, -, hi, hs⟩ := hex
  refine key _ _ ?_ hs
  obtain ⟨hlt, hi⟩ := List.getElem?_eq_some_iff.1 hi
  rw [← hi, ← List.drop_eq_getElem_cons hlt, List.take_append_drop]

theorem set_mem {t : String × List String} (ht : t ∈ monthTables) (sy sm ey em : ℕ) :
    Load.set t (ey, em) ∈ populateLoads sy sm ey em := by
  refine List.mem_append_right _ ?_
  unfold monthTables at ht
  simp only [List.mem_cons, List.not_mem_nil, or_false] at ht
  rcases ht with rfl | rfl | rfl | rfl | rfl | rfl | rfl <;> simp [lastLoads, monthTable, monthTables]

theorem set_unique {t : String × List String} (ht : t ∈ monthTables) {sy sm ey em : ℕ} {s : String × List String} {n : ℕ × ℕ}
    (hs : Load.set s n ∈ populateLoads sy sm ey em) (e : s.1 = t.1) : s = t ∧ n = (ey, em) := by
  refine ⟨?_, ?_⟩
  · have hnd : (monthTables.map Prod.fst).Nodup := by decide
    exact List.inj_on_of_nodup_map hnd (populateLoads_default sy sm ey em _ hs) ht e
  · rcases List.mem_append.1 hs with hs | hs
    · obtain ⟨m, -, hm⟩ := List.mem_flatMap.1 hs
      obtain ⟨t, -, e⟩ := List.mem_map.1 hm
      cases e
    · simp [lastLoads] at hs
      rcases hs with ⟨-, h⟩ | ⟨-, h⟩ | ⟨-, h⟩ | ⟨-, h⟩ | ⟨-, h⟩ | ⟨-, h⟩ | ⟨-, h⟩ | ⟨-, h⟩ <;> exact h

omit [DecidableEq τ] [DecidableEq κ] [DecidableEq γ] in
theorem inMonth_iff (a : Archive τ κ β γ) (t : String) (columns : List String) (m : ℕ × ℕ) (row : List (String × γ)) :
    InMonth a t columns m row ↔ ∃ d, usedMonth columns (a.file t m) = some d ∧ row ∈ d := by
  unfold InMonth usedMonth
  cases a.file t m with
  | none => simp
  | some f =>
    have hc : hasColumns columns f.columns = true ↔ (∀ c ∈ columns, c ∈ f.columns) ∧ ∃ c ∈ f.columns, c ∉ columns := by
      unfold hasColumns
      simp
    dsimp only
    by_cases h : hasColumns columns f.columns = true
    · rw [if_pos h]
      obtain ⟨h1, h2⟩ := hc.1 h
      simp only [Option.some.injEq, exists_eq_left', List.mem_map]
      constructor
      · rintro ⟨-, -, r, hr, rfl⟩; exact ⟨r, hr, rfl⟩
      · rintro ⟨r, hr, rfl⟩; exact ⟨h1, h2, r, hr, rfl⟩
    · rw [if_neg h]
      simp only [Option.some.injEq, exists_eq_left', reduceCtorEq, false_and, exists_false, iff_false]
      rintro ⟨h1, h2, -⟩
      exact h (hc.2 ⟨h1, h2⟩)

/-- **C117** When `populate` returns, every table is complete, whatever was there before.

* Dispatch tables have exactly the rows of the files of the months from the one before the start to the end.
* Tables of one month have the rows of the file of the last month, with all their columns.
* Tables of history have a row exactly if it is in a readable file since 2010 and no newer readable file has its key. -/
theorem C117_complete (a : Archive τ κ β γ) {sy sm ey em : ℕ} (db : Db τ κ β γ) (hs : ValidMonth (sy, sm))
    (he : ValidMonth (ey, em)) (hy : 1 ≤ sy) (hle : monthIndex (sy, sm) ≤ monthIndex (ey, em))
    (h : (populateAll a sy sm ey em db).2 = none) :
    (∀ t ∈ dispatchTables, ∀ r, r ∈ (populateAll a sy sm ey em db).1.dispatch t ↔
      ∃ m, ValidMonth m ∧ monthIndex (sy, sm) ≤ monthIndex m + 1 ∧ monthIndex m ≤ monthIndex (ey, em) ∧
        ∃ file, a.dispatch t m = some file ∧ FirstInFile file r) ∧
    (∀ t ∈ monthTables, ∃ f, a.file t.1 (ey, em) = some f ∧
      List.Forall₂ (fun r row => row.map Prod.fst = t.2 ∧
        ∀ c v, (c, v) ∈ row → (c ∈ f.columns → v = some (r c)) ∧ (c ∉ f.columns → v = none))
        f.rows ((populateAll a sy sm ey em db).1.month t.1)) ∧
    (∀ t ∈ historyTables, ∀ row, row ∈ (populateAll a sy sm ey em db).1.history t.1 ↔
      ∃ m, ValidMonth m ∧ 2010 ≤ m.1 ∧ monthIndex m ≤ monthIndex (ey, em) ∧ InMonth a t.1 t.2.1 m row ∧
        ∀ n, ValidMonth n → monthIndex m < monthIndex n → monthIndex n ≤ monthIndex (ey, em) →
          ∀ q, InMonth a t.1 t.2.1 n q → ¬ SameKey t.2.2 q row) := by
  refine ⟨fun t ht r => ?_, fun t ht => ?_, fun t ht row => ?_⟩
  · obtain ⟨k, h1, h2⟩ := runLoads_dispatch a t (populateLoads sy sm ey em) (createTables db)
    rw [h2 h, monthsOf_populate ht, List.take_length,
      show (createTables db).dispatch t = [] by simp only [createTables, if_pos ht]] at h1
    refine ((addMonths_ok h1 (by simp)).1 r).trans ?_
    simp only [List.not_mem_nil, false_or]
    constructor
    · rintro ⟨m, hm, f⟩
      obtain ⟨a1, b, c⟩ := ((C69_months hs he hy hle).1 m).1 hm
      exact ⟨m, a1, b, c, f⟩
    · rintro ⟨m, a1, b, c, f⟩
      exact ⟨m, ((C69_months hs he hy hle).1 m).2 ⟨a1, b, c⟩, f⟩
  · obtain ⟨f, hf, e⟩ := runLoads_month a t (ey, em) (populateLoads sy sm ey em) (createTables db) h
      (fun s n hs e => set_unique ht hs e) (.inl (set_mem ht sy sm ey em))
    refine ⟨f, hf, ?_⟩
    show List.Forall₂ _ f.rows ((runLoads a (populateLoads sy sm ey em) (createTables db)).1.month t.1)
    rw [e]
    unfold fitColumns
    rw [List.forall₂_map_right_iff]
    refine List.forall₂_same.2 (fun r _ => ⟨?_, ?_⟩)
    · rw [List.map_map]
      exact List.map_id _
    · intro c v hcv
      obtain ⟨c', -, e'⟩ := List.mem_map.1 hcv
      cases e'
      exact ⟨fun hc => if_pos hc, fun hc => if_neg hc⟩
  · rw [populate_history a sy sm ey em db h ht]
    unfold setHistory
    have hrows : row ∈ histLoad (rowKey t.2.2) ((historyMonths ey em).map (fun m => usedMonth t.2.1 (a.file t.1 m))) [] ↔
        ∃ newer d older, (historyMonths ey em).map (fun m => usedMonth t.2.1 (a.file t.1 m)) = newer ++ some d :: older ∧ row ∈ d ∧
          ∀ d', some d' ∈ newer → ∀ q ∈ d', rowKey t.2.2 q ≠ rowKey t.2.2 row := by
      by_cases hex : ∃ d, some d ∈ (historyMonths ey em).map (fun m => usedMonth t.2.1 (a.file t.1 m))
      · exact C68_rows _ _ _ hex row
      · rw [C68_none]
        · simp only [List.not_mem_nil, false_iff]
          rintro ⟨newer, d, older, e, -⟩
          exact hex ⟨d, by rw [e]; simp⟩
        · intro x hx
          cases x with
          | none => rfl
          | some d => exact absurd ⟨d, hx⟩ hex
    rw [hrows]
    obtain ⟨hm1, hm2⟩ := C68_months ey em
    have hidx : ∀ m, ValidMonth m → (monthIndex m ≤ monthIndex (ey, em) ↔ (m.1 < ey ∨ (m.1 = ey ∧ m.2 ≤ em))) := by
      intro m hm
      unfold ValidMonth at hm he
      unfold monthIndex
      dsimp only at he ⊢
      omega
    constructor
    · rintro ⟨newer, d, older, e, hd, hnew⟩
      obtain ⟨n1, n2, e1, e2, e3⟩ := List.map_eq_append_iff.1 e
      obtain ⟨m, n3, rfl, e4, e5⟩ := List.map_eq_cons_iff.1 e3
      obtain ⟨v1, v2, v3⟩ := (hm1 m).1 (by rw [e1]; simp)
      refine ⟨m, v1, v2, (hidx m v1).2 v3, (inMonth_iff a t.1 t.2.1 m row).2 ⟨d, e4, hd⟩, fun n w1 w2 w3 q hq hk => ?_⟩
      obtain ⟨d', hd', hq'⟩ := (inMonth_iff a t.1 t.2.1 n q).1 hq
      have hn : n ∈ historyMonths ey em := by
        refine (hm1 n).2 ⟨w1, ?_, (hidx n w1).1 w3⟩
        unfold ValidMonth at v1 w1
        unfold monthIndex at w2
        omega
      rw [e1] at hn hm2
      rcases List.mem_append.1 hn with hn | hn
      · refine hnew d' ?_ q hq' hk
        rw [← e2, ← hd']
        exact List.mem_map_of_mem hn
      · rcases List.mem_cons.1 hn with rfl | hn
        · omega
        · have := (List.pairwise_cons.1 (List.pairwise_append.1 hm2).2.1).1 n hn
          omega
    · rintro ⟨m, v1, v2, v3, hin, hnew⟩
      obtain ⟨d, hd, hr⟩ := (inMonth_iff a t.1 t.2.1 m row).1 hin
      obtain ⟨n1, n3, e1⟩ := List.append_of_mem ((hm1 m).2 ⟨v1, v2, (hidx m v1).1 v3⟩)
      refine ⟨n1.map (fun m => usedMonth t.2.1 (a.file t.1 m)), d, n3.map (fun m => usedMonth t.2.1 (a.file t.1 m)), ?_, hr, ?_⟩
      · rw [e1, List.map_append, List.map_cons, hd]
      · intro d' hd' q hq hk
        obtain ⟨n, hn, e⟩ := List.mem_map.1 hd'
        have hn' : n ∈ historyMonths ey em := by rw [e1]; exact List.mem_append_left _ hn
        obtain ⟨w1, -, w3⟩ := (hm1 n).1 hn'
        rw [e1] at hm2
        refine hnew n w1 ((List.pairwise_append.1 hm2).2.2 n hn m List.mem_cons_self) ((hidx n w1).2 w3) q
          ((inMonth_iff a t.1 t.2.1 n q).2 ⟨d', e, hq⟩) hk

/-! ### When it succeeds -/

theorem runLoads_ok (a : Archive τ κ β γ) : ∀ (ls : List Load) (db : Db τ κ β γ),
    (∀ t, ∃ r, addMonths (a.dispatch t) (monthsOf t ls) (db.dispatch t) = .ok r) →
    (∀ s n, Load.set s n ∈ ls → ∃ f, a.file s.1 n = some f) → (runLoads a ls db).2 = none
  | [], _, _, _ => rfl
  | .add s m :: ls, db, h, hf => by
    unfold runLoads Load.run
    dsimp only
    obtain ⟨r, hr⟩ := h s
    have hm : monthsOf s (.add s m :: ls) = m :: monthsOf s ls := by simp [monthsOf]
    rw [hm] at hr
    unfold addMonths at hr
    cases ha : addData (db.dispatch s) (a.dispatch s m) with
    | error e => rw [ha] at hr; cases hr
    | ok rows =>
      rw [ha] at hr
      dsimp only
      refine runLoads_ok a ls _ (fun t => ?_) (fun s n hs => hf s n (List.mem_cons_of_mem _ hs))
      dsimp only
      by_cases e : t = s
      · rw [e, Function.update_self]
        exact ⟨r, hr⟩
      · rw [Function.update_of_ne e]
        have hm : monthsOf t (.add s m :: ls) = monthsOf t ls := by
          have e2 : ¬ s = t := fun e' => e e'.symm
          simp [monthsOf, e2]
        rw [← hm]
        exact h t
  | .set s m :: ls, db, h, hf => by
    obtain ⟨f, e⟩ := hf s m List.mem_cons_self
    unfold runLoads Load.run
    dsimp only
    rw [e]
    exact runLoads_ok a ls _ h (fun s n hs => hf s n (List.mem_cons_of_mem _ hs))
  | .history s m :: ls, db, h, hf => by
    unfold runLoads Load.run
    dsimp only
    exact runLoads_ok a ls _ h (fun s n hs => hf s n (List.mem_cons_of_mem _ hs))

/-- **C117** `populate` returns without an exception exactly if the archive has the files of all months of all dispatch tables, with no
key in two months of a table, and the files of the last month of the tables of one month.  (Months missing for tables of history are
skipped.) -/
theorem C117_succeeds (a : Archive τ κ β γ) (sy sm ey em : ℕ) (db : Db τ κ β γ) :
    (populateAll a sy sm ey em db).2 = none ↔
      (∀ t ∈ dispatchTables, (∀ m ∈ populateMonths sy sm ey em, ∃ file, a.dispatch t m = some file) ∧
        (populateMonths sy sm ey em).Pairwise (fun m n => ∀ f g, a.dispatch t m = some f → a.dispatch t n = some g →
          ∀ q r, FirstInFile f q → FirstInFile g r → ¬(q.time = r.time ∧ q.id = r.id))) ∧
      ∀ t ∈ monthTables, ∃ f, a.file t.1 (ey, em) = some f := by
  constructor
  · intro h
    refine ⟨fun t ht => ?_, fun t ht => ?_⟩
    · obtain ⟨k, h1, h2⟩ := runLoads_dispatch a t (populateLoads sy sm ey em) (createTables db)
      rw [h2 h, monthsOf_populate ht, List.take_length,
        show (createTables db).dispatch t = [] by simp only [createTables, if_pos ht]] at h1
      exact (C77_succeeds []).1 ⟨_, h1⟩
    · obtain ⟨f, hf, -⟩ := runLoads_month a t (ey, em) (populateLoads sy sm ey em) (createTables db) h
        (fun s n hs e => set_unique ht hs e) (.inl (set_mem ht sy sm ey em))
      exact ⟨f, hf⟩
  · rintro ⟨h1, h2⟩
    refine runLoads_ok a _ _ (fun t => ?_) (fun s n hs => ?_)
    · by_cases ht : t ∈ dispatchTables
      · rw [monthsOf_populate ht, show (createTables db).dispatch t = [] by simp only [createTables, if_pos ht]]
        exact (C77_succeeds (sy := sy) (sm := sm) (ey := ey) (em := em) []).2 (h1 t ht)
      · have : monthsOf t (populateLoads sy sm ey em) = [] := by
          unfold monthsOf
          rw [List.filterMap_eq_nil_iff]
          intro l hl
          have hd := populateLoads_default sy sm ey em l hl
          cases l with
          | add s m =>
            dsimp only
            exact if_neg fun e => ht (by rw [← e]; exact hd)
          | set s m => rfl
          | history s m => rfl
        rw [this]
        exact ⟨_, rfl⟩
    · have hd : s ∈ monthTables := populateLoads_default sy sm ey em _ hs
      rw [(set_unique hd hs rfl).2]
      exact h2 s hd

end

/-! ### Examples for C117 -/

/-- An archive: every dispatch table has a row for each month and one of an intervention run, the other tables have a row of the
month with the columns of the table and one more.  `DISPATCHLOAD` of February 2020 may be missing. -/
def demoArchive (whole : Bool) : Archive ℕ String ℕ ℕ where
  dispatch := fun t m =>
    if t = "DISPATCHLOAD" ∧ m = (2020, 2) ∧ whole = false then none
    else some [⟨some 0, ⟨monthIndex m, "A", 1⟩⟩, ⟨some 1, ⟨monthIndex m, "A", 2⟩⟩]
  file := fun t m =>
    if m.1 < 2020 then none
    else some ⟨"MORE" :: ((monthTables.find? (fun x => x.1 = t)).map Prod.snd).getD [] ++
      ((historyTables.find? (fun x => x.1 = t)).map (fun x => x.2.1)).getD [], [fun c => if c = "VERSIONNO" then m.2 else 7]⟩

/-- A database with other data -/
def demoDb : Db ℕ String ℕ ℕ := ⟨fun _ => [⟨0, "X", 0⟩], fun _ => [[("Y", none)]], fun _ => [[("Z", 0)]]⟩

/-- `populate` from February to March 2020 works and fills all tables; other tables stay. -/
example : (populateAll (demoArchive true) 2020 2 2020 3 demoDb).2 = none ∧
    (∀ t ∈ dispatchTables, (populateAll (demoArchive true) 2020 2 2020 3 demoDb).1.dispatch t =
      [⟨24241, "A", 1⟩, ⟨24242, "A", 1⟩, ⟨24243, "A", 1⟩]) ∧
    (populateAll (demoArchive true) 2020 2 2020 3 demoDb).1.month "INTERCONNECTOR" =
      [[("INTERCONNECTORID", some 7), ("REGIONFROM", some 7), ("REGIONTO", some 7)]] ∧
    ((populateAll (demoArchive true) 2020 2 2020 3 demoDb).1.history "GENCONDATA").map (rowKey ["VERSIONNO"]) =
      [[("VERSIONNO", 3)], [("VERSIONNO", 2)], [("VERSIONNO", 1)]] ∧
    (populateAll (demoArchive true) 2020 2 2020 3 demoDb).1.dispatch "MINE" = [⟨0, "X", 0⟩] := by decide +kernel

/-- With a file missing it raises.  The tables filled before the exception have two months, the others one; called again with the
whole archive, everything is there. -/
example : (populateAll (demoArchive false) 2020 2 2020 3 demoDb).2 = some .missing ∧
    (populateAll (demoArchive false) 2020 2 2020 3 demoDb).1 = brokenOff (demoArchive false) 2020 2 2020 3 8 demoDb ∧
    ((brokenOff (demoArchive false) 2020 2 2020 3 7 demoDb).dispatch "DISPATCHREGIONSUM").length = 2 ∧
    ((brokenOff (demoArchive false) 2020 2 2020 3 7 demoDb).dispatch "DISPATCHPRICE").length = 1 ∧
    (populateAll (demoArchive true) 2020 2 2020 3 (brokenOff (demoArchive false) 2020 2 2020 3 7 demoDb)).2 = none := by
  refine ⟨by decide +kernel, rfl, by decide +kernel, by decide +kernel, by decide +kernel⟩

/-! ### C118: addresses -/

theorem split_at {c : Char} : ∀ {u u' v v' : List Char}, c ∉ u → c ∉ u' → u ++ c :: v = u' ++ c :: v' → u = u' ∧ v = v'
  | [], [], _, _, _, _, h => ⟨rfl, (List.cons.inj h).2⟩
  | [], x :: u', _, _, _, h', h => absurd (List.cons.inj h).1 (fun e => h' (by rw [e]; exact List.mem_cons_self))
  | x :: u, [], _, _, h', _, h => absurd (List.cons.inj h).1 (fun e => h' (by rw [← e]; exact List.mem_cons_self))
  | x :: u, y :: u', v, v', h1, h2, h => by
    obtain ⟨e, h⟩ := List.cons.inj h
    obtain ⟨e1, e2⟩ := split_at (fun hc => h1 (List.mem_cons_of_mem _ hc)) (fun hc => h2 (List.mem_cons_of_mem _ hc)) h
    exact ⟨by rw [e, e1], e2⟩

theorem slash_not_digit (n : ℕ) : '/' ∉ Nat.toDigits 10 n := by
  intro h
  exact absurd (Nat.isDigit_of_mem_toDigits (by decide) (by decide) h) (by decide)

theorem slash_not_zfill (w n : ℕ) : '/' ∉ zfill w n := by
  unfold zfill
  intro h
  rcases List.mem_append.1 h with h | h
  · exact absurd (List.eq_of_mem_replicate h) (by decide)
  · exact slash_not_digit n h

theorem digits_inj {m n : ℕ} (h : Nat.toDigits 10 m = Nat.toDigits 10 n) : m = n := by
  rw [← Nat.ofDigitChars_ten_toDigits (n := m), h, Nat.ofDigitChars_ten_toDigits]

/-- **C118** Different tables, years or months have different addresses, so no month is filled with the file of another month or
table. -/
theorem C118_own_address {t t' : Name} {y y' m m' : ℕ} (h : url t y m = url t' y' m') : t = t' ∧ y = y' ∧ m = m' := by
  unfold url at h
  have h1 := List.append_cancel_left h
  obtain ⟨e1, h2⟩ := split_at (slash_not_digit y) (slash_not_digit y') h1
  have hy := digits_inj e1
  subst hy
  have h3 := List.append_cancel_left (List.append_cancel_left (as := "MMSDM_".toList) h2)
  have h4 := List.append_cancel_left h3
  obtain ⟨e2, h5⟩ := split_at (slash_not_zfill 2 m) (slash_not_zfill 2 m') h4
  have hm := zfill_inj e2
  subst hm
  refine ⟨?_, rfl, rfl⟩
  have h6 := List.append_cancel_left (as := "MMSDM_Historical_Data_SQLLoader/DATA/".toList) h5
  by_cases hc : y > 2024 ∨ (y = 2024 ∧ m ≥ 8)
  · rw [if_pos hc, if_pos hc] at h6
    exact List.append_cancel_right (List.append_cancel_left h6)
  · rw [if_neg hc, if_neg hc] at h6
    exact List.append_cancel_right (List.append_cancel_left h6)

/-- **C118** Files until July 2024 have names with `DVD`, later ones names with `ARCHIVE`. -/
theorem C118_format (t : Name) (y m : ℕ) (hm : m ≤ 12) :
    url t y m = "http://nemweb.com.au/Data_Archive/Wholesale_Electricity/MMSDM/".toList ++ (toString y).toList ++ "/MMSDM_".toList ++
      (toString y).toList ++ "_".toList ++ (if m < 10 then "0".toList else []) ++ (toString m).toList ++
      "/MMSDM_Historical_Data_SQLLoader/DATA/".toList ++
      (if monthIndex (y, m) < monthIndex (2024, 8) then "PUBLIC_DVD_".toList ++ t ++ "_".toList
        else "PUBLIC_ARCHIVE%23".toList ++ t ++ "%23FILE01%23".toList) ++
      (toString y).toList ++ (if m < 10 then "0".toList else []) ++ (toString m).toList ++ "010000.zip".toList := by
  have hd : ∀ n : ℕ, (toString n).toList = Nat.toDigits 10 n := fun n => by
    rw [Nat.toString_eq_repr, Nat.repr, String.toList_ofList]
  have hz : zfill 2 m = (if m < 10 then "0".toList else []) ++ Nat.toDigits 10 m := by
    revert m
    decide
  rw [hd, hd]
  unfold url
  rw [hz]
  by_cases hc : y > 2024 ∨ (y = 2024 ∧ m ≥ 8)
  · rw [if_pos hc, if_neg (show ¬ monthIndex (y, m) < monthIndex (2024, 8) by unfold monthIndex; dsimp only; omega)]
    simp only [List.append_assoc]
  · rw [if_neg hc, if_pos (show monthIndex (y, m) < monthIndex (2024, 8) by unfold monthIndex; dsimp only; omega)]
    simp only [List.append_assoc]

example : String.ofList (url "DISPATCHLOAD".toList 2024 7) = "http://nemweb.com.au/Data_Archive/Wholesale_Electricity/MMSDM/2024/MMSDM_2024_07/MMSDM_Historical_Data_SQLLoader/DATA/PUBLIC_DVD_DISPATCHLOAD_202407010000.zip" ∧
    String.ofList (url "DISPATCHLOAD".toList 2024 10) = "http://nemweb.com.au/Data_Archive/Wholesale_Electricity/MMSDM/2024/MMSDM_2024_10/MMSDM_Historical_Data_SQLLoader/DATA/PUBLIC_ARCHIVE%23DISPATCHLOAD%23FILE01%23202410010000.zip" := by
  decide +kernel

end Verif.Mms
