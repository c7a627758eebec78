import Verif.Spec.RhsInit
import Verif.Proofs.RhsCalc
import Mathlib.Data.List.Induction

/-! Helper lemmas about the initialisation of the right hand side calculator. -/

namespace Verif.Rpn

open Verif.Xml (Coll)

theorem lastOf_nil {α : Type} (id : String) : lastOf ([] : List (String × α)) id = none := rfl

theorem lastOf_append {α : Type} (l : List (String × α)) (e : String × α) (id : String) :
    lastOf (l ++ [e]) id = if e.1 = id then some e.2 else lastOf l id := by
  unfold lastOf
  by_cases h : e.1 = id <;> simp [h]

theorem lastOf_append_list {α : Type} (l r : List (String × α)) (id : String) :
    lastOf (l ++ r) id = (lastOf r id).or (lastOf l id) := by
  induction r using List.reverseRecOn with
  | nil => simp [lastOf_nil]
  | append_singleton r e ih =>
    rw [← List.append_assoc, lastOf_append, lastOf_append, ih]
    split <;> simp

theorem get?_set (κ α : Type) [DecidableEq κ] (d : Dict κ α) (k k' : κ) (v : α) :
    (d.set k v).get? k' = if k = k' then some v else d.get? k' := by
  by_cases h : k = k'
  · subst h; simp
  · rw [Dict.get?_set_ne _ _ h, if_neg h]

theorem lastValues_get? (l : List (String × ℚ)) (id : String) : (lastValues l).get? id = lastOf l id := by
  unfold lastValues
  induction l using List.reverseRecOn with
  | nil => rfl
  | append_singleton l e ih => rw [List.foldl_append, List.foldl_cons, List.foldl_nil, get?_set, ih, lastOf_append]

theorem formatEquations_get? (l : List EqElement) (id : String) : (formatEquations l).get? id = lastOf (equationsIn l) id := by
  unfold formatEquations
  induction l using List.reverseRecOn with
  | nil => rfl
  | append_singleton l e ih =>
    rw [List.foldl_append, List.foldl_cons, List.foldl_nil]
    unfold equationsIn
    rw [List.filterMap_append]
    cases h : e.terms with
    | none =>
      have e1 : addEquation (List.foldl addEquation [] l) e = List.foldl addEquation [] l := by simp [addEquation, h]
      rw [e1, ih]
      simp [h, equationsIn]
    | some c =>
      have e1 : addEquation (List.foldl addEquation [] l) e = (List.foldl addEquation [] l).set e.id c.items := by simp [addEquation, h]
      rw [e1]
      have : List.filterMap (fun e : EqElement => e.terms.map (fun c => (e.id, c.items))) [e] = [(e.id, c.items)] := by simp [h]
      rw [this, lastOf_append, get?_set, ih]
      rfl

/-- The values with an id in a list of measurements. -/
def valuesOf (l : List (String × ℚ)) (id : String) : List ℚ := l.filterMap (fun e => if e.1 = id then some e.2 else none)

/-- The first value and the others. -/
def split1 : List ℚ → Option (ℚ × List ℚ)
  | [] => none
  | v :: vs => some (v, vs)

theorem addEntry_get? (d : Dict String (ℚ × List ℚ)) (e : String × ℚ) (id : String) (l : List ℚ) (h : d.get? id = split1 l) :
    (addEntry d e).get? id = split1 (l ++ (if e.1 = id then [e.2] else [])) := by
  unfold addEntry
  by_cases he : e.1 = id
  · subst he
    rw [if_pos rfl, h]
    cases l with
    | nil => simp [split1]
    | cons v vs => simp [split1]
  · rw [if_neg he, List.append_nil]
    cases hg : Dict.get? d e.1 with
    | none => simp only []; rw [Dict.get?_set_ne _ _ he, h]
    | some p => simp only []; rw [Dict.get?_set_ne _ _ he, h]

theorem foldl_addEntry (r : List (String × ℚ)) : ∀ (d : Dict String (ℚ × List ℚ)) (id : String) (l : List ℚ), d.get? id = split1 l →
    (r.foldl addEntry d).get? id = split1 (l ++ valuesOf r id) := by
  induction r with
  | nil => intro d id l h; simpa [valuesOf] using h
  | cons e r ih =>
    intro d id l h
    rw [List.foldl_cons, ih _ id _ (addEntry_get? d e id l h)]
    unfold valuesOf
    by_cases he : e.1 = id <;> simp [he]

theorem scadaOf_get? (s : ScadaSet) (id : String) : (scadaOf s).get? id = split1 (valuesOf s.all id) := by
  unfold scadaOf ScadaSet.all
  cases s.bad with
  | none =>
    simp only [List.append_nil]
    simpa using foldl_addEntry s.good.items [] id [] rfl
  | some b =>
    simp only []
    rw [foldl_addEntry b.items _ id _ (foldl_addEntry s.good.items [] id [] rfl)]
    simp [valuesOf]

theorem nodup_reformat (l : List ScadaSet) : (reformatScada l).NodupKeys := by
  unfold reformatScada
  induction l using List.reverseRecOn with
  | nil => exact List.nodup_nil
  | append_singleton l s ih => rw [List.foldl_append]; exact ih.set _ _

theorem get?_append {κ α : Type} [DecidableEq κ] (d d' : Dict κ α) (k : κ) : Dict.get? (d ++ d') k = (d.get? k).or (d'.get? k) := by
  induction d with
  | nil => rfl
  | cons e d ih =>
    simp only [List.cons_append, Dict.get?]
    split
    · simp
    · exact ih

theorem get?_pairs (typ : SpdType) (d : Dict String (ℚ × List ℚ)) (t : SpdType) (id : String) :
    Dict.get? (d.map (fun q => ((typ, q.1), q.2))) (t, id) = if typ = t then d.get? id else none := by
  induction d with
  | nil => simp [Dict.get?]
  | cons e d ih =>
    simp only [List.map_cons, Dict.get?, Prod.mk.injEq, ih]
    by_cases h : typ = t <;> simp [h]

theorem get?_flat (d : Dict SpdType (Dict String (ℚ × List ℚ))) (hd : d.NodupKeys) (t : SpdType) (id : String) :
    (flatScada d).get? (t, id) = (d.get? t).bind (fun e => e.get? id) := by
  induction d with
  | nil => rfl
  | cons e d ih =>
    have hd' : (d.map (·.1)).Nodup := (List.nodup_cons.1 hd).2
    have hn : e.1 ∉ d.map (·.1) := (List.nodup_cons.1 hd).1
    have hf : flatScada (e :: d) = e.2.map (fun q => ((e.1, q.1), q.2)) ++ flatScada d := rfl
    rw [hf, get?_append, get?_pairs, ih hd']
    simp only [Dict.get?]
    by_cases h : e.1 = t
    · have : Dict.get? d t = none := by
        cases hg : Dict.get? d t with
        | none => rfl
        | some v => exact absurd (List.mem_map.2 ⟨_, Dict.mem_of_get? hg, rfl⟩) (h ▸ hn)
      simp [h, this]
    · simp [h]

theorem reformat_get? (l : List ScadaSet) (t : SpdType) :
    (reformatScada l).get? t = ((l.filter (fun s => s.typ = t)).getLast?).map scadaOf := by
  unfold reformatScada
  induction l using List.reverseRecOn with
  | nil => rfl
  | append_singleton l s ih =>
    rw [List.foldl_append, List.foldl_cons, List.foldl_nil, get?_set, ih, List.filter_append]
    by_cases h : s.typ = t <;> simp [h]

/-- With different types in the file the measurements of a type are in one element. -/
theorem measurements_of (f : RhsFile) (hn : (f.scada.map (·.typ)).Nodup) (t : SpdType) (id : String) :
    f.measurements t id = (((f.scada.filter (fun s => s.typ = t)).getLast?).elim [] (fun s => valuesOf s.all id)) := by
  unfold RhsFile.measurements
  generalize f.scada = l at hn
  induction l with
  | nil => rfl
  | cons s l ih =>
    have hl := ih (List.nodup_cons.1 hn).2
    by_cases h : s.typ = t
    · have hnone : l.filter (fun s => s.typ = t) = [] := by
        rw [List.filter_eq_nil_iff]
        intro s' hs'
        have : s'.typ ≠ t := fun hc => (List.nodup_cons.1 hn).1 (List.mem_map.2 ⟨s', hs', hc.trans h.symm⟩)
        simpa using this
      have hflat : (l.flatMap fun s => if s.typ = t then s.all else []) = [] := by
        rw [List.flatMap_eq_nil_iff]
        intro s' hs'
        have : s' ∉ l.filter (fun s => s.typ = t) := by rw [hnone]; simp
        rw [if_neg (fun hc => this (List.mem_filter.2 ⟨hs', by simpa using hc⟩))]
      rw [List.flatMap_cons, hflat, List.filter_cons, hnone]
      simp [h, valuesOf]
    · rw [List.flatMap_cons, if_neg h, List.nil_append, hl, List.filter_cons]
      simp [h]

theorem source_scada (f : RhsFile) (hn : (f.scada.map (·.typ)).Nodup) (t : SpdType) (id : String) :
    ((flatScada (reformatScada f.scada)).get? (t, id)).map (fun v => v.1 + v.2.sum) =
      if f.measurements t id = [] then none else some (f.measurements t id).sum := by
  rw [get?_flat _ (nodup_reformat _), reformat_get?, measurements_of f hn]
  cases (f.scada.filter (fun s => s.typ = t)).getLast? with
  | none => simp
  | some s =>
    simp only [Option.map_some, Option.bind_some, Option.elim_some]
    rw [scadaOf_get?]
    have : ∀ l : List ℚ, (split1 l).map (fun v => v.1 + v.2.sum) = if l = [] then none else some l.sum := by
      intro l
      cases l <;> simp [split1]
    exact this _

/-- Offers of one interconnector at its first region. -/
def oneFrom (i : InterPeriod) (l : List (String × ℚ)) : List (String × ℚ) :=
  l.filterMap (fun o => if o.1 = i.fromRegion then some (i.id, o.2) else none)

/-- Offers of one interconnector at its other region. -/
def oneTo (i : InterPeriod) (l : List (String × ℚ)) : List (String × ℚ) :=
  l.filterMap (fun o => if o.1 ≠ i.fromRegion ∧ o.1 = i.toRegion then some (i.id, o.2) else none)

theorem offers_fold (i : InterPeriod) (l : List (String × ℚ)) : ∀ (p : Dict String ℚ × Dict String ℚ),
    ((∀ o ∈ l, o.1 = i.fromRegion ∨ o.1 = i.toRegion) → l.foldlM (addOffer i) p =
        .ok ((oneFrom i l).foldl (fun d e => d.set e.1 e.2) p.1, (oneTo i l).foldl (fun d e => d.set e.1 e.2) p.2)) ∧
    ((∃ o ∈ l, o.1 ≠ i.fromRegion ∧ o.1 ≠ i.toRegion) → l.foldlM (addOffer i) p = .error .valueError) := by
  induction l with
  | nil => intro p; exact ⟨fun _ => rfl, fun ⟨o, ho, _⟩ => absurd ho List.not_mem_nil⟩
  | cons o l ih =>
    intro p
    rw [List.foldlM_cons]
    by_cases h1 : o.1 = i.fromRegion
    · have hstep : addOffer i p o = .ok (p.1.set i.id o.2, p.2) := by unfold addOffer; rw [if_pos h1]
      have hgo : (addOffer i p o >>= fun p => l.foldlM (addOffer i) p) = l.foldlM (addOffer i) (p.1.set i.id o.2, p.2) := by rw [hstep]; rfl
      rw [hgo]
      have := ih (p.1.set i.id o.2, p.2)
      refine ⟨fun h => ?_, fun ⟨o', ho', hne⟩ => ?_⟩
      · rw [this.1 (fun o' ho' => h o' (List.mem_cons_of_mem _ ho'))]
        simp [oneFrom, oneTo, h1]
      · rcases List.mem_cons.1 ho' with rfl | ho'
        · exact absurd h1 hne.1
        · exact this.2 ⟨o', ho', hne⟩
    · by_cases h2 : o.1 = i.toRegion
      · have hstep : addOffer i p o = .ok (p.1, p.2.set i.id o.2) := by unfold addOffer; rw [if_neg h1, if_pos h2]
        have hgo : (addOffer i p o >>= fun p => l.foldlM (addOffer i) p) = l.foldlM (addOffer i) (p.1, p.2.set i.id o.2) := by rw [hstep]; rfl
        rw [hgo]
        have := ih (p.1, p.2.set i.id o.2)
        refine ⟨fun h => ?_, fun ⟨o', ho', hne⟩ => ?_⟩
        · rw [this.1 (fun o' ho' => h o' (List.mem_cons_of_mem _ ho'))]
          have e1 : oneFrom i (o :: l) = oneFrom i l := by simp [oneFrom, h1]
          have e2 : oneTo i (o :: l) = (i.id, o.2) :: oneTo i l := by
            unfold oneTo
            rw [List.filterMap_cons, if_pos ⟨h1, h2⟩]
          rw [e1, e2]
          rfl
        · rcases List.mem_cons.1 ho' with rfl | ho'
          · exact absurd h2 hne.2
          · exact this.2 ⟨o', ho', hne⟩
      · have hstep : addOffer i p o = .error .valueError := by unfold addOffer; rw [if_neg h1, if_neg h2]
        have hgo : (addOffer i p o >>= fun p => l.foldlM (addOffer i) p) = .error .valueError := by rw [hstep]; rfl
        rw [hgo]
        exact ⟨fun h => by rcases h o (List.mem_cons_self) with h | h <;> contradiction, fun _ => rfl⟩

theorem inters_fold (l : List InterPeriod) : ∀ (p : Dict String ℚ × Dict String ℚ),
    (¬ BadOffer l → l.foldlM addInter p =
        .ok ((l.flatMap fun i => if i.mnsp then oneFrom i i.offers else []).foldl (fun d e => d.set e.1 e.2) p.1,
          (l.flatMap fun i => if i.mnsp then oneTo i i.offers else []).foldl (fun d e => d.set e.1 e.2) p.2)) ∧
    (BadOffer l → l.foldlM addInter p = .error .valueError) := by
  induction l with
  | nil => intro p; exact ⟨fun _ => rfl, fun ⟨i, hi, _⟩ => absurd hi List.not_mem_nil⟩
  | cons i l ih =>
    intro p
    rw [List.foldlM_cons]
    have go : ∀ q, addInter p i = .ok q → (addInter p i >>= fun p => l.foldlM addInter p) = l.foldlM addInter q := by
      intro q hq; rw [hq]; rfl
    by_cases hm : i.mnsp = true
    · have hadd : addInter p i = i.offers.foldlM (addOffer i) p := by unfold addInter; rw [if_pos hm]
      by_cases hb : ∃ o ∈ i.offers, o.1 ≠ i.fromRegion ∧ o.1 ≠ i.toRegion
      · have herr : (addInter p i >>= fun p => l.foldlM addInter p) = .error .valueError := by
          rw [hadd, (offers_fold i i.offers p).2 hb]; rfl
        rw [herr]
        exact ⟨fun h => absurd ⟨i, List.mem_cons_self, hm, hb⟩ h, fun _ => rfl⟩
      · have hok : ∀ o ∈ i.offers, o.1 = i.fromRegion ∨ o.1 = i.toRegion := by
          intro o ho
          by_contra hc
          exact hb ⟨o, ho, fun h => hc (Or.inl h), fun h => hc (Or.inr h)⟩
        rw [go _ (hadd.trans ((offers_fold i i.offers p).1 hok))]
        refine ⟨fun h => ?_, fun ⟨j, hj, hjm, hjb⟩ => ?_⟩
        · rw [(ih _).1 (fun ⟨j, hj, hjb⟩ => h ⟨j, List.mem_cons_of_mem _ hj, hjb⟩)]
          simp [hm]
        · rcases List.mem_cons.1 hj with rfl | hj
          · exact absurd hjb hb
          · exact (ih _).2 ⟨j, hj, hjm, hjb⟩
    · have hadd : addInter p i = .ok p := by unfold addInter; rw [if_neg hm]
      rw [go _ hadd]
      refine ⟨fun h => ?_, fun ⟨j, hj, hjm, hjb⟩ => ?_⟩
      · rw [(ih _).1 (fun ⟨j, hj, hjb⟩ => h ⟨j, List.mem_cons_of_mem _ hj, hjb⟩)]
        simp [hm]
      · rcases List.mem_cons.1 hj with rfl | hj
        · exact absurd hjm hm
        · exact (ih _).2 ⟨j, hj, hjm, hjb⟩

theorem mnsp_ok (f : RhsFile) (h : ¬ BadOffer f.inters) :
    mnspAvailability f.inters = .ok (lastValues f.offersFrom, lastValues f.offersTo) :=
  (inters_fold f.inters ([], [])).1 h

theorem init_data {f : RhsFile} {c : Calc} (h : initCalc f = .ok c) :
    c.data = { scada := flatScada (reformatScada f.scada), unitMw := lastValues f.initial, entered := lastValues f.entered, mnspFrom := lastValues f.offersFrom, mnspTo := lastValues f.offersTo, generic := formatEquations f.generic, rhs := formatEquations f.constraints } ∧ c.nemde = lastValues f.nemde := by
  unfold initCalc at h
  by_cases hb : BadOffer f.inters
  · have : mnspAvailability f.inters = .error .valueError := (inters_fold f.inters ([], [])).2 hb
    rw [this] at h; cases h
  · rw [mnsp_ok f hb] at h
    injection h with h
    subst h
    exact ⟨rfl, rfl⟩

theorem init_source {f : RhsFile} {c : Calc} (h : initCalc f = .ok c) (hn : (f.scada.map (·.typ)).Nodup) (t : SpdType) (id : String) :
    c.data.source t id = f.source t id := by
  rw [(init_data h).1]
  cases t <;> simp only [Data.source, RhsFile.source] <;> first | exact source_scada f hn _ id | exact lastValues_get? _ id | rfl

end Verif.Rpn
