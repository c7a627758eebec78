import Verif.Spec.ConstraintFile
import Verif.Props.ConstraintData
import Verif.Props.XmlInputs
import Verif.Props.XmlPrices
import Verif.Props.Regional

/-!
# Lemmas: generic constraints of a NEMDE file in the market
-/

namespace Verif

theorem gUnit_of {m : Market} {gu : List GUnit} (hu : InForce (.linkUnits gu) m) : m.gUnit = some gu := by
  obtain ⟨a, ha, hm, hok, hb, hs⟩ := hu.unpack
  have hn := step_ok hok
  have hs := hs .gUnit (by simp [Op.parts])
  simp only [SamePart] at hs
  simp only [Market.step, hn, Market.linkUnits, Bool.false_eq_true, if_false] at hok hs
  split at hok
  · simp at hok
  · rename_i hc; rw [if_neg hc] at hs; exact hs

theorem gInter_of {m : Market} {gi : List GInter} (hi : InForce (.linkInters gi) m) : m.gInter = some gi := by
  obtain ⟨a, ha, hm, hok, hb, hs⟩ := hi.unpack
  have hn := step_ok hok
  have hs := hs .gInter (by simp [Op.parts])
  simp only [SamePart] at hs
  simp only [Market.step, hn, Market.linkInters, Bool.false_eq_true, if_false] at hok hs
  split at hok
  · simp at hok
  · rename_i hc; rw [if_neg hc] at hs; exact hs

namespace Cons

open Verif.Xml (Attrs GenericConstraint SpdOutputs listedTerms physical IsNumber)

theorem forall₂_filterMap {α β γ : Type} {f : β → Option γ} {g : α → γ} {l : List α} {m : List β}
    (h : List.Forall₂ (fun a b => f b = some (g a)) l m) : m.filterMap f = l.map g := by
  induction h with
  | nil => rfl
  | cons h0 _ ih => rw [List.filterMap_cons, h0, List.map_cons, ih]

theorem forall₂_filter {α β : Type} {R : α → β → Prop} {p : α → Bool} {q : β → Bool} {l : List α} {m : List β}
    (h : List.Forall₂ R l m) (hpq : ∀ a b, R a b → p a = q b) : List.Forall₂ R (l.filter p) (m.filter q) := by
  induction h with
  | nil => exact .nil
  | @cons a b _ _ h0 _ ih =>
    rw [List.filter_cons, List.filter_cons, hpq _ _ h0]
    split
    · exact .cons h0 ih
    · exact ih

theorem forall₂_comp {α β γ : Type} {R : α → β → Prop} {S : β → γ → Prop} {T : α → γ → Prop} {l : List α} {m : List β} {n : List γ}
    (h1 : List.Forall₂ R l m) (h2 : List.Forall₂ S m n) (hT : ∀ a b c, R a b → S b c → T a c) : List.Forall₂ T l n := by
  induction h1 generalizing n with
  | nil => cases h2; exact .nil
  | cons h0 _ ih => cases h2 with | cons h3 h4 => exact .cons (hT _ _ _ h0 h3) (ih h4)

theorem filter_one {α : Type} {κ : Type} [DecidableEq κ] {key : α → κ} {l : List α} (h : (l.map key).Nodup) {a : α} (ha : a ∈ l) :
    l.filter (fun b => decide (key b = key a)) = [a] := by
  induction l with
  | nil => cases ha
  | cons b l ih =>
    rw [List.map_cons, List.nodup_cons] at h
    rw [List.filter_cons]
    rcases List.mem_cons.1 ha with rfl | ha
    · have e : l.filter (fun b => decide (key b = key a)) = [] := by
        rw [List.filter_eq_nil_iff]
        intro x hx hk
        exact h.1 (List.mem_map.2 ⟨x, hx, by simpa using hk⟩)
      rw [e]
      simp
    · have : key b ≠ key a := fun e => h.1 (List.mem_map.2 ⟨a, ha, e.symm⟩)
      rw [if_neg (by simpa using this)]
      exact ih h.2 ha

theorem one_of {cs : List GenericConstraint} (h1 : OneEach cs) {c : GenericConstraint} (hc : c ∈ cs) {s : String} (hs : Named c s) :
    cs.filter (fun c' => decide (c'.attrs.get? "@ConstraintID" = some s)) = [c] := by
  have := filter_one (key := fun c : GenericConstraint => c.attrs.get? "@ConstraintID") h1 hc
  rw [show c.attrs.get? "@ConstraintID" = some s from hs] at this
  exact this

theorem service_of {code name : String} (h : serviceMap code = .ok name) :
    ∃ s, Dict.get? tradeTypes code = some s ∧ namedService name = some s := by
  have key : Dict.get? tradeTypes code = namedService name ∧ (namedService name).isSome = true := by
    unfold serviceMap at h
    split at h <;> cases h <;> decide +kernel
  obtain ⟨s, hs⟩ := Option.isSome_iff_exists.1 key.2
  exact ⟨s, key.1.trans hs, hs⟩

theorem factor_of {float : String → Option ℚ} {a : Attrs} {q : ℚ} (h : IsNumber float a "@Factor" q) : factor float a = q := by
  obtain ⟨v, h1, h2⟩ := h
  unfold factor
  rw [h1, Option.bind_some, h2]
  rfl

theorem text_of {a : Attrs} {n v : String} (h : a.get? n = some v) : text a n = v := by
  unfold text
  rw [h]
  rfl

theorem tables_ok {float : String → Option ℚ} {cs : List GenericConstraint} {o : SpdOutputs} {raw : Raw} {il : List InterLhs}
    (h : tables float cs o = .ok (raw, il)) :
    ∃ rhs types units regions inters, Xml.constraintRhs float o = .ok rhs ∧ Xml.constraintTypes float cs = .ok types ∧
      Xml.unitLhs float cs = .ok units ∧ Xml.regionLhs float cs = .ok regions ∧ Xml.interLhs float cs = .ok inters ∧
      raw = ⟨rhs.map RhsRow.ofXml, types.map TypeRow.ofXml, units.map LhsRow.ofXml, regions.map LhsRow.ofXml⟩ ∧
      il = inters.map (fun r => ⟨r.set, r.subject, r.coefficient⟩) := by
  unfold tables at h
  simp only [Xml.bind_ok, Xml.pure_ok] at h
  obtain ⟨rhs, h1, types, h2, units, h3, regions, h4, inters, h5, e⟩ := h
  injection e with e1 e2
  exact ⟨rhs, types, units, regions, inters, h1, h2, h3, h4, h5, e1.symm, e2.symm⟩

section
variable {float : String → Option ℚ} {cs : List GenericConstraint} {o : SpdOutputs} {raw : Raw} {il : List InterLhs} {d : Data}

/-- a term of the file and the row of the coefficients with the name of the service -/
def Term (float : String → Option ℚ) (key : String) (a : Attrs) (r : LhsRow) : Prop :=
  a.get? key = some r.who ∧ (∃ code, a.get? "@TradeType" = some code ∧ serviceMap code = .ok r.service) ∧
    IsNumber float a "@Factor" r.coef

theorem terms_of {part : GenericConstraint → Option (Xml.Coll Attrs)} {key : String} {rows : List Xml.LhsRow} {lhs : List LhsRow}
    (h1 : OneEach cs) {c : GenericConstraint} (hc : c ∈ cs) {s : String} (hs : Named c s)
    (h : List.Forall₂ (fun p row => p.2.get? key = some row.subject ∧ p.2.get? "@TradeType" = some row.service ∧
        IsNumber float p.2 "@Factor" row.coefficient)
      ((cs.filter fun c => decide (c.attrs.get? "@ConstraintID" = some s)).flatMap fun c => (listedTerms (part c)).map fun term => (c, term))
      (rows.filter fun r => decide (r.set = s)))
    (hl : List.Forall₂ (fun a b => LhsRow.mapService a = .ok b) (rows.map LhsRow.ofXml) lhs) :
    List.Forall₂ (Term float key) (listedTerms (part c)) (lhs.filter fun r => decide (r.set = s)) := by
  rw [one_of h1 hc hs, List.flatMap_cons, List.flatMap_nil, List.append_nil, List.forall₂_map_left_iff] at h
  have hl' := forall₂_filter (p := fun r => decide (r.set = s)) (q := fun r => decide (r.set = s)) hl (by
    intro a b hab
    obtain ⟨-, e, -⟩ := mapService_ok.1 hab
    rw [e])
  rw [List.filter_map, List.forall₂_map_left_iff] at hl'
  refine forall₂_comp h hl' ?_
  rintro a b r ⟨e1, e2, e3⟩ hr
  obtain ⟨f1, f2, f3, f4⟩ := mapService_ok.1 hr
  exact ⟨by rw [f3]; exact e1, ⟨_, e2, f1⟩, by rw [f4]; exact e3⟩

theorem unit_rows (h : tables float cs o = .ok (raw, il)) (hd : load raw = .ok d) (h1 : OneEach cs) {c : GenericConstraint}
    (hc : c ∈ cs) {s : String} (hs : Named c s) :
    (d.unitLhs.filterMap LhsRow.toMarket).filter (fun g => decide (g.set = s)) =
      (listedTerms c.trader).map (fun a => ⟨s, text a "@TraderID", termService a, factor float a⟩) := by
  obtain ⟨rhs, types, units, regions, inters, e1, e2, e3, e4, e5, rfl, rfl⟩ := tables_ok h
  have hT := terms_of (part := GenericConstraint.trader) h1 hc hs (Xml.C82_unit_terms float cs units e3 s) (load_parts hd).2.1
  have e : (d.unitLhs.filterMap LhsRow.toMarket).filter (fun g => decide (g.set = s)) =
      (d.unitLhs.filter (fun r => decide (r.set = s))).filterMap LhsRow.toMarket := by
    rw [List.filter_filterMap, List.filterMap_filter]
    congr 1
    funext r
    unfold LhsRow.toMarket
    cases namedService r.service with
    | none => simp
    | some v => by_cases hr : r.set = s <;> simp [hr]
  rw [e]
  apply forall₂_filterMap
  have hset : ∀ r ∈ d.unitLhs.filter (fun r => decide (r.set = s)), r.set = s := fun r hr => by
    simpa using (List.mem_filter.1 hr).2
  generalize d.unitLhs.filter (fun r => decide (r.set = s)) = rows at hT hset
  generalize listedTerms c.trader = ts at hT
  induction hT with
  | nil => exact .nil
  | cons h0 _ ih =>
    refine .cons ?_ (ih (fun r hr => hset r (List.mem_cons_of_mem _ hr)))
    obtain ⟨f1, ⟨code, f2, f3⟩, f4⟩ := h0
    obtain ⟨sv, g1, g2⟩ := service_of f3
    unfold LhsRow.toMarket
    rw [g2, Option.map_some, hset _ List.mem_cons_self, text_of f1, factor_of f4]
    unfold termService
    rw [text_of f2, g1]
    rfl

theorem inter_rows (h : tables float cs o = .ok (raw, il)) (h1 : OneEach cs) {c : GenericConstraint}
    (hc : c ∈ cs) {s : String} (hs : Named c s) :
    (il.map InterLhs.toMarket).filter (fun g => decide (g.set = s)) =
      (listedTerms c.interconnector).map (fun a => ⟨s, text a "@InterconnectorID", factor float a⟩) := by
  obtain ⟨rhs, types, units, regions, inters, e1, e2, e3, e4, e5, rfl, rfl⟩ := tables_ok h
  have hT := Xml.C82_interconnector_terms float cs inters e5 s
  rw [one_of h1 hc hs, List.flatMap_cons, List.flatMap_nil, List.append_nil, List.forall₂_map_left_iff] at hT
  rw [List.map_map, List.filter_map]
  have hset : ∀ r ∈ inters.filter (fun r => decide (r.set = s)), r.set = s := fun r hr => by
    simpa using (List.mem_filter.1 hr).2
  show (inters.filter (fun r => decide (r.set = s))).map _ = _
  generalize inters.filter (fun r => decide (r.set = s)) = rows at hT hset
  generalize listedTerms c.interconnector = ts at hT
  induction hT with
  | nil => rfl
  | cons h0 _ ih =>
    rw [List.map_cons, List.map_cons, ih (fun r hr => hset r (List.mem_cons_of_mem _ hr))]
    congr 1
    obtain ⟨f1, f2⟩ := h0
    rw [text_of f1, factor_of f2, ← hset _ List.mem_cons_self]
    rfl

theorem linked_eq (h : tables float cs o = .ok (raw, il)) (hd : load raw = .ok d) (h1 : OneEach cs) {c : GenericConstraint}
    (hc : c ∈ cs) {s : String} (hs : Named c s) {m : Market} (hu : InForce (.linkUnits (d.unitLhs.filterMap LhsRow.toMarket)) m)
    (hi : InForce (.linkInters (il.map InterLhs.toMarket)) m) (hr : ∀ g ∈ m.gRegion.getD [], ∀ c ∈ cs, ¬ Named c g.set) :
    (∀ x, m.linked x s = unitTerms float m x c + interTerms float m x c) ∧ (m.hasLinked s ↔ InMarket m c) := by
  have e1 := gUnit_of hu
  have e2 := gInter_of hi
  have e3 : (m.gRegion.getD []).filter (fun g => decide (g.set = s)) = [] := by
    rw [List.filter_eq_nil_iff]
    intro g hg he
    have : g.set = s := by simpa using he
    exact hr g hg c hc (this ▸ hs)
  have hmem : ∀ {α : Type} (l : List α) (p : α → Bool) (Q : α → Prop), (∃ g ∈ l, p g = true ∧ Q g) ↔ ∃ g ∈ l.filter p, Q g := by
    intro α l p Q
    simp only [List.mem_filter]
    constructor
    · rintro ⟨g, a, b, c⟩; exact ⟨g, ⟨a, b⟩, c⟩
    · rintro ⟨g, ⟨a, b⟩, c⟩; exact ⟨g, a, b, c⟩
  constructor
  · intro x
    unfold Market.linked
    rw [e1, e2, e3, Option.getD_some, Option.getD_some, unit_rows h hd h1 hc hs, inter_rows h h1 hc hs, List.map_map, List.map_map]
    unfold unitTerms interTerms
    simp only [List.map_nil, List.sum_nil, add_zero]
    rfl
  · unfold Market.hasLinked InMarket
    have k1 : (∃ g ∈ m.gUnit.getD [], g.set = s ∧ ∃ d, m.lists g.unit d ∧ m.bidsFor g.unit g.service d) ↔
        ∃ a ∈ listedTerms c.trader, ∃ d, m.lists (text a "@TraderID") d ∧ m.bidsFor (text a "@TraderID") (termService a) d := by
      rw [e1, Option.getD_some]
      have := hmem (d.unitLhs.filterMap LhsRow.toMarket) (fun g => decide (g.set = s))
        (fun g => ∃ d, m.lists g.unit d ∧ m.bidsFor g.unit g.service d)
      simp only [decide_eq_true_eq] at this
      rw [this, unit_rows h hd h1 hc hs]
      simp only [List.mem_map, exists_exists_and_eq_and]
    have k2 : (∃ g ∈ m.gInter.getD [], g.set = s ∧ ∃ d ∈ m.dirs.getD [], d.inter = g.inter) ↔
        ∃ a ∈ listedTerms c.interconnector, ∃ d ∈ m.dirs.getD [], d.inter = text a "@InterconnectorID" := by
      rw [e2, Option.getD_some]
      have := hmem (il.map InterLhs.toMarket) (fun g => decide (g.set = s)) (fun g => ∃ d ∈ m.dirs.getD [], d.inter = g.inter)
      simp only [decide_eq_true_eq] at this
      rw [this, inter_rows h h1 hc hs]
      simp only [List.mem_map, exists_exists_and_eq_and]
    have k3 : ¬ ∃ g ∈ m.gRegion.getD [], g.set = s ∧ m.hasSupply g.region g.service := by
      rintro ⟨g, hg, he, -⟩
      exact hr g hg c hc (he ▸ hs)
    rw [k1, k2]
    simp only [k3, false_or]

/-- published right hand sides are those of the file -/
theorem published_iff (h : tables float cs o = .ok (raw, il)) {s symbol : String} {q : ℚ} :
    Published raw s q symbol ↔ HasRhs float o s q ∧ ∃ c ∈ cs, Named c s ∧ namedType symbol = sense c ∧ (sense c) ≠ .other ∧
      (symbol = "<=" ∨ symbol = "=" ∨ symbol = ">=") := by
  obtain ⟨rhs, types, units, regions, inters, e1, e2, e3, e4, e5, rfl, rfl⟩ := tables_ok h
  unfold Published
  have hr : (⟨s, q⟩ : RhsRow) ∈ rhs.map RhsRow.ofXml ↔ HasRhs float o s q := by
    have hR := Xml.C81_rhs float o rhs e1
    rw [List.mem_map]
    constructor
    · rintro ⟨r, hr, he⟩
      obtain ⟨e, he', f1, f2⟩ := forall₂_mem hR hr
      obtain ⟨a, b⟩ := r
      injection he with g1 g2
      subst g1 g2
      exact ⟨e, he', f1, f2⟩
    · rintro ⟨e, he', f1, f2⟩
      obtain ⟨r, hr, g1, g2⟩ := forall₂_mem' hR he'
      refine ⟨r, hr, ?_⟩
      rw [f1] at g1
      obtain ⟨v, w1, w2⟩ := f2
      obtain ⟨v', w3, w4⟩ := g2
      rw [w1] at w3
      cases w3
      rw [w2] at w4
      cases w4
      cases g1
      rfl
  have ht : (∃ t ∈ types.map TypeRow.ofXml, t.set = s ∧
      ((t.type = "LE" ∧ symbol = "<=") ∨ (t.type = "EQ" ∧ symbol = "=") ∨ (t.type = "GE" ∧ symbol = ">="))) ↔
      ∃ c ∈ cs, Named c s ∧ namedType symbol = sense c ∧ (sense c) ≠ .other ∧ (symbol = "<=" ∨ symbol = "=" ∨ symbol = ">=") := by
    have hT := (Xml.C83_types float cs types).1 e2
    simp only [List.mem_map, exists_exists_and_eq_and]
    have key : ∀ (c : GenericConstraint) (ty : String), c.attrs.get? "@Type" = some ty →
        (((ty = "LE" ∧ symbol = "<=") ∨ (ty = "EQ" ∧ symbol = "=") ∨ (ty = "GE" ∧ symbol = ">=")) ↔
        namedType symbol = sense c ∧ (sense c) ≠ .other ∧ (symbol = "<=" ∨ symbol = "=" ∨ symbol = ">=")) := by
      intro c ty hty
      unfold sense
      rw [text_of hty]
      constructor
      · rintro (⟨rfl, rfl⟩ | ⟨rfl, rfl⟩ | ⟨rfl, rfl⟩) <;> decide +kernel
      · rintro ⟨k1, k2, k3⟩
        by_cases a1 : ty = "LE"
        · subst a1
          rw [if_pos rfl] at k1
          rcases k3 with rfl | rfl | rfl
          · exact Or.inl ⟨rfl, rfl⟩
          · exact absurd k1 (by decide +kernel)
          · exact absurd k1 (by decide +kernel)
        · by_cases a2 : ty = "GE"
          · subst a2
            rw [if_neg (by decide +kernel), if_pos rfl] at k1
            rcases k3 with rfl | rfl | rfl
            · exact absurd k1 (by decide +kernel)
            · exact absurd k1 (by decide +kernel)
            · exact Or.inr (Or.inr ⟨rfl, rfl⟩)
          · by_cases a3 : ty = "EQ"
            · subst a3
              rw [if_neg (by decide +kernel), if_neg (by decide +kernel), if_pos rfl] at k1
              rcases k3 with rfl | rfl | rfl
              · exact absurd k1 (by decide +kernel)
              · exact Or.inr (Or.inl ⟨rfl, rfl⟩)
              · exact absurd k1 (by decide +kernel)
            · rw [if_neg a1, if_neg a2, if_neg a3] at k2
              exact absurd rfl k2
    constructor
    · rintro ⟨t, ht, g1, g2⟩
      obtain ⟨c, hc, f1, f2, -⟩ := forall₂_mem hT ht
      refine ⟨c, hc, ?_, (key c t.type f2).1 g2⟩
      rw [← g1]
      exact f1
    · rintro ⟨c, hc, g1, g2⟩
      obtain ⟨t, ht, f1, f2, -⟩ := forall₂_mem' hT hc
      refine ⟨t, ht, ?_, (key c t.type f2).2 g2⟩
      have := g1.symm.trans f1
      exact (Option.some.inj this).symm
  rw [hr]
  exact and_congr_right (fun _ => ht)

/-- a set has region rows exactly when the constraint has region terms -/
theorem region_none (h : tables float cs o = .ok (raw, il)) (hd : load raw = .ok d) (h1 : OneEach cs) {c : GenericConstraint}
    (hc : c ∈ cs) {s : String} (hs : Named c s) : (∀ l ∈ raw.regionLhs, l.set ≠ s) ↔ listedTerms c.region = [] := by
  obtain ⟨rhs, types, units, regions, inters, e1, e2, e3, e4, e5, rfl, rfl⟩ := tables_ok h
  have hT := Xml.C82_region_terms float cs regions e4 s
  rw [one_of h1 hc hs, List.flatMap_cons, List.flatMap_nil, List.append_nil, List.forall₂_map_left_iff] at hT
  have hl := hT.length_eq
  constructor
  · intro hn
    have : regions.filter (fun r => decide (r.set = s)) = [] := by
      rw [List.filter_eq_nil_iff]
      intro r hr he
      exact hn (LhsRow.ofXml r) (List.mem_map.2 ⟨r, hr, rfl⟩) (of_decide_eq_true he)
    rw [this, List.length_nil] at hl
    exact List.length_eq_zero_iff.1 hl
  · intro hn l hl' he
    rw [hn, List.length_nil] at hl
    have hz := List.length_eq_zero_iff.1 hl.symm
    obtain ⟨r, hr, rfl⟩ := List.mem_map.1 hl'
    have := (List.filter_eq_nil_iff.1 hz) r hr
    exact this (decide_eq_true he)

end

end Cons
end Verif
