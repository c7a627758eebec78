import Verif.Proofs.ConstraintFile

/-!
# Generic constraints of the NEMDE file in dispatch (C96, C97)
-/

namespace Verif.Cons

open Verif.Xml (Attrs GenericConstraint SpdOutputs listedTerms physical IsNumber)

section
variable {float : String → Option ℚ} {cs : List GenericConstraint} {o : SpdOutputs} {raw : Raw} {il : List InterLhs} {d : Data}

theorem generic_row (h : tables float cs o = .ok (raw, il)) (hd : load raw = .ok d) (h1 : OneEach cs) {s : String} {q : ℚ}
    {c : GenericConstraint} (hc : c ∈ cs) (hs : Named c s) (hq : HasRhs float o s q) :
    ∃ symbol, Published raw s q symbol ∧ namedType symbol = sense c := by
  have hk := (C65_no_error raw).1 ⟨d, hd⟩
  obtain ⟨rhs, types, units, regions, inters, e1, e2, e3, e4, e5, rfl, rfl⟩ := tables_ok h
  obtain ⟨e, he, f1, f2⟩ := hq
  obtain ⟨r, hr, g1, g2⟩ := forall₂_mem' (Xml.C81_rhs float o rhs e1) he
  obtain ⟨t, ht, k1, k2, -⟩ := forall₂_mem' ((Xml.C83_types float cs types).1 e2) hc
  have k3 : t.set = s := (Option.some.inj (hs.symm.trans k1)).symm
  have k4 : r.1 = s := (Option.some.inj (f1.symm.trans g1)).symm
  have hty := hk.1 (RhsRow.ofXml r) (List.mem_map.2 ⟨r, hr, rfl⟩) (TypeRow.ofXml t) (List.mem_map.2 ⟨t, ht, rfl⟩)
    (show t.set = r.1 by rw [k3, k4])
  have hty : t.type = "LE" ∨ t.type = "EQ" ∨ t.type = "GE" := hty
  have hsense : ∃ symbol, namedType symbol = sense c ∧ sense c ≠ .other ∧ (symbol = "<=" ∨ symbol = "=" ∨ symbol = ">=") := by
    unfold sense
    rw [text_of k2]
    rcases hty with h | h | h <;> rw [h]
    · exact ⟨"<=", by decide +kernel, by decide +kernel, by decide +kernel⟩
    · exact ⟨"=", by decide +kernel, by decide +kernel, by decide +kernel⟩
    · exact ⟨">=", by decide +kernel, by decide +kernel, by decide +kernel⟩
  obtain ⟨symbol, w1, w2⟩ := hsense
  exact ⟨symbol, (published_iff h).2 ⟨⟨e, he, f1, f2⟩, c, hc, hs, w1, w2⟩, w1⟩

/-- **C96**, exact form.  Suppose the coefficients of units and interconnectors and the right hand sides of an interval are passed to
the market, and the constraints of the file have different ids.  The generic constraints of the market then say exactly that every
constraint of the file without region terms, of which a unit or an interconnector is in the market, holds in the dispatch: its terms,
times their factors in the file, are related to its right hand side in the file by its type in the file. -/
theorem C96_generic_exact (h : tables float cs o = .ok (raw, il)) (hd : load raw = .ok d) (h1 : OneEach cs) {m : Market}
    (hu : InForce (.linkUnits (d.unitLhs.filterMap LhsRow.toMarket)) m) (hi : InForce (.linkInters (il.map InterLhs.toMarket)) m)
    (hr : ∀ g ∈ m.gRegion.getD [], ∀ c ∈ cs, ¬ Named c g.set)
    (hg : InForce (.generic (d.excluding.map RhsType.toMarket) none) m) {lp : Lp} (hl : m.assemble = .ok lp) {x : Nat → ℚ} :
    m.obeys lp x .generic ↔ ∀ c ∈ cs, ∀ s q, Named c s → HasRhs float o s q → listedTerms c.region = [] → InMarket m c →
      (sense c).holds (unitTerms float m x c + interTerms float m x c) q := by
  rw [C22_generic_exact hg hl]
  have hp := (C65_partition hd).1
  constructor
  · intro hall c hc s q hs hq hn hm
    obtain ⟨symbol, w1, w2⟩ := generic_row h hd h1 hc hs hq
    obtain ⟨l1, l2⟩ := linked_eq h hd h1 hc hs hu hi hr
    have hex := (hp s q symbol).2 ⟨w1, (region_none h hd h1 hc hs).2 hn⟩
    have := hall _ (List.mem_map.2 ⟨_, hex, rfl⟩) (l2.2 hm)
    simp only [RhsType.toMarket] at this
    rwa [w2, l1 x] at this
  · intro hall g hg hm
    obtain ⟨⟨s, q, symbol⟩, hex, rfl⟩ := List.mem_map.1 hg
    simp only [RhsType.toMarket] at hm ⊢
    obtain ⟨p1, p2⟩ := (hp s q symbol).1 hex
    obtain ⟨hq, c, hc, hs, w1, -⟩ := (published_iff h).1 p1
    obtain ⟨l1, l2⟩ := linked_eq h hd h1 hc hs hu hi hr
    rw [w1, l1 x]
    exact hall c hc s q hs hq ((region_none h hd h1 hc hs).1 p2) (l2.1 hm)

/-- **C96** In every feasible dispatch the constraints of the file without region terms hold. -/
theorem C96_generic (h : tables float cs o = .ok (raw, il)) (hd : load raw = .ok d) (h1 : OneEach cs) {m : Market}
    (hu : InForce (.linkUnits (d.unitLhs.filterMap LhsRow.toMarket)) m) (hi : InForce (.linkInters (il.map InterLhs.toMarket)) m)
    (hr : ∀ g ∈ m.gRegion.getD [], ∀ c ∈ cs, ¬ Named c g.set)
    (hg : InForce (.generic (d.excluding.map RhsType.toMarket) none) m) {lp : Lp} (hl : m.assemble = .ok lp) {x : Nat → ℚ}
    (hx : Feasible lp x) {c : GenericConstraint} (hc : c ∈ cs) {s : String} {q : ℚ} (hs : Named c s) (hq : HasRhs float o s q)
    (hn : listedTerms c.region = []) (hm : InMarket m c) :
    (sense c).holds (unitTerms float m x c + interTerms float m x c) q :=
  (C96_generic_exact h hd h1 hu hi hr hg hl).1 (hx.obeys m _) c hc s q hs hq hn hm

/-! ### C97: regional requirements -/

/-- the requirement of a region term -/
def requirement (s : String) (q : ℚ) (c : GenericConstraint) (a : Attrs) : FcasReq :=
  { set := s, service := termService a, region := text a "@RegionID", volume := q, ctype := sense c }

theorem forall₂_map_eq {α β γ : Type} {R : α → β → Prop} {f : α → γ} {g : β → γ} {l : List α} {m : List β}
    (h : List.Forall₂ R l m) (hfg : ∀ a b, R a b → f a = g b) : l.map f = m.map g := by
  induction h with
  | nil => rfl
  | cons h0 _ ih => rw [List.map_cons, List.map_cons, ih, hfg _ _ h0]

theorem generic_one (h : tables float cs o = .ok (raw, il)) (hd : load raw = .ok d) (h1 : OneEach cs) (h2 : OneRhsEach o)
    {s symbol : String} {q : ℚ} (hp : Published raw s q symbol) :
    d.generic.filter (fun g => decide (g.set = s)) = [⟨s, q, symbol⟩] := by
  have hmem := (mem_generic hd (g := ⟨s, q, symbol⟩)).2 hp
  obtain ⟨rhs, types, units, regions, inters, e1, e2, e3, e4, e5, rfl, rfl⟩ := tables_ok h
  have n1 : ((rhs.map RhsRow.ofXml).map RhsRow.set).Nodup := by
    have e := forall₂_map_eq (f := fun e : Attrs => e.get? "@ConstraintID") (g := fun r : String × ℚ => some r.1) (Xml.C81_rhs float o rhs e1)
      (fun a b hab => hab.1)
    unfold OneRhsEach at h2
    rw [e] at h2
    have : rhs.map (fun r => some r.1) = ((rhs.map RhsRow.ofXml).map RhsRow.set).map some := by
      rw [List.map_map, List.map_map]; rfl
    rw [this] at h2
    exact h2.of_map _
  have n2 : ((types.map TypeRow.ofXml).map TypeRow.set).Nodup := by
    have e := forall₂_map_eq (f := fun c : GenericConstraint => c.attrs.get? "@ConstraintID") (g := fun r : Xml.TypeRow => some r.set)
      ((Xml.C83_types float cs types).1 e2) (fun a b hab => hab.1)
    unfold OneEach at h1
    rw [e] at h1
    have : types.map (fun r => some r.set) = ((types.map TypeRow.ofXml).map TypeRow.set).map some := by
      rw [List.map_map, List.map_map]; rfl
    rw [this] at h1
    exact h1.of_map _
  have := (C65_once hd n1 n2).1
  exact filter_one (key := RhsType.set) this hmem

theorem requirement_rows (h : tables float cs o = .ok (raw, il)) (hd : load raw = .ok d) (h1 : OneEach cs) (h2 : OneRhsEach o)
    {c : GenericConstraint} (hc : c ∈ cs) {s : String} {q : ℚ} (hs : Named c s) (hq : HasRhs float o s q) :
    (d.requirements.filterMap Requirement.toMarket).filter (fun r => decide (r.set = s)) =
      (listedTerms c.region).map (requirement s q c) := by
  obtain ⟨symbol, w1, w2⟩ := generic_row h hd h1 hc hs hq
  have hone := generic_one h hd h1 h2 w1
  have e : (d.requirements.filterMap Requirement.toMarket).filter (fun g => decide (g.set = s)) =
      (d.requirements.filter (fun r => decide (r.set = s))).filterMap Requirement.toMarket := by
    rw [List.filter_filterMap, List.filterMap_filter]
    congr 1
    funext r
    unfold Requirement.toMarket
    cases namedService r.service with
    | none => simp
    | some v => by_cases hr : r.set = s <;> simp [hr]
  have e' : d.requirements.filter (fun r => decide (r.set = s)) =
      (d.regionLhs.filter (fun r => decide (r.set = s))).map (fun l => ⟨s, l.service, l.who, symbol, q⟩) := by
    unfold Data.requirements
    rw [List.filter_flatMap]
    generalize d.regionLhs = rows
    induction rows with
    | nil => rfl
    | cons l rows ih =>
      rw [List.flatMap_cons, ih, List.filter_cons]
      by_cases hl : l.set = s
      · subst hl
        rw [hone]
        simp
      · rw [if_neg (by simpa using hl), List.filter_eq_nil_iff.2, List.nil_append]
        intro r hr
        obtain ⟨g, -, rfl⟩ := List.mem_map.1 hr
        simpa using hl
  obtain ⟨rhs, types, units, regions, inters, e1, e2, e3, e4, e5, rfl, rfl⟩ := tables_ok h
  have hT := terms_of (part := GenericConstraint.region) h1 hc hs (Xml.C82_region_terms float cs regions e4 s) (load_parts hd).2.2.1
  rw [e, e', List.filterMap_map]
  apply forall₂_filterMap
  refine hT.imp ?_
  rintro a r ⟨f1, ⟨code, f2, f3⟩, f4⟩
  obtain ⟨sv, g1, g2⟩ := service_of f3
  simp only [Function.comp_apply, Requirement.toMarket]
  rw [g2, Option.map_some]
  unfold requirement termService
  rw [text_of f1, text_of f2, g1, w2]
  rfl

theorem requirement_from (h : tables float cs o = .ok (raw, il)) (hd : load raw = .ok d) {r : FcasReq}
    (hr : r ∈ d.requirements.filterMap Requirement.toMarket) :
    ∃ c ∈ cs, Named c r.set ∧ HasRhs float o r.set r.volume := by
  obtain ⟨p, hp, he⟩ := List.mem_filterMap.1 hr
  obtain ⟨hq, c, hc, hs, -⟩ := (published_iff h).1 ((mem_requirements hd).1 hp).1
  unfold Requirement.toMarket at he
  obtain ⟨sv, -, rfl⟩ := Option.map_eq_some_iff.1 he
  exact ⟨c, hc, hs, hq⟩

theorem first_of_set {rs : List FcasReq} {s : String} (h : ∃ r ∈ rs, r.set = s) : ∃ r, FirstOfSet rs r ∧ r.set = s := by
  induction rs with
  | nil => obtain ⟨r, hr, -⟩ := h; cases hr
  | cons a rs ih =>
    by_cases ha : a.set = s
    · exact ⟨a, ⟨[], rs, rfl, by simp⟩, ha⟩
    · obtain ⟨r, hr, he⟩ := h
      rcases List.mem_cons.1 hr with rfl | hr
      · exact absurd he ha
      · obtain ⟨r', ⟨pre, post, e, hp⟩, he'⟩ := ih ⟨r, hr, he⟩
        refine ⟨r', ⟨a :: pre, post, by rw [e]; rfl, ?_⟩, he'⟩
        intro p hp'
        rcases List.mem_cons.1 hp' with rfl | hp'
        · rw [he']; exact ha
        · exact hp p hp'

/-- **C97**, exact form.  With the requirements of an interval passed to the market as well, the requirement constraints say exactly
that every constraint of the file with region terms holds in the dispatch, the region terms counted once each: the volume enabled in
the regions for the services, plus the terms of units and interconnectors times their factors, is related to the right hand side
of the file by the type in the file. -/
theorem C97_requirements_exact (h : tables float cs o = .ok (raw, il)) (hd : load raw = .ok d) (h1 : OneEach cs) (h2 : OneRhsEach o)
    {m : Market} (hu : InForce (.linkUnits (d.unitLhs.filterMap LhsRow.toMarket)) m)
    (hi : InForce (.linkInters (il.map InterLhs.toMarket)) m) (hr : ∀ g ∈ m.gRegion.getD [], ∀ c ∈ cs, ¬ Named c g.set)
    (hf : InForce (.fcasReq (d.requirements.filterMap Requirement.toMarket) none) m)
    (he : ∀ c ∈ cs, ∀ a ∈ listedTerms c.region, termService a ≠ .energy) {fs : List LossFn} (hlf : LossFunctions fs m)
    {lp : Lp} (hl : m.assemble = .ok lp) {x : Nat → ℚ} :
    m.obeys lp x .fcas ↔ ∀ c ∈ cs, ∀ s q, Named c s → HasRhs float o s q → listedTerms c.region ≠ [] →
      ((∃ a ∈ listedTerms c.region, m.hasSupply (text a "@RegionID") (termService a)) ∨ InMarket m c) →
      (sense c).holds (regionTerms m x c + (unitTerms float m x c + interTerms float m x c)) q := by
  have hrow : ∀ r ∈ d.requirements.filterMap Requirement.toMarket, ∀ c ∈ cs, ∀ q, Named c r.set → HasRhs float o r.set q →
      ∃ a ∈ listedTerms c.region, r = requirement r.set q c a := by
    intro r hr c hc q hs hq
    have : r ∈ (d.requirements.filterMap Requirement.toMarket).filter (fun p => decide (p.set = r.set)) :=
      List.mem_filter.2 ⟨hr, by simp⟩
    rw [requirement_rows h hd h1 h2 hc hs hq] at this
    obtain ⟨a, ha, e⟩ := List.mem_map.1 this
    exact ⟨a, ha, e.symm⟩
  have hne : ∀ r ∈ d.requirements.filterMap Requirement.toMarket, r.service ≠ .energy := by
    intro r hr
    obtain ⟨c, hc, hs, hq⟩ := requirement_from h hd hr
    obtain ⟨a, ha, e⟩ := hrow r hr c hc _ hs hq
    rw [e]
    exact he c hc a ha
  rw [C14_fcas_requirements_exact hf hne hlf hl]
  have hsup : ∀ c ∈ cs, ∀ s q, Named c s → HasRhs float o s q →
      m.setSupply x (d.requirements.filterMap Requirement.toMarket) s = regionTerms m x c := by
    intro c hc s q hs hq
    unfold Market.setSupply regionTerms
    rw [requirement_rows h hd h1 h2 hc hs hq, List.map_map]
    rfl
  have hex : ∀ c ∈ cs, ∀ s q, Named c s → HasRhs float o s q →
      ((∃ p ∈ d.requirements.filterMap Requirement.toMarket, p.set = s ∧ m.hasSupply p.region p.service) ↔
      ∃ a ∈ listedTerms c.region, m.hasSupply (text a "@RegionID") (termService a)) := by
    intro c hc s q hs hq
    constructor
    · rintro ⟨p, hp, rfl, hsp⟩
      obtain ⟨a, ha, e⟩ := hrow p hp c hc q hs hq
      rw [e] at hsp
      exact ⟨a, ha, hsp⟩
    · rintro ⟨a, ha, hsp⟩
      have : requirement s q c a ∈ (d.requirements.filterMap Requirement.toMarket).filter (fun p => decide (p.set = s)) := by
        rw [requirement_rows h hd h1 h2 hc hs hq]
        exact List.mem_map.2 ⟨a, ha, rfl⟩
      exact ⟨_, (List.mem_filter.1 this).1, rfl, hsp⟩
  constructor
  · intro hall c hc s q hs hq hn hm
    obtain ⟨a, ha⟩ := List.exists_mem_of_ne_nil _ hn
    have hmem : requirement s q c a ∈ (d.requirements.filterMap Requirement.toMarket).filter (fun p => decide (p.set = s)) := by
      rw [requirement_rows h hd h1 h2 hc hs hq]
      exact List.mem_map.2 ⟨a, ha, rfl⟩
    obtain ⟨r, hfirst, hset⟩ := first_of_set ⟨_, (List.mem_filter.1 hmem).1, rfl⟩
    have hset : r.set = s := hset
    subst hset
    have hr : r ∈ d.requirements.filterMap Requirement.toMarket := by
      obtain ⟨pre, post, e, -⟩ := hfirst
      rw [e]
      simp
    obtain ⟨a', ha', e⟩ := hrow r hr c hc q hs hq
    obtain ⟨l1, l2⟩ := linked_eq h hd h1 hc hs hu hi (by assumption)
    have := hall r hfirst (hm.imp (hex c hc _ q hs hq).2 l2.2)
    rw [hsup c hc _ q hs hq, l1 x] at this
    have e1 : r.ctype = sense c := by rw [e]; rfl
    have e2 : r.volume = q := by rw [e]; rfl
    rwa [e1, e2] at this
  · intro hall r hfirst hm
    have hr : r ∈ d.requirements.filterMap Requirement.toMarket := by
      obtain ⟨pre, post, e, -⟩ := hfirst
      rw [e]
      simp
    obtain ⟨c, hc, hs, hq⟩ := requirement_from h hd hr
    obtain ⟨a, ha, e⟩ := hrow r hr c hc _ hs hq
    obtain ⟨l1, l2⟩ := linked_eq h hd h1 hc hs hu hi (by assumption)
    rw [hsup c hc _ _ hs hq, l1 x]
    have e1 : r.ctype = sense c := by rw [e]; rfl
    rw [e1]
    exact hall c hc _ _ hs hq (List.ne_nil_of_mem ha) (hm.imp (hex c hc _ _ hs hq).1 l2.1)

/-- **C97** In every feasible dispatch the constraints of the file with region terms hold, if the factors of the regions are one.
Missing: other factors, see `C97_factor_negation`. -/
theorem C97_requirements_partial (h : tables float cs o = .ok (raw, il)) (hd : load raw = .ok d) (h1 : OneEach cs) (h2 : OneRhsEach o)
    {m : Market} (hu : InForce (.linkUnits (d.unitLhs.filterMap LhsRow.toMarket)) m)
    (hi : InForce (.linkInters (il.map InterLhs.toMarket)) m) (hr : ∀ g ∈ m.gRegion.getD [], ∀ c ∈ cs, ¬ Named c g.set)
    (hf : InForce (.fcasReq (d.requirements.filterMap Requirement.toMarket) none) m)
    (he : ∀ c ∈ cs, ∀ a ∈ listedTerms c.region, termService a ≠ .energy) {fs : List LossFn} (hlf : LossFunctions fs m)
    {lp : Lp} (hl : m.assemble = .ok lp) {x : Nat → ℚ} (hx : Feasible lp x) {c : GenericConstraint} (hc : c ∈ cs) {s : String} {q : ℚ}
    (hs : Named c s) (hq : HasRhs float o s q) (hn : listedTerms c.region ≠ []) (hone : ∀ a ∈ listedTerms c.region, factor float a = 1)
    (hm : (∃ a ∈ listedTerms c.region, m.hasSupply (text a "@RegionID") (termService a)) ∨ InMarket m c) :
    (sense c).holds (regionTermsFactored float m x c + (unitTerms float m x c + interTerms float m x c)) q := by
  have := (C97_requirements_exact h hd h1 h2 hu hi hr hf he hlf hl).1 (hx.obeys m _) c hc s q hs hq hn hm
  have e : regionTermsFactored float m x c = regionTerms m x c := by
    unfold regionTermsFactored regionTerms
    congr 1
    apply List.map_congr_left
    intro a ha
    rw [hone a ha, one_mul]
  rwa [e]

end

/-! ### A file with two constraints -/

def fileFloat : String → Option ℚ
  | "-1" => some (-1)
  | "1" => some 1
  | "2" => some 2
  | "10" => some 10
  | "60" => some 60
  | _ => none

/-- a limit on two units and a link, and a raise requirement of two regions that a link helps to meet -/
def fileConstraints (k : String) : List GenericConstraint :=
  [⟨[("@ConstraintID", "G"), ("@Type", "LE"), ("@ViolationPrice", "10")], none,
     some (.many [[("@TraderID", "A"), ("@TradeType", "ENOF"), ("@Factor", "1")], [("@TraderID", "V"), ("@TradeType", "ENOF"), ("@Factor", "2")]]),
     some (.one [("@InterconnectorID", "I"), ("@Factor", "-1")])⟩,
   ⟨[("@ConstraintID", "F"), ("@Type", "GE"), ("@ViolationPrice", "10")],
     some (.many [[("@RegionID", "NSW"), ("@TradeType", "R5RE"), ("@Factor", k)], [("@RegionID", "VIC"), ("@TradeType", "R5RE"), ("@Factor", k)]]),
     none, some (.one [("@InterconnectorID", "I"), ("@Factor", "1")])⟩]

def fileOutputs : SpdOutputs :=
  ⟨.many [], .many [], [[("@Intervention", "1"), ("@ConstraintID", "G"), ("@RHS", "1")],
    [("@Intervention", "0"), ("@ConstraintID", "G"), ("@RHS", "60")], [("@Intervention", "0"), ("@ConstraintID", "F"), ("@RHS", "10")]]⟩

def fileRaw (k : ℚ) : Raw :=
  ⟨[⟨"G", 60⟩, ⟨"F", 10⟩], [⟨"G", "LE", 10⟩, ⟨"F", "GE", 10⟩], [⟨"G", "A", "ENOF", 1⟩, ⟨"G", "V", "ENOF", 2⟩],
    [⟨"F", "NSW", "R5RE", k⟩, ⟨"F", "VIC", "R5RE", k⟩]⟩

def fileInters : List InterLhs := [⟨"G", "I", -1⟩, ⟨"F", "I", 1⟩]

def fileData (k : ℚ) : Data :=
  ⟨[⟨"G", 60, "<="⟩, ⟨"F", 10, ">="⟩], [⟨"G", "A", "energy", 1⟩, ⟨"G", "V", "energy", 2⟩],
    [⟨"F", "NSW", "raise_reg", k⟩, ⟨"F", "VIC", "raise_reg", k⟩], [⟨"G", "LE", 10⟩, ⟨"F", "GE", 10⟩]⟩

theorem fileTables_one : tables fileFloat (fileConstraints "1") fileOutputs = .ok (fileRaw 1, fileInters) := by rfl
theorem fileTables_two : tables fileFloat (fileConstraints "2") fileOutputs = .ok (fileRaw 2, fileInters) := by rfl
theorem fileLoad (k : ℚ) : load (fileRaw k) = .ok (fileData k) := by rfl

/-- the market with the constraints of the file: 50 MW from A, 10 MW from V, 10 MW of flow and `reg` of raise regulation -/
def fileCase (reg : ℚ) (flow : ℚ) : Case where
  regions := ["NSW", "VIC"]
  units := [{ unit := "A", region := "NSW" }, { unit := "V", region := "VIC" }]
  hist := [.volumeBids [{ unit := "A", bands := [("1", 200)] }, { unit := "A", service := .raiseReg, bands := [("1", 20)] },
      { unit := "V", bands := [("1", 100)] }],
    .interconnectors [{ inter := "I", link := "I", fromR := "NSW", toR := "VIC", min := -100, max := 100 }],
    .linkUnits ((fileData 1).unitLhs.filterMap LhsRow.toMarket), .linkInters (fileInters.map InterLhs.toMarket),
    .generic ((fileData 1).excluding.map RhsType.toMarket) none, .fcasReq ((fileData 1).requirements.filterMap Requirement.toMarket) none]
  sol := [50, reg, 10, flow]

theorem fileCase_noLosses {reg flow : ℚ} {m : Market} (h : (fileCase reg flow).final = some m) : LossFunctions [] m := by
  left
  refine ⟨rfl, ?_⟩
  unfold Case.final at h
  cases hm : Market.init (fileCase reg flow).regions (fileCase reg flow).units (fileCase reg flow).di with
  | error e => rw [hm] at h; cases h
  | ok m0 =>
    rw [hm] at h
    simp only at h
    split at h
    · rename_i hb
      injection h with h
      exact ⟨_, _, _, m0, (fileCase reg flow).hist, hm, benignB_iff.1 hb, by simp [fileCase, Op.parts], h.symm⟩
    · cases h

/-- the hypotheses of C96 and C97 are met, with both constraints of the file tight or nearly so -/
example : ∃ m lp, InForce (.linkUnits ((fileData 1).unitLhs.filterMap LhsRow.toMarket)) m ∧
    InForce (.linkInters (fileInters.map InterLhs.toMarket)) m ∧ InForce (.generic ((fileData 1).excluding.map RhsType.toMarket) none) m ∧
    InForce (.fcasReq ((fileData 1).requirements.filterMap Requirement.toMarket) none) m ∧ LossFunctions [] m ∧
    m.assemble = .ok lp ∧ Feasible lp (fileCase 5 10).x ∧ m.gRegion = none ∧ OneEach (fileConstraints "1") ∧ OneRhsEach fileOutputs ∧
    ((fileConstraints "1").map (fun c => (regionTerms m (fileCase 5 10).x c, unitTerms fileFloat m (fileCase 5 10).x c,
      interTerms fileFloat m (fileCase 5 10).x c)) = [(0, 70, -10), (5, 0, 10)] ∧
      HasRhs fileFloat fileOutputs "G" 60 ∧ HasRhs fileFloat fileOutputs "F" 10) := by
  have hw : (fileCase 5 10).ok (fun m => decide (m.gRegion = none ∧ (fileConstraints "1").map (fun c => (regionTerms m (fileCase 5 10).x c,
      unitTerms fileFloat m (fileCase 5 10).x c, interTerms fileFloat m (fileCase 5 10).x c)) = [(0, 70, -10), (5, 0, 10)])) = true := by
    decide +kernel
  obtain ⟨m, lp, h0, h1, h2, h3⟩ := Case.witness hw
  have h3 := of_decide_eq_true h3
  refine ⟨m, lp, ?_, ?_, ?_, ?_, fileCase_noLosses h0, h1, h2, h3.1, ?_, ?_, h3.2, ?_, ?_⟩
  · exact Case.inForce (i := 2) (keep := []) h0 rfl (by decide +kernel)
  · exact Case.inForce (i := 3) (keep := []) h0 rfl (by decide +kernel)
  · exact Case.inForce (i := 4) (keep := []) h0 rfl (by decide +kernel)
  · exact Case.inForce (i := 5) (keep := []) h0 rfl (by decide +kernel)
  · unfold OneEach; decide +kernel
  · unfold OneRhsEach; decide +kernel
  · exact ⟨_, List.mem_of_getElem? (i := 0) rfl, rfl, "60", rfl, rfl⟩
  · exact ⟨_, List.mem_of_getElem? (i := 1) rfl, rfl, "10", rfl, rfl⟩

/-- Factors of regions other than one are not used: with factors of two in the file, 4 MW of enabled regulation and 2 MW of flow meet
the requirement of 10 MW, and the dispatch is not feasible in the market. -/
theorem C97_factor_negation : ∃ m lp, InForce (.linkUnits ((fileData 2).unitLhs.filterMap LhsRow.toMarket)) m ∧
    InForce (.linkInters (fileInters.map InterLhs.toMarket)) m ∧
    InForce (.fcasReq ((fileData 2).requirements.filterMap Requirement.toMarket) none) m ∧ m.assemble = .ok lp ∧
    tables fileFloat (fileConstraints "2") fileOutputs = .ok (fileRaw 2, fileInters) ∧ load (fileRaw 2) = .ok (fileData 2) ∧
    (∀ c ∈ fileConstraints "2", Named c "F" → (sense c).holds (regionTermsFactored fileFloat m (fileCase 4 2).x c +
      (unitTerms fileFloat m (fileCase 4 2).x c + interTerms fileFloat m (fileCase 4 2).x c)) 10) ∧
    ¬ m.obeys lp (fileCase 4 2).x .fcas := by
  have hw : (fileCase 5 10).ok (fun m => decide (m.gRegion = none ∧ m.hasSupply "NSW" .raiseReg ∧
      (fileConstraints "2").map (fun c => (regionTermsFactored fileFloat m (fileCase 4 2).x c, regionTerms m (fileCase 4 2).x c,
      unitTerms fileFloat m (fileCase 4 2).x c, interTerms fileFloat m (fileCase 4 2).x c)) = [(0, 0, 70, -2), (8, 4, 0, 2)])) = true := by
    decide +kernel
  obtain ⟨m, lp, h0, h1, -, h3⟩ := Case.witness hw
  obtain ⟨hg, hsup, hv⟩ := of_decide_eq_true h3
  have f1 : InForce (.linkUnits ((fileData 2).unitLhs.filterMap LhsRow.toMarket)) m :=
    Case.inForce (i := 2) (keep := []) h0 rfl (by decide +kernel)
  have f2 : InForce (.linkInters (fileInters.map InterLhs.toMarket)) m := Case.inForce (i := 3) (keep := []) h0 rfl (by decide +kernel)
  have f3 : InForce (.fcasReq ((fileData 2).requirements.filterMap Requirement.toMarket) none) m :=
    Case.inForce (i := 5) (keep := []) h0 rfl (by decide +kernel)
  have hex := C97_requirements_exact (x := (fileCase 4 2).x) fileTables_two (fileLoad 2) (by unfold OneEach; decide +kernel)
    (by unfold OneRhsEach; decide +kernel) f1 f2 (by rw [hg]; simp) f3 (by decide +kernel) (fileCase_noLosses h0) h1
  simp only [fileConstraints, List.map_cons, List.map_nil, List.cons.injEq, Prod.mk.injEq, and_true] at hv
  obtain ⟨-, v1, v2, v3, v4⟩ := hv
  refine ⟨m, lp, f1, f2, f3, h1, fileTables_two, fileLoad 2, ?_, ?_⟩
  · intro c hc hn
    simp only [fileConstraints, List.mem_cons, List.not_mem_nil, or_false] at hc
    rcases hc with rfl | rfl
    · exact absurd hn (by unfold Named; decide +kernel)
    · rw [v1, v3, v4]
      show (10 : ℚ) ≤ 8 + (0 + 2)
      decide +kernel
  · rw [hex]
    intro hall
    have := hall _ (List.mem_of_getElem? (i := 1) rfl) "F" 10 rfl ⟨_, List.mem_of_getElem? (i := 1) rfl, rfl, "10", rfl, rfl⟩ (by simp [listedTerms])
      (Or.inl ⟨_, List.mem_of_getElem? (i := 0) rfl, hsup⟩)
    rw [v2, v3, v4] at this
    have : (10 : ℚ) ≤ 4 + (0 + 2) := this
    exact absurd this (by decide +kernel)

end Verif.Cons
