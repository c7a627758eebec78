import Verif.Proofs.Summary
import Verif.Props.Outputs
import Verif.Props.Regional
import Mathlib.Algebra.Order.BigOperators.Group.List

/-!
# C33: the regional dispatch summary
-/

namespace Verif

theorem mem_joinRegion {rows : List SummaryRow} {t : List (String × ℚ)} {f : SummaryRow → ℚ → SummaryRow} {s : SummaryRow} :
    s ∈ joinRegion rows t f ↔ ∃ r ∈ rows, ∃ e ∈ t, e.1 = r.region ∧ s = f r e.2 := by
  unfold joinRegion
  simp only [List.mem_flatMap, List.mem_map, List.mem_filter, decide_eq_true_eq]
  constructor
  · rintro ⟨r, hr, e, ⟨he, h⟩, rfl⟩; exact ⟨r, hr, e, he, h, rfl⟩
  · rintro ⟨r, hr, e, he, h, rfl⟩; exact ⟨r, hr, e, ⟨he, h⟩, rfl⟩

theorem joinRegion_sublist {rows : List SummaryRow} {t : List (String × ℚ)} (ht : (t.map Prod.fst).Nodup) {f : SummaryRow → ℚ → SummaryRow}
    (hf : ∀ r v, (f r v).region = r.region) : ((joinRegion rows t f).map SummaryRow.region).Sublist (rows.map SummaryRow.region) := by
  unfold joinRegion
  induction rows with
  | nil => simp
  | cons r rows ih =>
    rw [List.flatMap_cons, List.map_append, List.map_cons]
    by_cases h : ∃ e ∈ t, e.1 = r.region
    · obtain ⟨e, he, h⟩ := h
      rw [← h, filter_key_unique ht he]
      simp only [List.map_cons, List.map_nil, hf, List.singleton_append]
      rw [h]
      exact ih.cons₂ _
    · rw [List.filter_eq_nil_iff.2 (by
        intro e he hh; exact h ⟨e, he, of_decide_eq_true hh⟩)]
      simpa using ih.cons _

/-- the loss columns of the summary -/
theorem charged_total {m : Market} {fs : List LossFn} {ds : List InterDef} (hk : (ds.map (fun d => (d.inter, d.link))).Nodup) (hd : m.dirs = some ds)
    (x : Nat → ℚ) :
    (∀ r, m.properLinks fs → ∀ e ∈ lossesByRegion (fs.map (fun f => (f.inter, f.link, f.share))) ds (ds.map (m.flowRow x)), e.1 = r →
      e.2 = m.chargedLoss x fs r) ∧
    ∀ r, (∃ e ∈ lossesByRegion (fs.map (fun f => (f.inter, f.link, f.share))) ds (ds.map (m.flowRow x)), e.1 = r) ↔
      ∃ d ∈ ds, (d.toR = r ∨ d.fromR = r) ∧ ∃ f ∈ fs, f.inter = d.inter ∧ f.link = d.link := by
  have hL : ∀ d ∈ ds, ((((fs.map (fun f => (f.inter, f.link, f.share))).flatMap (fun s : String × String × ℚ =>
      (ds.filter (fun d : InterDef => decide (d.inter = s.1 ∧ d.link = s.2.1))).map (fun d : InterDef => (s.1, s.2.1, d.fromR, s.2.2)))) ++
    ((fs.map (fun f => (f.inter, f.link, f.share))).flatMap (fun s : String × String × ℚ =>
      (ds.filter (fun d : InterDef => decide (d.inter = s.1 ∧ d.link = s.2.1))).map (fun d : InterDef => (s.1, s.2.1, d.toR, 1 - s.2.2))))).filter
        (fun s => decide (s.1 = d.inter ∧ s.2.1 = d.link))) =
      (fs.filter (fun f => decide (f.inter = d.inter ∧ f.link = d.link))).map (fun f => (f.inter, f.link, d.fromR, f.share)) ++
      (fs.filter (fun f => decide (f.inter = d.inter ∧ f.link = d.link))).map (fun f => (f.inter, f.link, d.toR, 1 - f.share)) := by
    intro d hdm
    rw [List.filter_append, regional_list hk hdm (fun d => d.fromR) (fun q => q), regional_list hk hdm (fun d => d.toR) (fun q => 1 - q)]
  have hloss : ∀ d, (m.flowRow x d).losses.getD 0 = m.linkLoss x d.inter d.link := by
    intro d
    unfold Market.flowRow
    split
    · rename_i h
      unfold Market.linkLoss
      rw [h]; rfl
    · rfl
  have hlist : lossesByRegion (fs.map (fun f => (f.inter, f.link, f.share))) ds (ds.map (m.flowRow x)) =
      groupSum Prod.fst Prod.snd (ds.flatMap (fun d =>
        (fs.filter (fun f => decide (f.inter = d.inter ∧ f.link = d.link))).map (fun f => (d.fromR, m.linkLoss x d.inter d.link * f.share)) ++
        (fs.filter (fun f => decide (f.inter = d.inter ∧ f.link = d.link))).map (fun f => (d.toR, m.linkLoss x d.inter d.link * (1 - f.share))))) := by
    unfold lossesByRegion
    simp only
    rw [List.flatMap_map]
    congr 1
    apply List.flatMap_congr
    intro d hdm
    rw [show (m.flowRow x d).inter = d.inter from rfl, show (m.flowRow x d).link = d.link from rfl, hL d hdm, hloss, List.map_append, List.map_map, List.map_map]
    rfl
  constructor
  · intro r hp e he her
    rw [hlist, mem_group_total] at he
    rw [he.2, her, totalAt_flatMap]
    unfold Market.chargedLoss
    rw [hd, Option.getD_some]
    apply sum_map_congr
    intro d hdm
    rw [totalAt_append]
    unfold totalAt
    rw [List.map_map, List.map_map, ← sum_map_add]
    apply sum_map_congr
    intro f hf
    have hf := List.mem_filter.1 hf
    have hff := of_decide_eq_true hf.2
    unfold Market.properLinks at hp
    rw [hd, Option.getD_some] at hp
    have hne := hp d hdm f hf.1 hff.1 hff.2
    simp only [Function.comp, lossCharge]
    by_cases c1 : d.fromR = r
    · rw [if_pos c1, if_neg (fun c2 => hne (c1.trans c2.symm)), if_pos c1.symm]; ring
    · rw [if_neg c1, if_neg (show ¬ r = d.fromR from fun h => c1 h.symm)]
      by_cases c2 : d.toR = r
      · rw [if_pos c2, if_pos c2.symm]; ring
      · rw [if_neg c2, if_neg (show ¬ r = d.toR from fun h => c2 h.symm)]; ring
  · intro r
    rw [hlist]
    constructor
    · rintro ⟨e, he, her⟩
      rw [mem_group_total] at he
      obtain ⟨⟨a, ha, hae⟩, _⟩ := he
      obtain ⟨d, hdm, ha⟩ := List.mem_flatMap.1 ha
      rcases List.mem_append.1 ha with ha | ha
      · obtain ⟨f, hf, rfl⟩ := List.mem_map.1 ha
        have hf := List.mem_filter.1 hf
        exact ⟨d, hdm, Or.inr (hae.trans her), f, hf.1, of_decide_eq_true hf.2⟩
      · obtain ⟨f, hf, rfl⟩ := List.mem_map.1 ha
        have hf := List.mem_filter.1 hf
        exact ⟨d, hdm, Or.inl (hae.trans her), f, hf.1, of_decide_eq_true hf.2⟩
    · rintro ⟨d, hdm, hr, f, hf, hff⟩
      refine ⟨(r, totalAt _ r), mem_group_total.2 ⟨?_, rfl⟩, rfl⟩
      have hf' : f ∈ fs.filter (fun f => decide (f.inter = d.inter ∧ f.link = d.link)) := List.mem_filter.2 ⟨hf, decide_eq_true hff⟩
      rcases hr with rfl | rfl
      · exact ⟨_, List.mem_flatMap.2 ⟨d, hdm, List.mem_append_right _ (List.mem_map_of_mem (f := fun f : LossFn => (d.toR, _)) hf')⟩, rfl⟩
      · exact ⟨_, List.mem_flatMap.2 ⟨d, hdm, List.mem_append_left _ (List.mem_map_of_mem (f := fun f : LossFn => (d.fromR, _)) hf')⟩, rfl⟩

/-- the regions of the net dispatch -/
theorem net_regions {m : Market} {x : Nat → ℚ} {us : List DispatchRow} (hu : m.unitDispatch x = .ok us) (g : String) :
    (∃ e ∈ m.netByRegion us, e.1 = g) ↔ m.hasSupply g .energy := by
  obtain ⟨c1, c2, c3⟩ := C29_unit_dispatch hu
  unfold Market.netByRegion
  constructor
  · rintro ⟨e, he, rfl⟩
    obtain ⟨⟨a, ha, hae⟩, _⟩ := mem_group_total.1 he
    obtain ⟨r, hr, ha⟩ := List.mem_flatMap.1 ha
    obtain ⟨u, hu, rfl⟩ := List.mem_map.1 ha
    have hr := List.mem_filter.1 hr
    have hu := List.mem_filter.1 hu
    have hu2 := of_decide_eq_true hu.2
    refine ⟨u, hu.1, hae, ?_⟩
    exact (c2 _ _ _).1 ⟨r, hr.1, hu2.1.symm, hu2.2.symm, of_decide_eq_true hr.2⟩
  · rintro ⟨u, hum, rfl, hb⟩
    obtain ⟨r, hr, r1, r2, r3⟩ := (c2 _ _ _).2 hb
    refine ⟨(u.region, totalAt _ u.region), mem_group_total.2 ⟨?_, rfl⟩, rfl⟩
    refine ⟨(u.region, _), List.mem_flatMap.2 ⟨r, List.mem_filter.2 ⟨hr, decide_eq_true r3⟩, List.mem_map.2 ⟨u, List.mem_filter.2 ⟨hum, ?_⟩, rfl⟩⟩, rfl⟩
    exact decide_eq_true ⟨r1.symm, r2.symm⟩

/-- What the summary consists of. -/
theorem summary_parts {m : Market} (hr : Reached m) {fs : List LossFn} (hf : LossFunctions fs m) {x : Nat → ℚ} {rows : List SummaryRow}
    (h : m.regionSummary x = .ok rows) :
    (rows.map SummaryRow.region).Nodup ∧
    (∀ r ∈ rows, r.dispatch = m.supply x r.region .energy) ∧
    (m.dirs = none → (∀ r ∈ rows, r.inflow = none ∧ r.transmission = none ∧ r.losses = none) ∧
      ∀ g, (∃ r ∈ rows, r.region = g) ↔ m.hasSupply g .energy) ∧
    (∀ ds, m.dirs = some ds →
      (∀ r ∈ rows, r.inflow = some (m.inflow x r.region) ∧
        r.transmission = some (totalAt (ds.flatMap (fun d => [(d.fromR, transmissionLoss false (m.flow x d.inter d.link) d.fromLf),
          (d.toR, transmissionLoss true (m.flow x d.inter d.link) d.toLf)])) r.region) ∧
        (m.properLinks fs → r.losses.getD 0 = m.chargedLoss x fs r.region)) ∧
      ∀ g, (∃ r ∈ rows, r.region = g) ↔ m.hasLink g ∧ (m.lossShares ≠ none →
        ∃ d ∈ ds, (d.toR = g ∨ d.fromR = g) ∧ ∃ f ∈ fs, f.inter = d.inter ∧ f.link = d.link)) := by
  have hw := hr.wf
  unfold Market.regionSummary at h
  cases hu : m.unitDispatch x with
  | error e => rw [hu] at h; cases h
  | ok us =>
    obtain ⟨c1, c2, c3⟩ := C29_unit_dispatch hu
    have hnet := net_total c1 c2 c3
    have hnetmem := net_regions hu
    have hnetval : ∀ g, (((m.netByRegion us).filter (fun e => decide (e.1 = g))).map Prod.snd).sum = m.supply x g .energy := by
      intro g
      unfold Market.netByRegion
      rw [groupSum_total, hnet]
    rw [hu] at h
    simp only at h
    cases hd : m.dirs with
    | none =>
      rw [hd] at h
      simp only [Except.ok.injEq] at h
      subst h
      have hmm : ∀ r ∈ (m.netByRegion us).map (fun g => ({ region := g.1, dispatch := g.2 } : SummaryRow)), ∃ g ∈ m.netByRegion us,
          r = { region := g.1, dispatch := g.2 } := by
        intro r hr; obtain ⟨g, hg, rfl⟩ := List.mem_map.1 hr; exact ⟨g, hg, rfl⟩
      refine ⟨?_, ?_, fun _ => ⟨?_, ?_⟩, fun _ h => by cases h⟩
      · rw [List.map_map]; exact groupSum_nodup _ _ _
      · intro r hr
        obtain ⟨g, hg, rfl⟩ := hmm r hr
        exact ((mem_group_total.1 hg).2).trans (hnet g.1)
      · intro r hr
        obtain ⟨g, hg, rfl⟩ := hmm r hr
        exact ⟨rfl, rfl, rfl⟩
      · intro g
        rw [← hnetmem]
        constructor
        · rintro ⟨r, hr, rfl⟩
          obtain ⟨g, hg, rfl⟩ := hmm r hr
          exact ⟨g, hg, rfl⟩
        · rintro ⟨e, he, rfl⟩
          exact ⟨_, List.mem_map_of_mem he, rfl⟩
    | some ds =>
      obtain ⟨n, hi, hk⟩ := inters_of hw hd
      rw [hd, interFlows_eq hw hf hd x] at h
      simp only at h
      split at h
      · cases h
      rename_i hne
      have hinf : inflowByRegion ds (ds.map (m.flowRow x)) = groupSum Prod.fst Prod.snd
          (ds.map (fun d => (d.toR, m.flow x d.inter d.link * 1)) ++ ds.map (fun d => (d.fromR, m.flow x d.inter d.link * -1))) := by
        unfold inflowByRegion; rw [inflow_list hk x]
      have htr : transmissionByRegion ds (ds.map (m.flowRow x)) = groupSum Prod.fst Prod.snd
          (ds.flatMap (fun d => [(d.fromR, transmissionLoss false (m.flow x d.inter d.link) d.fromLf), (d.toR, transmissionLoss true (m.flow x d.inter d.link) d.toLf)])) := by
        unfold transmissionByRegion; rw [transmission_list hk x]
      have hlinkT : ∀ g, (∃ e ∈ transmissionByRegion ds (ds.map (m.flowRow x)), e.1 = g) ↔ m.hasLink g := by
        intro g
        rw [htr]
        unfold Market.hasLink
        rw [hd, Option.getD_some]
        constructor
        · rintro ⟨e, he, rfl⟩
          obtain ⟨⟨a, ha, hae⟩, _⟩ := mem_group_total.1 he
          obtain ⟨d, hdm, ha⟩ := List.mem_flatMap.1 ha
          simp only [List.mem_cons, List.not_mem_nil, or_false] at ha
          rcases ha with rfl | rfl
          · exact ⟨d, hdm, Or.inr hae⟩
          · exact ⟨d, hdm, Or.inl hae⟩
        · rintro ⟨d, hdm, h⟩
          refine ⟨(g, totalAt _ g), mem_group_total.2 ⟨?_, rfl⟩, rfl⟩
          rcases h with h | h
          · exact ⟨(d.toR, _), List.mem_flatMap.2 ⟨d, hdm, by simp; exact Or.inr rfl⟩, h⟩
          · exact ⟨(d.fromR, _), List.mem_flatMap.2 ⟨d, hdm, by simp; exact Or.inl rfl⟩, h⟩
      have hlinkI : ∀ g, m.hasLink g → g ∈ (inflowByRegion ds (ds.map (m.flowRow x))).map Prod.fst := by
        rintro g ⟨d, hdm, h⟩
        rw [hd, Option.getD_some] at hdm
        rw [hinf, groupSum_keys, List.mem_dedup, List.map_append, List.mem_append, List.map_map, List.map_map]
        rcases h with rfl | rfl
        · exact Or.inl (List.mem_map.2 ⟨d, hdm, rfl⟩)
        · exact Or.inr (List.mem_map.2 ⟨d, hdm, rfl⟩)
      -- the table before losses
      generalize ho : (((m.netByRegion us).map Prod.fst ++ (inflowByRegion ds (ds.map (m.flowRow x))).map Prod.fst).dedup).map (fun g =>
            ({ region := g, dispatch := (((m.netByRegion us).filter (fun e => decide (e.1 = g))).map Prod.snd).sum,
               inflow := some (((inflowByRegion ds (ds.map (m.flowRow x))).filter (fun e => decide (e.1 = g))).map Prod.snd).sum } : SummaryRow)) = outer at h
      have houter : ∀ r ∈ outer, r.dispatch = m.supply x r.region .energy ∧ r.inflow = some (m.inflow x r.region) ∧ r.losses = none := by
        intro r hr
        rw [← ho] at hr
        obtain ⟨g, hg, rfl⟩ := List.mem_map.1 hr
        refine ⟨hnetval g, ?_, rfl⟩
        simp only [Option.some.injEq]
        rw [hinf, groupSum_total, inflow_total x hd]
      have houtreg : (outer.map SummaryRow.region).Nodup := by
        rw [← ho, List.map_map]
        refine List.Nodup.map (fun a b h => h) ?_
        exact List.nodup_dedup _
      have houtmem : ∀ g, m.hasLink g → ∃ r ∈ outer, r.region = g := by
        intro g hg
        rw [← ho]
        exact ⟨_, List.mem_map_of_mem (List.mem_dedup.2 (List.mem_append_right _ (hlinkI g hg))), rfl⟩
      generalize hs : joinRegion outer (transmissionByRegion ds (ds.map (m.flowRow x))) (fun r v => { r with transmission := some v }) = s at h
      have hsmem : ∀ r ∈ s, r.dispatch = m.supply x r.region .energy ∧ r.inflow = some (m.inflow x r.region) ∧ r.losses = none ∧
          r.transmission = some (totalAt (ds.flatMap (fun d => [(d.fromR, transmissionLoss false (m.flow x d.inter d.link) d.fromLf),
          (d.toR, transmissionLoss true (m.flow x d.inter d.link) d.toLf)])) r.region) ∧ m.hasLink r.region := by
        intro r hr
        rw [← hs] at hr
        obtain ⟨q, hq, e, he, heq, rfl⟩ := mem_joinRegion.1 hr
        obtain ⟨o1, o2, o3⟩ := houter q hq
        refine ⟨o1, o2, o3, ?_, (hlinkT _).1 ⟨e, he, heq⟩⟩
        rw [htr] at he
        simp only [Option.some.injEq]
        rw [(mem_group_total.1 he).2, heq]
      have hsreg : (s.map SummaryRow.region).Nodup := by
        rw [← hs]
        exact houtreg.sublist (joinRegion_sublist (by rw [htr]; exact groupSum_nodup _ _ _) (fun _ _ => rfl))
      have hslink : ∀ g, m.hasLink g → ∃ r ∈ s, r.region = g := by
        intro g hg
        obtain ⟨q, hq, hqr⟩ := houtmem g hg
        obtain ⟨e, he, heg⟩ := (hlinkT g).2 hg
        rw [← hs]
        exact ⟨_, mem_joinRegion.2 ⟨q, hq, e, he, by rw [hqr, heg], rfl⟩, hqr⟩
      rcases shares_of hf with ⟨rfl, hsh, hlo⟩ | ⟨bs, ds', n', nv, nc, n1, n2, nw, ht, hsh⟩
      · rw [hsh] at h
        simp only [Except.ok.injEq] at h
        subst h
        refine ⟨hsreg, fun r hr => (hsmem r hr).1, fun h => by simp at h, ?_⟩
        intro ds' hds'
        injection hds' with hds'; subst hds'
        refine ⟨fun r hr => ⟨(hsmem r hr).2.1, (hsmem r hr).2.2.2.1, fun _ => ?_⟩, fun g => ⟨?_, ?_⟩⟩
        · rw [(hsmem r hr).2.2.1]
          unfold Market.chargedLoss
          symm
          apply sum_map_zero
          intro d _; rfl
        · rintro ⟨r, hr, rfl⟩
          exact ⟨(hsmem r hr).2.2.2.2, fun h => absurd hsh h⟩
        · rintro ⟨hg, _⟩
          exact hslink g hg
      · rw [hsh] at h
        simp only at h
        split at h
        · cases h
        injection h with h
        obtain ⟨t1, t2⟩ := charged_total (fs := fs) hk hd x
        have hrows : ∀ r ∈ rows, ∃ q ∈ s, ∃ e ∈ lossesByRegion (fs.map (fun f => (f.inter, f.link, f.share))) ds (ds.map (m.flowRow x)),
            e.1 = q.region ∧ r = { q with losses := some e.2 } := by
          intro r hr; rw [← h] at hr; exact mem_joinRegion.1 hr
        refine ⟨?_, ?_, fun h => by simp at h, ?_⟩
        · rw [← h]
          exact hsreg.sublist (joinRegion_sublist (by unfold lossesByRegion; exact groupSum_nodup _ _ _) (fun _ _ => rfl))
        · intro r hr
          obtain ⟨q, hq, e, he, heq, rfl⟩ := hrows r hr
          exact (hsmem q hq).1
        · intro ds' hds'
          injection hds' with hds'; subst hds'
          refine ⟨?_, fun g => ⟨?_, ?_⟩⟩
          · intro r hr
            obtain ⟨q, hq, e, he, heq, rfl⟩ := hrows r hr
            exact ⟨(hsmem q hq).2.1, (hsmem q hq).2.2.2.1, fun hp => t1 _ hp e he heq⟩
          · rintro ⟨r, hr, rfl⟩
            obtain ⟨q, hq, e, he, heq, rfl⟩ := hrows r hr
            exact ⟨(hsmem q hq).2.2.2.2, fun _ => (t2 _).1 ⟨e, he, heq⟩⟩
          · rintro ⟨hg, hl⟩
            obtain ⟨q, hq, hqr⟩ := hslink g hg
            obtain ⟨e, he, heg⟩ := (t2 g).2 (hl (by rw [hsh]; simp))
            rw [← h]
            exact ⟨_, mem_joinRegion.2 ⟨q, hq, e, he, by rw [hqr, heg], rfl⟩, hqr⟩

/-- **C33** Regions appear once, with the net energy supply of their units, the net flow into the region before
transmission losses and the interconnector losses charged to the region. -/
theorem C33_columns {m : Market} (hr : Reached m) {fs : List LossFn} (hf : LossFunctions fs m) (hp : m.properLinks fs) {x : Nat → ℚ}
    {rows : List SummaryRow} (h : m.regionSummary x = .ok rows) :
    (rows.map SummaryRow.region).Nodup ∧ ∀ r ∈ rows, r.dispatch = m.supply x r.region .energy ∧
      (m.dirs ≠ none → r.inflow = some (m.inflow x r.region)) ∧ (m.dirs = none → r.inflow = none ∧ r.transmission = none ∧ r.losses = none) ∧
      r.losses.getD 0 = m.chargedLoss x fs r.region := by
  obtain ⟨h1, h2, h3, h4⟩ := summary_parts hr hf h
  refine ⟨h1, fun r hr => ⟨h2 r hr, fun hn => ?_, fun hn => (h3 hn).1 r hr, ?_⟩⟩
  · obtain ⟨ds, hd⟩ := Option.ne_none_iff_exists'.1 hn
    exact ((h4 ds hd).1 r hr).1
  · cases hd : m.dirs with
    | none =>
      rw [((h3 hd).1 r hr).2.2]
      unfold Market.chargedLoss
      rw [hd]; rfl
    | some ds => exact ((h4 ds hd).1 r hr).2.2 hp

/-- **C33** (column transmission losses) At the end of a link where its flow arrives, a region is charged the flow times one less the loss
factor, with the sign of the flow; at the end where the flow leaves, the flow less the flow divided by the loss factor.  Missing from the
property: these are the losses of the regional balance only in the cases of `C33_balance_partial`. -/
theorem C33_transmission_partial {m : Market} (hr : Reached m) {fs : List LossFn} (hf : LossFunctions fs m) {x : Nat → ℚ}
    {rows : List SummaryRow} (h : m.regionSummary x = .ok rows) {ds : List InterDef} (hd : m.dirs = some ds) {r : SummaryRow} (hm : r ∈ rows) :
    r.transmission = some ((ds.map (fun d =>
      (if d.fromR = r.region then
        if 0 < m.flow x d.inter d.link then m.flow x d.inter d.link - m.flow x d.inter d.link / d.fromLf
        else m.flow x d.inter d.link * (1 - d.fromLf)
      else 0) +
      (if d.toR = r.region then
        if m.flow x d.inter d.link < 0 then -m.flow x d.inter d.link + m.flow x d.inter d.link / d.toLf
        else m.flow x d.inter d.link * (1 - d.toLf)
      else 0))).sum) := by
  rw [(((summary_parts hr hf h).2.2.2 ds hd).1 r hm).2.1, totalAt_flatMap]
  congr 1
  apply sum_map_congr
  intro d _
  unfold totalAt
  simp only [List.map_cons, List.map_nil, List.sum_cons, List.sum_nil, add_zero]
  generalize m.flow x d.inter d.link = f
  have e1 : transmissionLoss false f d.fromLf = if 0 < f then f - f / d.fromLf else f * (1 - d.fromLf) := by
    unfold transmissionLoss
    by_cases h : 0 < f
    · rw [if_pos h, if_neg (by simp [h]), abs_of_pos h]
    · rw [if_neg h, if_pos (by simpa using h)]
  have e2 : transmissionLoss true f d.toLf = if f < 0 then -f + f / d.toLf else f * (1 - d.toLf) := by
    unfold transmissionLoss
    by_cases h : f < 0
    · rw [if_pos h, if_neg (by simp [h]), abs_of_neg h]; ring
    · rw [if_neg h, if_pos (by simpa using h)]
  rw [e1, e2]

/-- **C33** (rows) The summary is reported exactly if volume bids were made and, once interconnectors are defined, there
is a link; otherwise the call raises. -/
theorem C33_available {m : Market} (hr : Reached m) {fs : List LossFn} (hf : LossFunctions fs m) (x : Nat → ℚ) :
    (∃ rows, m.regionSummary x = .ok rows) ↔ m.bids ≠ none ∧ (m.dirs ≠ none → ∃ g, m.hasLink g) := by
  have hw := hr.wf
  unfold Market.regionSummary
  cases hb : m.bids with
  | none =>
    have hu : m.unitDispatch x = .error .keyError := by unfold Market.unitDispatch; rw [hb]
    rw [hu]
    exact iff_of_false (by rintro ⟨_, h⟩; cases h) (fun h => h.1 rfl)
  | some bs =>
    obtain ⟨us, hu⟩ : ∃ us, m.unitDispatch x = .ok us := by unfold Market.unitDispatch; rw [hb]; exact ⟨_, rfl⟩
    rw [hu]
    have hsome : some bs ≠ none := by simp
    dsimp only
    cases hd : m.dirs with
    | none => exact iff_of_true ⟨_, rfl⟩ ⟨hsome, fun h => absurd rfl h⟩
    | some ds =>
      dsimp only
      rw [interFlows_eq hw hf hd x]
      dsimp only
      by_cases hE : ds.isEmpty = true
      · rw [if_pos hE]
        refine iff_of_false (by rintro ⟨_, h⟩; cases h) ?_
        rintro ⟨_, h⟩
        obtain ⟨g, d, hdm, _⟩ := h (by simp)
        rw [hd, List.isEmpty_iff.1 hE] at hdm
        cases hdm
      rw [if_neg hE]
      have hlink : ∃ g, m.hasLink g := by
        cases ds with
        | nil => exact absurd rfl hE
        | cons d l => exact ⟨d.toR, d, by rw [hd]; simp, Or.inl rfl⟩
      refine iff_of_true ?_ ⟨hsome, fun _ => hlink⟩
      rcases shares_of hf with ⟨rfl, hsh, hlo⟩ | ⟨bs, ds', n', nv, nc, n1, n2, nw, ht, hsh⟩
      · rw [hsh]; exact ⟨_, rfl⟩
      · rw [hsh, ht.losses]; exact ⟨_, rfl⟩

/-- **C33** (rows) In a market without interconnectors the summary lists exactly the regions where a unit bids for
energy. -/
theorem C33_rows_without_links {m : Market} (hr : Reached m) {fs : List LossFn} (hf : LossFunctions fs m) {x : Nat → ℚ}
    {rows : List SummaryRow} (h : m.regionSummary x = .ok rows) (hd : m.dirs = none) (g : String) :
    (∃ r ∈ rows, r.region = g) ↔ m.hasSupply g .energy :=
  ((summary_parts hr hf h).2.2.1 hd).2 g

/-- **C33** (rows) With interconnectors and no loss functions the summary lists exactly the regions where a link starts
or ends, whether or not they have units.  Missing from the property: regions with units and no link, see
`C33_region_dropped_negation`. -/
theorem C33_rows_with_links_partial {m : Market} (hr : Reached m) (hf : LossFunctions [] m) {x : Nat → ℚ}
    {rows : List SummaryRow} (h : m.regionSummary x = .ok rows) (hd : m.dirs ≠ none) (hs : m.lossShares = none) (g : String) :
    (∃ r ∈ rows, r.region = g) ↔ m.hasLink g := by
  obtain ⟨ds, hd⟩ := Option.ne_none_iff_exists'.1 hd
  rw [((summary_parts hr hf h).2.2.2 ds hd).2 g]
  exact ⟨fun h => h.1, fun h => ⟨h, fun hn => absurd hs hn⟩⟩

/-- **C33** (rows) With loss functions the summary lists exactly the regions where a link with a loss function starts or
ends. -/
theorem C33_rows_with_losses_partial {m : Market} (hr : Reached m) {fs : List LossFn} (hf : LossFunctions fs m) {x : Nat → ℚ}
    {rows : List SummaryRow} (h : m.regionSummary x = .ok rows) {ds : List InterDef} (hd : m.dirs = some ds) (hs : m.lossShares ≠ none) (g : String) :
    (∃ r ∈ rows, r.region = g) ↔ ∃ d ∈ ds, (d.toR = g ∨ d.fromR = g) ∧ ∃ f ∈ fs, f.inter = d.inter ∧ f.link = d.link := by
  rw [((summary_parts hr hf h).2.2.2 ds hd).2 g]
  refine ⟨fun h => h.2 hs, fun h => ⟨?_, fun _ => h⟩⟩
  obtain ⟨d, hdm, hh, _⟩ := h
  exact ⟨d, by rw [hd]; exact hdm, hh⟩

/-- **C33** In every row of the summary of a feasible dispatch, dispatch plus inflow less transmission losses less
interconnector losses is the demand of the region, provided the regional loss factors at the region's ends of links
are 1 (or the link is idle, or it ends there and flows into the region).  Missing: other regional loss factors, for
which the statement is false, see `C33_balance_negation`. -/
theorem C33_balance_partial {ds : List Demand} {fs : List LossFn} {m : Market} (h : InForce (.demand ds none) m)
    (hf : LossFunctions fs m) (hp : m.properLinks fs) {lp : Lp} (hl : m.assemble = .ok lp) {x : Nat → ℚ} (hx : Feasible lp x)
    {rows : List SummaryRow} (hs : m.regionSummary x = .ok rows) {r : SummaryRow} (hr : r ∈ rows) {d : Demand} (hd : d ∈ ds)
    (hreg : d.region = r.region)
    (hlf : ∀ l ∈ m.dirs.getD [], (l.fromR = r.region → l.fromLf = 1 ∨ m.flow x l.inter l.link = 0) ∧
      (l.toR = r.region → l.toLf = 1 ∨ 0 ≤ m.flow x l.inter l.link)) :
    r.dispatch + r.inflow.getD 0 - r.transmission.getD 0 - r.losses.getD 0 = d.demand := by
  obtain ⟨h1, h2, h3, h4⟩ := summary_parts h.reached hf hs
  obtain ⟨c1, c2⟩ := C33_columns h.reached hf hp hs
  have hsup : m.hasSupply d.region .energy ∨ m.hasLink d.region := by
    rw [hreg]
    cases hdd : m.dirs with
    | none => exact Or.inl (((h3 hdd).2 _).1 ⟨r, hr, rfl⟩)
    | some l => exact Or.inr ((((h4 l hdd).2 _).1 ⟨r, hr, rfl⟩).1)
  rw [← C13_regional_balance h hf hp hl hx hd hsup, hreg, (c2 r hr).1, (c2 r hr).2.2.2]
  cases hdd : m.dirs with
  | none =>
    rw [((h3 hdd).1 r hr).1, ((h3 hdd).1 r hr).2.1]
    unfold Market.netImport
    rw [hdd]; simp
  | some l =>
    rw [((h4 l hdd).1 r hr).1, ((h4 l hdd).1 r hr).2.1]
    rw [hdd, Option.getD_some] at hlf
    rw [← import_total x hdd r.region hlf]
    simp only [Option.getD_some]
    ring

/-- **C33** By how much the rows of the summary fail to balance: exactly the sum of the gaps of the links at the region. -/
theorem C33_imbalance_partial {ds : List Demand} {fs : List LossFn} {m : Market} (h : InForce (.demand ds none) m)
    (hf : LossFunctions fs m) (hp : m.properLinks fs) {lp : Lp} (hl : m.assemble = .ok lp) {x : Nat → ℚ} (hx : Feasible lp x)
    {rows : List SummaryRow} (hs : m.regionSummary x = .ok rows) {r : SummaryRow} (hr : r ∈ rows) {d : Demand} (hd : d ∈ ds)
    (hreg : d.region = r.region) (hpos : ∀ l ∈ m.dirs.getD [], 0 < l.fromLf ∧ 0 < l.toLf) :
    r.dispatch + r.inflow.getD 0 - r.transmission.getD 0 - r.losses.getD 0 =
      d.demand + ((m.dirs.getD []).map (fun l => linkGap r.region l (m.flow x l.inter l.link))).sum := by
  obtain ⟨h1, h2, h3, h4⟩ := summary_parts h.reached hf hs
  obtain ⟨c1, c2⟩ := C33_columns h.reached hf hp hs
  have hsup : m.hasSupply d.region .energy ∨ m.hasLink d.region := by
    rw [hreg]
    cases hdd : m.dirs with
    | none => exact Or.inl (((h3 hdd).2 _).1 ⟨r, hr, rfl⟩)
    | some l => exact Or.inr ((((h4 l hdd).2 _).1 ⟨r, hr, rfl⟩).1)
  rw [← C13_regional_balance h hf hp hl hx hd hsup, hreg, (c2 r hr).1, (c2 r hr).2.2.2]
  cases hdd : m.dirs with
  | none =>
    rw [((h3 hdd).1 r hr).1, ((h3 hdd).1 r hr).2.1]
    unfold Market.netImport
    rw [hdd]; simp
  | some l =>
    rw [hdd, Option.getD_some] at hpos
    have key : m.inflow x r.region - r.transmission.getD 0 =
        m.netImport x r.region + (l.map (fun d => linkGap r.region d (m.flow x d.inter d.link))).sum := by
      rw [C33_transmission_partial h.reached hf hs hdd hr, Option.getD_some]
      unfold Market.inflow Market.netImport
      rw [hdd, Option.getD_some, ← sum_map_sub, ← sum_map_add]
      apply sum_map_congr
      intro d hdm
      obtain ⟨p1, p2⟩ := hpos d hdm
      unfold linkGap
      generalize m.flow x d.inter d.link = f
      have k1 : f * (1 - d.fromLf) ^ 2 / d.fromLf = d.fromLf * f - f - (f - f / d.fromLf) := by
        rw [div_eq_iff p1.ne', sub_mul, sub_mul, sub_mul, div_mul_cancel₀ _ p1.ne']; ring
      have k2 : -f * (1 - d.toLf) ^ 2 / d.toLf = f - d.toLf * f - (-f + f / d.toLf) := by
        rw [div_eq_iff p2.ne', sub_mul, sub_mul, add_mul, div_mul_cancel₀ _ p2.ne']; ring
      rw [k1, k2]
      split_ifs <;> ring
    rw [((h4 l hdd).1 r hr).1, Option.getD_some, Option.getD_some]
    linarith

theorem linkGap_nonneg {r : String} {d : InterDef} {f : ℚ} (h1 : 0 < d.fromLf ∧ d.fromLf ≤ 1) (h2 : 0 < d.toLf ∧ d.toLf ≤ 1) : 0 ≤ linkGap r d f := by
  unfold linkGap
  apply add_nonneg
  · split_ifs with c1 c2
    · exact div_nonneg (mul_nonneg c2.le (sq_nonneg _)) h1.1.le
    · have : 0 ≤ (-f) * (1 - d.fromLf) := mul_nonneg (by linarith) (by linarith)
      linarith
    · exact le_rfl
  · split_ifs with c1 c2
    · exact div_nonneg (mul_nonneg (by linarith) (sq_nonneg _)) h2.1.le
    · exact le_rfl
    · exact le_rfl

theorem linkGap_zero_iff {r : String} {d : InterDef} {f : ℚ} (h1 : 0 < d.fromLf ∧ d.fromLf ≤ 1) (h2 : 0 < d.toLf ∧ d.toLf ≤ 1) :
    linkGap r d f = 0 ↔ (d.fromR = r → d.fromLf = 1 ∨ f = 0) ∧ (d.toR = r → d.toLf = 1 ∨ 0 ≤ f) := by
  have hA : (if d.fromR = r then if 0 < f then f * (1 - d.fromLf) ^ 2 / d.fromLf else -2 * f * (1 - d.fromLf) else 0) = 0 ↔
      (d.fromR = r → d.fromLf = 1 ∨ f = 0) := by
    split_ifs with c1 c2
    · rw [div_eq_zero_iff, mul_eq_zero, sq_eq_zero_iff, sub_eq_zero]
      simp only [c1, forall_const, h1.1.ne', or_false]
      exact ⟨fun h => h.elim Or.inr (fun h => Or.inl h.symm), fun h => h.elim (fun h => Or.inr h.symm) Or.inl⟩
    · rw [mul_eq_zero, mul_eq_zero, sub_eq_zero]
      simp only [c1, forall_const]
      constructor
      · rintro ((h | h) | h)
        · norm_num at h
        · exact Or.inr h
        · exact Or.inl h.symm
      · rintro (h | h)
        · exact Or.inr h.symm
        · exact Or.inl (Or.inr h)
    · simp [c1]
  have hB : (if d.toR = r then if f < 0 then -f * (1 - d.toLf) ^ 2 / d.toLf else 0 else 0) = 0 ↔ (d.toR = r → d.toLf = 1 ∨ 0 ≤ f) := by
    split_ifs with c1 c2
    · rw [div_eq_zero_iff, mul_eq_zero, sq_eq_zero_iff, sub_eq_zero, neg_eq_zero]
      simp only [c1, forall_const, h2.1.ne', or_false]
      constructor
      · rintro (h | h)
        · exact absurd c2 (by rw [h]; exact lt_irrefl _)
        · exact Or.inl h.symm
      · rintro (h | h)
        · exact Or.inr h.symm
        · exact absurd c2 (not_lt.2 h)
    · simp only [c1, forall_const, true_iff]
      exact Or.inr (not_lt.1 c2)
    · simp [c1]
  rw [← hA, ← hB]
  unfold linkGap
  constructor
  · intro h
    refine (add_eq_zero_iff_of_nonneg ?_ ?_).1 h
    · split_ifs with c1 c2
      · exact div_nonneg (mul_nonneg c2.le (sq_nonneg _)) h1.1.le
      · have : 0 ≤ (-f) * (1 - d.fromLf) := mul_nonneg (by linarith) (by linarith)
        linarith
      · exact le_rfl
    · split_ifs with c1 c2
      · exact div_nonneg (mul_nonneg (by linarith) (sq_nonneg _)) h2.1.le
      · exact le_rfl
      · exact le_rfl
  · rintro ⟨e1, e2⟩
    rw [e1, e2, add_zero]

theorem sum_zero_iff {α : Type} {l : List α} {f : α → ℚ} (h : ∀ a ∈ l, 0 ≤ f a) : (l.map f).sum = 0 ↔ ∀ a ∈ l, f a = 0 := by
  induction l with
  | nil => simp
  | cons a l ih =>
    have ih := ih (fun b hb => h b (List.mem_cons_of_mem _ hb))
    have h0 : 0 ≤ (l.map f).sum := List.sum_nonneg (fun y hy => by
      obtain ⟨b, hb, rfl⟩ := List.mem_map.1 hy
      exact h b (List.mem_cons_of_mem _ hb))
    rw [List.map_cons, List.sum_cons, add_eq_zero_iff_of_nonneg (h a List.mem_cons_self) h0, ih]
    simp

/-- **C33** With loss factors of at most 1 the rows of the summary never show too little, and a row balances exactly in the cases of
`C33_balance_partial`. -/
theorem C33_balance_iff_partial {ds : List Demand} {fs : List LossFn} {m : Market} (h : InForce (.demand ds none) m)
    (hf : LossFunctions fs m) (hp : m.properLinks fs) {lp : Lp} (hl : m.assemble = .ok lp) {x : Nat → ℚ} (hx : Feasible lp x)
    {rows : List SummaryRow} (hs : m.regionSummary x = .ok rows) {r : SummaryRow} (hr : r ∈ rows) {d : Demand} (hd : d ∈ ds)
    (hreg : d.region = r.region) (hpos : ∀ l ∈ m.dirs.getD [], (0 < l.fromLf ∧ l.fromLf ≤ 1) ∧ 0 < l.toLf ∧ l.toLf ≤ 1) :
    d.demand ≤ r.dispatch + r.inflow.getD 0 - r.transmission.getD 0 - r.losses.getD 0 ∧
    (r.dispatch + r.inflow.getD 0 - r.transmission.getD 0 - r.losses.getD 0 = d.demand ↔
      ∀ l ∈ m.dirs.getD [], (l.fromR = r.region → l.fromLf = 1 ∨ m.flow x l.inter l.link = 0) ∧
        (l.toR = r.region → l.toLf = 1 ∨ 0 ≤ m.flow x l.inter l.link)) := by
  have hn : ∀ l ∈ m.dirs.getD [], 0 ≤ linkGap r.region l (m.flow x l.inter l.link) := fun l hl => linkGap_nonneg (hpos l hl).1 (hpos l hl).2
  rw [C33_imbalance_partial h hf hp hl hx hs hr hd hreg (fun l hl => ⟨(hpos l hl).1.1, (hpos l hl).2.1⟩)]
  constructor
  · have : 0 ≤ ((m.dirs.getD []).map (fun l => linkGap r.region l (m.flow x l.inter l.link))).sum := List.sum_nonneg (fun y hy => by
      obtain ⟨l, hl, rfl⟩ := List.mem_map.1 hy
      exact hn l hl)
    linarith
  · rw [add_eq_left, sum_zero_iff hn]
    exact forall₂_congr (fun l hl => linkGap_zero_iff (hpos l hl).1 (hpos l hl).2)

instance (m : Market) (fs : List LossFn) : Decidable (m.properLinks fs) := by unfold Market.properLinks; infer_instance

/-- an instance of `C33_columns`, `C33_rows_with_losses_partial` and `C33_balance_partial`: NSW sends 50 MW and pays half of
the 5 MW that are lost -/
example : ∃ m lp, InForceKeeping [.inters] (.losses regLoss regPoints) m ∧ InForceKeeping [] (.demand regDemand none) m ∧
    m.assemble = .ok lp ∧ Feasible lp regCase.x ∧
    (decide (m.properLinks regLoss ∧ (m.regionSummary regCase.x).toOption =
      some [⟨"VIC", 5/2, some 50, some 0, some (5/2)⟩, ⟨"NSW", 305/2, some (-50), some 0, some (5/2)⟩])) = true := by
  exact Case.witness2 (s := regCase) (i := 2) (j := 3) rfl rfl (by decide +kernel)

/-- a market where regulation is the only service units bid for -/
def noEnergyCase : Case where
  regions := ["NSW"]
  units := [{ unit := "A", region := "NSW" }]
  hist := [.volumeBids [{ unit := "A", service := .raiseReg, bands := [("1", 20)] }],
    .fcasReq [{ set := "R", service := .raiseReg, region := "NSW", volume := 5 }] none]
  sol := [5]

/-- an instance of `C33_available`: the table is reported and it is empty -/
example : ∃ m lp, InForceKeeping [] (.fcasReq [{ set := "R", service := .raiseReg, region := "NSW", volume := 5 }] none) m ∧
    m.assemble = .ok lp ∧ Feasible lp noEnergyCase.x ∧ (decide ((m.regionSummary noEnergyCase.x).toOption = some [])) = true := by
  exact Case.witness1 (s := noEnergyCase) (i := 1) rfl (by decide +kernel)

/-- two regions and no link -/
def islandCase : Case where
  regions := ["NSW", "VIC"]
  units := regUnits
  hist := [.volumeBids [{ unit := "A", bands := [("1", 200)] }, { unit := "V", bands := [("1", 100)] }],
    .demand [{ region := "NSW", demand := 90 }, { region := "VIC", demand := 40 }] none]
  sol := [90, 40]

/-- an instance of `C33_rows_without_links` -/
example : ∃ m lp, InForceKeeping [] (.demand [{ region := "NSW", demand := 90 }, { region := "VIC", demand := 40 }] none) m ∧ m.assemble = .ok lp ∧
    Feasible lp islandCase.x ∧
    (decide (m.dirs = none ∧ (m.regionSummary islandCase.x).toOption =
      some [⟨"NSW", 90, none, none, none⟩, ⟨"VIC", 40, none, none, none⟩])) = true := by
  exact Case.witness1 (s := islandCase) (i := 1) rfl (by decide +kernel)

/-- NSW and VIC are joined by a link and QLD is on its own -/
def dropCase : Case where
  regions := ["NSW", "VIC", "QLD"]
  units := regUnits ++ [{ unit := "Q", region := "QLD" }]
  hist := [.volumeBids [{ unit := "A", bands := [("1", 200)] }, { unit := "Q", bands := [("1", 70)] }, { unit := "V", bands := [("1", 100)] }],
    .interconnectors [{ inter := "I", link := "I", fromR := "NSW", toR := "VIC", min := -100, max := 100, toLf := 19/20 }],
    .demand [{ region := "NSW", demand := 90 }, { region := "VIC", demand := 40 }, { region := "QLD", demand := 60 }] none]
  sol := [130, 60, 2, 40]

/-- **C33** is false of a region that has units and demand but no link: once interconnectors are defined it is missing
from the summary. -/
theorem C33_region_dropped_negation : ∃ m lp, InForceKeeping []
    (.demand [{ region := "NSW", demand := 90 }, { region := "VIC", demand := 40 }, { region := "QLD", demand := 60 }] none) m ∧ m.assemble = .ok lp ∧
    Feasible lp dropCase.x ∧
    (decide (m.hasSupply "QLD" .energy ∧ (m.regionSummary dropCase.x).toOption.map (fun rows => rows.map (fun r => r.region)) =
      some ["VIC", "NSW"])) = true := by
  exact Case.witness1 (s := dropCase) (i := 2) rfl (by decide +kernel)

/-- the same link with a regional loss factor at the sending end -/
def lossFactorCase : Case where
  regions := ["NSW", "VIC"]
  units := regUnits
  hist := [.volumeBids [{ unit := "A", bands := [("1", 200)] }, { unit := "V", bands := [("1", 100)] }],
    .interconnectors [{ inter := "I", link := "I", fromR := "NSW", toR := "VIC", min := -100, max := 100, fromLf := 9/10 }],
    .demand [{ region := "NSW", demand := 90 }, { region := "VIC", demand := 40 }] none]
  sol := [126, 0, 40]

/-- **C33** is false of links with a from region loss factor other than 1: NSW dispatches 126 MW, 40 MW flow out, and
the summary reports transmission losses of -40/9 MW, so that 126 - 40 + 40/9 is not the demand of 90 MW. -/
theorem C33_balance_negation : ∃ m lp, InForceKeeping [] (.demand [{ region := "NSW", demand := 90 }, { region := "VIC", demand := 40 }] none) m ∧
    m.assemble = .ok lp ∧ Feasible lp lossFactorCase.x ∧
    (decide ((m.regionSummary lossFactorCase.x).toOption =
      some [⟨"VIC", 0, some 40, some 0, none⟩, ⟨"NSW", 126, some (-40), some (-40/9), none⟩])) = true := by
  exact Case.witness1 (s := lossFactorCase) (i := 2) rfl (by decide +kernel)

/-- an instance of `C33_imbalance_partial`: 126 - 40 + 40/9 is 90 + 4/9 -/
example : linkGap "NSW" { inter := "I", link := "I", fromR := "NSW", toR := "VIC", min := -100, max := 100, fromLf := 9/10 } 40 = 4/9 ∧
    (126 : ℚ) - 40 + 40/9 = 90 + 4/9 := by
  constructor
  · decide +kernel
  · norm_num

end Verif
