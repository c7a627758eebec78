import Verif.Proofs.Availability
import Verif.Props.Outputs
import Verif.Props.Regional
import Verif.Proofs.Summary

/-!
# C34: FCAS availability
-/

namespace Verif

theorem considered_eq : availabilitySets = consideredSets := rfl

theorem considered_unit {k : CKey} (h : k ∈ consideredSets) : k.isUnit = true := by
  simp only [consideredSets, List.mem_cons, List.not_mem_nil, or_false] at h
  rcases h with rfl | rfl | rfl | rfl | rfl | rfl | rfl <;> rfl

/-- what a row of the table is -/
theorem avail_parts {m : Market} {lp : Lp} {x : Nat → ℚ} {rows : List AvailRow} (h : m.fcasAvailability lp x = .ok rows) {r : AvailRow} (hr : r ∈ rows) :
    r.service ≠ .energy ∧ ∃ d, m.bidsFor r.unit r.service d ∧
      r.availability = ((((m.serviceSlacks lp x).filter (fun s => decide (s.1 = r.unit ∧ s.2.1 = r.service))).map (·.2.2)).foldl minInf none).map
        (fun v => m.dispatched x r.unit r.service d + v) := by
  unfold Market.fcasAvailability at h
  split at h
  · cases h
  cases hu : m.unitDispatch x with
  | error e => rw [hu] at h; cases h
  | ok us =>
    obtain ⟨c1, c2, c3⟩ := C29_unit_dispatch hu
    rw [hu] at h
    simp only [Except.ok.injEq] at h
    subst h
    obtain ⟨k, hk, hr⟩ := List.mem_flatMap.1 hr
    obtain ⟨q, hq, rfl⟩ := List.mem_map.1 hr
    have hq := List.mem_filter.1 hq
    have hqk := of_decide_eq_true hq.2
    refine ⟨of_decide_eq_true (List.mem_filter.1 hk).2, q.dtype, ?_, ?_⟩
    · exact (c2 _ _ _).1 ⟨q, hq.1, hqk.1, rfl, hqk.2⟩
    · simp only
      rw [c3 q hq.1, hqk.1, hqk.2]

theorem serviceSlack_nonneg {c : ℚ} {ty : CType} {s v : ℚ} (hs : 0 ≤ s) (h : serviceSlack c ty s = some v) : 0 ≤ v := by
  unfold serviceSlack at h
  split at h
  · cases h
  · injection h with h
    rw [← h]
    exact div_nonneg hs (abs_nonneg _)

theorem slack_nonneg (lp : Lp) (x : Nat → ℚ) (c : Nat) : 0 ≤ lp.slack x c := by
  unfold Lp.slack
  split
  · exact abs_nonneg _
  · exact le_refl _

/-- **C34** The availability is at least the dispatch. -/
theorem C34_at_least_dispatch {m : Market} {lp : Lp} {x : Nat → ℚ} {rows : List AvailRow} (h : m.fcasAvailability lp x = .ok rows) {r : AvailRow} (hr : r ∈ rows)
    {d : DType} (hd : ∀ d', m.bidsFor r.unit r.service d' → d' = d) {a : ℚ} (ha : r.availability = some a) :
    m.dispatched x r.unit r.service d ≤ a := by
  obtain ⟨_, d', hd', hav⟩ := avail_parts h hr
  have := hd d' hd'; subst this
  rw [ha] at hav
  cases hf : (((m.serviceSlacks lp x).filter (fun s => decide (s.1 = r.unit ∧ s.2.1 = r.service))).map (·.2.2)).foldl minInf none with
  | none => rw [hf] at hav; cases hav
  | some v =>
    rw [hf] at hav
    injection hav with hav
    have hv := ((foldl_minInf _ none).2 v hf).1
    rcases hv with hv | hv
    · cases hv
    obtain ⟨q, hq, hqv⟩ := List.mem_map.1 hv
    have hq := (List.mem_filter.1 hq).1
    unfold Market.serviceSlacks at hq
    obtain ⟨k, _, hq⟩ := List.mem_flatMap.1 hq
    cases hc : m.conRhs.get? k with
    | none => rw [hc] at hq; simp at hq
    | some rs =>
      rw [hc] at hq
      obtain ⟨c, _, hq⟩ := List.mem_flatMap.1 hq
      obtain ⟨w, _, rfl⟩ := List.mem_map.1 hq
      have := serviceSlack_nonneg (slack_nonneg _ _ _) hqv
      rw [hav]
      linarith

/-- an entry of the unit level map of a considered set limits the availability -/
theorem mem_serviceSlacks {m : Market} {lp : Lp} {x : Nat → ℚ} {k : CKey} (hk : k ∈ consideredSets) {rs : List Row} (hr : m.conRhs.get? k = some rs)
    {c : ConUnit} (hc : c ∈ (m.unitCon.get? k).getD []) {r : Row} (hrm : r ∈ rs) (hrc : r.cid = c.cid) :
    (c.unit, c.service, serviceSlack c.coef r.ctype (lp.slack x r.cid)) ∈ m.serviceSlacks lp x := by
  unfold Market.serviceSlacks
  refine List.mem_flatMap.2 ⟨k, by rw [considered_eq]; exact hk, ?_⟩
  rw [hr]
  exact List.mem_flatMap.2 ⟨c, hc, List.mem_map.2 ⟨r, List.mem_filter.2 ⟨hrm, decide_eq_true hrc⟩, rfl⟩⟩

theorem obeys_none {m : Market} (hw : ConWF m) {lp : Lp} {x : Nat → ℚ} {k : CKey} (hk : k.isUnit = true) (h : m.conRhs.get? k = none) : m.obeys lp x k := by
  intro r _ ho
  rcases ho with ⟨rows, h1, _⟩ | ⟨rows, h1, _⟩ | ⟨h1, _⟩
  · rw [h] at h1; cases h1
  · have := hw.mktMkt _ (Dict.mem_of_get? h1)
    have h' := isUnit_not_market hk
    simp only at this
    rw [this] at h'; cases h'
  · rw [h1] at hk; cases hk

/-- the availability row is computed from the dispatch for `d` -/
def Market.availFrom (m : Market) (lp : Lp) (x : Nat → ℚ) (u : String) (s : Service) (d : DType) : Option ℚ :=
  ((((m.serviceSlacks lp x).filter (fun q => decide (q.1 = u ∧ q.2.1 = s))).map (·.2.2)).foldl minInf none).map (fun v => m.dispatched x u s d + v)

/-- there is at most one coefficient for a unit, service and dispatch type in each considered constraint -/
def Singles (m : Market) (u : String) (s : Service) : Prop :=
  ∀ k ∈ consideredSets, ∀ e ∈ (m.unitCon.get? k).getD [], e.unit = u → e.service = s →
    ((m.unitCon.get? k).getD []).filter (fun a => decide (a.cid = e.cid ∧ a.unit = e.unit ∧ a.service = e.service ∧ a.dtype = e.dtype)) = [e]

theorem singles_of {m : Market} (hm : Reached m) {u : String} {s : Service} (hb : u ∉ m.bidi) (hs : s ≠ .energy) : Singles m u s := by
  intro k _ e he h1 h2
  have hes : m.unitCon.get? k = some ((m.unitCon.get? k).getD []) := by
    cases hg : m.unitCon.get? k with
    | none => rw [hg] at he; simp at he
    | some es => rfl
  exact filter_once (hm.oneCoef k _ hes) he (by rw [h1]; exact hb) (by rw [h2]; exact hs)

theorem attain_core {m : Market} (hm : Reached m) {lp : Lp} (hl : m.assemble = .ok lp) {x : Nat → ℚ} (hx : Feasible lp x)
    {r : AvailRow} (hb : Singles m r.unit r.service) (hs : r.service ≠ .energy)
    (ht : m.noTinyCoefs r.unit r.service) {d' : DType} (hav : r.availability = m.availFrom lp x r.unit r.service d')
    (hlist : m.lists r.unit d') {y : Nat → ℚ} (hy : m.onlyChanges r.unit r.service d' x y)
    (hlo : m.dispatched x r.unit r.service d' ≤ m.dispatched y r.unit r.service d')
    (hhi : ∀ a, r.availability = some a → m.dispatched y r.unit r.service d' ≤ a) {k : CKey} (hk : k ∈ consideredSets) : m.obeys lp y k := by
  unfold Market.availFrom at hav
  have hw := hm.wf
  have hku := considered_unit hk
  cases hc : m.conRhs.get? k with
  | none => exact obeys_none hw.con hku hc
  | some rs =>
    have hmk := isUnit_not_market hku
    have hi : k ≠ .interpWeights := by rintro rfl; cases hku
    rw [obeys_con hw.con hl hmk hi hc]
    intro q hq hqt
    have hxq := (obeys_con hw.con hl hmk hi hc).1 (hx.obeys m k) q hq hqt
    have hin : InTab m k q.cid := Or.inr (Or.inr (Or.inl ⟨rs, Dict.mem_of_get? hc, q, hq, rfl⟩))
    rw [row_change hm hku hin hs hy (Or.inl hlist)]
    generalize hδ : m.dispatched y r.unit r.service d' - m.dispatched x r.unit r.service d' = δ
    have hδ0 : 0 ≤ δ := by linarith
    by_cases he : ∃ e ∈ (m.unitCon.get? k).getD [], e.cid = q.cid ∧ e.unit = r.unit ∧ e.service = r.service ∧ e.dtype = d'
    · obtain ⟨e, he, e1, e2, e3, e4⟩ := he
      have hcoef : entryCoef ((m.unitCon.get? k).getD []) q.cid r.unit r.service d' = e.coef := by
        unfold entryCoef
        have := hb k hk e he e2 e3
        rw [e1, e2, e3, e4] at this
        rw [this]; simp
      rw [hcoef]
      have hmem := mem_serviceSlacks (lp := lp) (x := x) hk hc he hq e1.symm
      rw [e2, e3] at hmem
      have hmem' : serviceSlack e.coef q.ctype (lp.slack x q.cid) ∈
          ((m.serviceSlacks lp x).filter (fun s => decide (s.1 = r.unit ∧ s.2.1 = r.service))).map (·.2.2) :=
        List.mem_map.2 ⟨_, List.mem_filter.2 ⟨hmem, decide_eq_true ⟨rfl, rfl⟩⟩, rfl⟩
      have htiny := ht k hk e he e2 e3
      cases hss : serviceSlack e.coef q.ctype (lp.slack x q.cid) with
      | none =>
        unfold serviceSlack at hss
        split at hss
        · rename_i hcase
          rcases hcase with ⟨h1, h2⟩ | ⟨h1, h2⟩ | ⟨h1, h2⟩
          · rw [h2] at hxq ⊢
            have : e.coef * δ ≤ 0 := mul_nonpos_of_nonpos_of_nonneg h1.le hδ0
            simp only [CType.holds] at hxq ⊢
            linarith
          · rw [h2] at hxq ⊢
            have : 0 ≤ e.coef * δ := mul_nonneg (le_of_lt h1) hδ0
            simp only [CType.holds] at hxq ⊢
            linarith
          · have h0 : e.coef = 0 := by
              rcases htiny with h | h | h
              · exact h
              · linarith
              · linarith
            rw [h0, zero_mul, add_zero]; exact hxq
        · cases hss
      | some v =>
        have hne : ¬ (e.coef < 1 / 100000 ∧ e.coef > -(1 / 100000)) := by
          intro hh
          unfold serviceSlack at hss
          rw [if_pos (Or.inr (Or.inr hh))] at hss
          cases hss
        have hpos : 0 < |e.coef| := by
          rw [abs_pos]
          intro h0
          apply hne
          rw [h0]; constructor <;> norm_num
        have hv : v = lp.slack x q.cid / |e.coef| := by
          unfold serviceSlack at hss
          split at hss
          · cases hss
          · injection hss with hss; exact hss.symm
        rw [hss] at hmem'
        -- the increase is at most v
        have hle : δ ≤ v := by
          cases hf : (((m.serviceSlacks lp x).filter (fun s => decide (s.1 = r.unit ∧ s.2.1 = r.service))).map (·.2.2)).foldl minInf none with
          | none =>
            have := ((foldl_minInf _ none).1.1 hf).2 _ hmem'
            cases this
          | some w =>
            rw [hf] at hav
            have h1 := hhi _ hav
            have h2 := ((foldl_minInf _ none).2 w hf).2 v (Or.inr hmem')
            linarith
        have hsl : |e.coef| * δ ≤ lp.slack x q.cid := by
          rw [hv, le_div_iff₀ hpos] at hle
          linarith
        rw [slack_eq hw.con hl hc hq hqt] at hsl
        have hb1 : e.coef * δ ≤ |e.coef| * δ := mul_le_mul_of_nonneg_right (le_abs_self _) hδ0
        have hb2 : -(|e.coef| * δ) ≤ e.coef * δ := by
          have := mul_le_mul_of_nonneg_right (neg_abs_le e.coef) hδ0
          linarith
        cases hty : q.ctype <;> rw [hty] at hxq <;> simp only [CType.holds] at hxq ⊢
        · rw [abs_of_nonneg (show 0 ≤ q.rhs - rowVal m.terms x q.cid by linarith)] at hsl; linarith
        · rw [hxq, sub_self, abs_zero] at hsl
          have h0 : |e.coef| * δ = 0 := le_antisymm hsl (mul_nonneg hpos.le hδ0)
          rw [h0] at hb1 hb2
          linarith
        · rw [abs_of_nonpos (show q.rhs - rowVal m.terms x q.cid ≤ 0 by linarith)] at hsl; linarith
    · have hz : entryCoef ((m.unitCon.get? k).getD []) q.cid r.unit r.service d' = 0 := by
        unfold entryCoef
        rw [filter_nil_of]
        · simp
        · intro e hem
          rw [decide_eq_false_iff_not]
          intro hh
          exact he ⟨e, hem, hh⟩
      rw [hz, zero_mul, add_zero]
      exact hxq

theorem avail_row {m : Market} {lp : Lp} {x : Nat → ℚ} {rows : List AvailRow} (h : m.fcasAvailability lp x = .ok rows) {r0 : AvailRow} (hr : r0 ∈ rows)
    {d : DType} (hd : m.bidsFor r0.unit r0.service d) : ∃ r ∈ rows, r.unit = r0.unit ∧ r.service = r0.service ∧
      r.availability = m.availFrom lp x r.unit r.service d := by
  unfold Market.fcasAvailability at h
  split at h
  · cases h
  cases hu : m.unitDispatch x with
  | error e => rw [hu] at h; cases h
  | ok us =>
    obtain ⟨c1, c2, c3⟩ := C29_unit_dispatch hu
    rw [hu] at h
    simp only [Except.ok.injEq] at h
    subst h
    obtain ⟨k, hk, hr⟩ := List.mem_flatMap.1 hr
    obtain ⟨q0, hq, rfl⟩ := List.mem_map.1 hr
    obtain ⟨q, hq, q1, q2, q3⟩ := (c2 _ _ _).2 hd
    simp only at q1 q3
    refine ⟨_, List.mem_flatMap.2 ⟨k, hk, List.mem_map.2 ⟨q, List.mem_filter.2 ⟨hq, decide_eq_true ⟨q1, q3⟩⟩, rfl⟩⟩, rfl, rfl, ?_⟩
    unfold Market.availFrom
    simp only
    rw [c3 q hq, q1, q2, q3]

/-- **C34** Raising the dispatch of the unit for the service up to the reported availability, everything else equal,
violates none of the constraints considered, for units that are not bidirectional and coefficients that are not tiny.
Missing: bidirectional units and tiny coefficients, for which the statement is false, see
`C34_bidirectional_negation` and `C34_tiny_negation`. -/
theorem C34_attainable_partial {m : Market} (hm : Reached m) {lp : Lp} (hl : m.assemble = .ok lp) {x : Nat → ℚ} (hx : Feasible lp x)
    {rows : List AvailRow} (h : m.fcasAvailability lp x = .ok rows) {r : AvailRow} (hr : r ∈ rows) (hb : r.unit ∉ m.bidi)
    (ht : m.noTinyCoefs r.unit r.service) {d : DType} (hd : ∀ d', m.bidsFor r.unit r.service d' → d' = d)
    (hlist : m.lists r.unit d) {y : Nat → ℚ} (hy : m.onlyChanges r.unit r.service d x y)
    (hlo : m.dispatched x r.unit r.service d ≤ m.dispatched y r.unit r.service d)
    (hhi : ∀ a, r.availability = some a → m.dispatched y r.unit r.service d ≤ a) {k : CKey} (hk : k ∈ consideredSets) : m.obeys lp y k := by
  obtain ⟨hs, d', hd', hav⟩ := avail_parts h hr
  have := hd d' hd'; subst this
  exact attain_core hm hl hx (singles_of hm hb hs) hs ht hav hlist hy hlo hhi hk

/-- **C34** The same for bidirectional units: for each dispatch type for which the unit bids the table has a row up to
which the dispatch can be raised, provided no considered constraint has two coefficients for the unit, service and
dispatch type, which is the case if all trapeziums of bidirectional units are given for the generator side. -/
theorem C34_attainable_bidirectional_partial {m : Market} (hm : Reached m) {lp : Lp} (hl : m.assemble = .ok lp) {x : Nat → ℚ} (hx : Feasible lp x)
    {rows : List AvailRow} (h : m.fcasAvailability lp x = .ok rows) {r0 : AvailRow} (hr : r0 ∈ rows) {d : DType} (hd : m.bidsFor r0.unit r0.service d)
    (hb : ∀ k ∈ consideredSets, ((((m.unitCon.get? k).getD []).filter (fun c => decide (c.unit = r0.unit ∧ c.service = r0.service))).map
      (fun c => (c.cid, c.dtype))).Nodup)
    (ht : m.noTinyCoefs r0.unit r0.service) (hlist : m.lists r0.unit d) :
    ∃ r ∈ rows, r.unit = r0.unit ∧ r.service = r0.service ∧ ∀ y : Nat → ℚ, m.onlyChanges r.unit r.service d x y →
      m.dispatched x r.unit r.service d ≤ m.dispatched y r.unit r.service d →
      (∀ a, r.availability = some a → m.dispatched y r.unit r.service d ≤ a) → ∀ k ∈ consideredSets, m.obeys lp y k := by
  obtain ⟨hs, _⟩ := avail_parts h hr
  obtain ⟨r, hrm, h1, h2, h3⟩ := avail_row h hr hd
  refine ⟨r, hrm, h1, h2, ?_⟩
  intro y hy hlo hhi k hk
  have hsing : Singles m r.unit r.service := by
    intro k hk e he e1 e2
    have hn := hb k hk
    have hmem : e ∈ ((m.unitCon.get? k).getD []).filter (fun c => decide (c.unit = r0.unit ∧ c.service = r0.service)) :=
      List.mem_filter.2 ⟨he, decide_eq_true ⟨e1.trans h1, e2.trans h2⟩⟩
    have := filter_key_unique hn hmem
    rw [List.filter_filter] at this
    rw [← this]
    apply List.filter_congr
    intro a _
    rw [Bool.eq_iff_iff]
    simp only [Bool.and_eq_true, decide_eq_true_eq, Prod.mk.injEq, e1, e2, h1, h2]
    tauto
  exact attain_core hm hl hx hsing (by rw [h2]; exact hs) (by rw [h1, h2]; exact ht) h3 (by rw [h1]; exact hlist) hy hlo hhi hk

/-- **C34** (maximality) Dispatching more than the reported availability, everything else equal, violates one of the
constraints considered, unless the limit comes from a coefficient for another dispatch type of the unit. -/
theorem C34_maximal_partial {m : Market} (hm : Reached m) {lp : Lp} (hl : m.assemble = .ok lp) {x : Nat → ℚ} (hx : Feasible lp x)
    {rows : List AvailRow} (h : m.fcasAvailability lp x = .ok rows) {r : AvailRow} (hr : r ∈ rows) (hb : r.unit ∉ m.bidi)
    {d : DType} (hd : ∀ d', m.bidsFor r.unit r.service d' → d' = d)
    (hone : ∀ k ∈ consideredSets, ∀ c ∈ (m.unitCon.get? k).getD [], c.unit = r.unit → c.service = r.service → c.dtype = d)
    (hlist : m.lists r.unit d) {y : Nat → ℚ} (hy : m.onlyChanges r.unit r.service d x y)
    {a : ℚ} (ha : r.availability = some a) (hhi : a < m.dispatched y r.unit r.service d) : ∃ k ∈ consideredSets, ¬ m.obeys lp y k := by
  obtain ⟨hs, d', hd', hav⟩ := avail_parts h hr
  have := hd d' hd'; subst this
  have hw := hm.wf
  rw [ha] at hav
  cases hf : (((m.serviceSlacks lp x).filter (fun s => decide (s.1 = r.unit ∧ s.2.1 = r.service))).map (·.2.2)).foldl minInf none with
  | none => rw [hf] at hav; cases hav
  | some v =>
    rw [hf] at hav
    injection hav with hav
    rcases ((foldl_minInf _ none).2 v hf).1 with hv | hv
    · cases hv
    obtain ⟨s, hsm, hsv⟩ := List.mem_map.1 hv
    have hsm := List.mem_filter.1 hsm
    have hsk := of_decide_eq_true hsm.2
    obtain ⟨k, hk, hq⟩ := List.mem_flatMap.1 hsm.1
    rw [considered_eq] at hk
    have hku := considered_unit hk
    cases hc : m.conRhs.get? k with
    | none => rw [hc] at hq; simp at hq
    | some rs =>
      rw [hc] at hq
      obtain ⟨e, he, hq⟩ := List.mem_flatMap.1 hq
      obtain ⟨q, hqm, rfl⟩ := List.mem_map.1 hq
      have hqm := List.mem_filter.1 hqm
      have hqe : q.cid = e.cid := of_decide_eq_true hqm.2
      have hmk := isUnit_not_market hku
      have hi : k ≠ .interpWeights := by rintro rfl; cases hku
      simp only at hsv hsk
      have hdt := hone k hk e he hsk.1 hsk.2
      have hin : InTab m k q.cid := Or.inr (Or.inr (Or.inl ⟨rs, Dict.mem_of_get? hc, q, hqm.1, rfl⟩))
      have hes : m.unitCon.get? k = some ((m.unitCon.get? k).getD []) := by
        cases hg : m.unitCon.get? k with
        | none => rw [hg] at he; simp at he
        | some es => rfl
      have hqt : ∃ t ∈ m.terms, t.cid = q.cid := by
        rw [mem_terms_own hw.con hin, ownTerms_unit hw hku]
        obtain ⟨b, hbm, b1, b2, b3⟩ := mem_bidUnit hw hlist hd'
        refine ⟨_, List.mem_append_right _ (List.mem_flatMap.2 ⟨e, he, List.mem_map.2 ⟨b, List.mem_filter.2 ⟨hbm, ?_⟩, rfl⟩⟩), hqe.symm⟩
        simp [b1, b2, b3, hsk.1, hsk.2, hdt]
      refine ⟨k, hk, ?_⟩
      rw [obeys_con hw.con hl hmk hi hc]
      intro hall
      have hyq := hall q hqm.1 hqt
      have hxq := (obeys_con hw.con hl hmk hi hc).1 (hx.obeys m k) q hqm.1 hqt
      rw [row_change hm hku hin hs hy (Or.inl hlist)] at hyq
      have hcoef : entryCoef ((m.unitCon.get? k).getD []) q.cid r.unit r.service d' = e.coef := by
        unfold entryCoef
        have := filter_once (hm.oneCoef k _ hes) he (by rw [hsk.1]; exact hb) (by rw [hsk.2]; exact hs)
        rw [← hqe, hsk.1, hsk.2, hdt] at this
        rw [this]; simp
      rw [hcoef] at hyq
      generalize hδ : m.dispatched y r.unit r.service d' - m.dispatched x r.unit r.service d' = δ at hyq
      have hlt : v < δ := by linarith
      unfold serviceSlack at hsv
      split at hsv
      · cases hsv
      rename_i hcase
      injection hsv with hsv
      have hpos : 0 < |e.coef| := by
        rw [abs_pos]
        intro h0
        apply hcase
        right; right
        rw [h0]; constructor <;> norm_num
      have hv0 : 0 ≤ v := by rw [← hsv]; exact div_nonneg (slack_nonneg _ _ _) hpos.le
      have hsl : lp.slack x q.cid < |e.coef| * δ := by
        rw [← hsv, div_lt_iff₀ hpos] at hlt
        linarith
      rw [slack_eq hw.con hl hc hqm.1 hqt] at hsl
      cases hty : q.ctype <;> rw [hty] at hxq hyq <;> simp only [CType.holds] at hxq hyq
      · rw [abs_of_nonneg (show 0 ≤ q.rhs - rowVal m.terms x q.cid by linarith)] at hsl
        have : ¬ e.coef < 0 := fun hh => hcase (Or.inl ⟨hh, hty⟩)
        rw [abs_of_nonneg (not_lt.1 this)] at hsl
        linarith
      · rw [hxq, sub_self, abs_zero] at hsl
        have h0 : e.coef * δ = 0 := by linarith
        rcases mul_eq_zero.1 h0 with h0 | h0
        · rw [h0] at hpos; simp at hpos
        · linarith
      · rw [abs_of_nonpos (show q.rhs - rowVal m.terms x q.cid ≤ 0 by linarith)] at hsl
        have : ¬ e.coef > 0 := fun hh => hcase (Or.inr (Or.inl ⟨hh, hty⟩))
        rw [abs_of_nonpos (not_lt.1 this)] at hsl
        linarith

/-! ### Instances -/

instance (m : Market) (u : String) (s : Service) : Decidable (m.noTinyCoefs u s) := by unfold Market.noTinyCoefs; infer_instance

/-- a unit with energy and raise 5 minute bids, joint capacity constraints and a maximum availability -/
def availCase : Case where
  regions := ["NSW"]
  units := [{ unit := "A", region := "NSW" }]
  hist := [.volumeBids [{ unit := "A", bands := [("1", 200)] }, { unit := "A", service := .raise5min, bands := [("1", 100)] }],
    .demand [{ region := "NSW", demand := 120 }] none,
    .fcasMaxAvail [{ unit := "A", service := .raise5min, val := 60 }] none,
    .jointCapacity [{ unit := "A", service := .raise5min, maxAvail := 60, emin := 20, lbp := 40, hbp := 100, emax := 160 }] none]
  sol := [120, 30]

/-- an instance of the C34 theorems: 30 MW are enabled and 40 MW are available, limited by the right edge of the trapezium -/
example : availCase.ok (fun m => match m.assemble with
    | .error _ => false
    | .ok lp => decide ((m.fcasAvailability lp availCase.x).toOption = some [⟨"A", .raise5min, some 40⟩] ∧ "A" ∉ m.bidi ∧
        m.noTinyCoefs "A" .raise5min ∧ m.lists "A" .generator ∧ m.bidsFor "A" .raise5min .generator ∧ ¬ m.bidsFor "A" .raise5min .load)) = true := by
  decide +kernel

/-- a battery with a trapezium given for the generator side and regulation bids on both sides -/
def sidesCase : Case where
  regions := ["NSW"]
  units := [{ unit := "B", region := "NSW" }, { unit := "B", region := "NSW", dtype := .load }]
  hist := [.volumeBids [{ unit := "B", bands := [("1", 200)] }, { unit := "B", dtype := .load, bands := [("1", 200)] },
      { unit := "B", service := .lowerReg, bands := [("1", 100)] }, { unit := "B", service := .lowerReg, dtype := .load, bands := [("1", 100)] }],
    .jointCapacity [{ unit := "B", service := .lower5min, maxAvail := 50, emin := -100, lbp := -50, hbp := 50, emax := 100 }] none]
  sol := [10, 20, 30, 5]

/-- an instance of the theorem for bidirectional units: a row for each side -/
example : sidesCase.ok (fun m => match m.assemble with
    | .error _ => false
    | .ok lp => decide ((m.fcasAvailability lp sidesCase.x).toOption = some [⟨"B", .lowerReg, some 95⟩, ⟨"B", .lowerReg, some 70⟩] ∧
        m.noTinyCoefs "B" .lowerReg ∧ m.lists "B" .generator ∧ m.lists "B" .load ∧ m.bidsFor "B" .lowerReg .generator ∧ m.bidsFor "B" .lowerReg .load ∧
        ∀ k ∈ consideredSets, ((((m.unitCon.get? k).getD []).filter (fun c => decide (c.unit = "B" ∧ c.service = .lowerReg))).map
          (fun c => (c.cid, c.dtype))).Nodup)) = true := by
  decide +kernel

/-- a battery with a load side trapezium -/
def batteryCase : Case where
  regions := ["NSW"]
  units := [{ unit := "B", region := "NSW" }, { unit := "B", region := "NSW", dtype := .load }]
  hist := [.volumeBids [{ unit := "B", bands := [("1", 200)] }, { unit := "B", dtype := .load, bands := [("1", 200)] },
      { unit := "B", service := .lowerReg, dtype := .load, bands := [("1", 100)] }],
    .jointCapacity [{ unit := "B", service := .lower5min, dtype := .load, maxAvail := 50, emin := 0, lbp := 10, hbp := 50, emax := 100 }] none]
  sol := [0, 0, 0]

/-- **C34** is false of bidirectional units: the load side trapezium of a battery constrains the lower regulation of the
load side with coefficient 2 and its availability is computed from two coefficients of 1.  100 MW are reported as available
and dispatching them violates the joint capacity constraint. -/
theorem C34_bidirectional_negation : ∃ (m : Market) (lp : Lp) (y : Nat → ℚ), Reached m ∧ m.assemble = .ok lp ∧ Feasible lp batteryCase.x ∧
    m.onlyChanges "B" .lowerReg .load batteryCase.x y ∧
    (m.fcasAvailability lp batteryCase.x).toOption = some [⟨"B", .lowerReg, some 100⟩] ∧ m.dispatched y "B" .lowerReg .load = 100 ∧
    ¬ m.obeys lp y .jointCapacity := by
  have hb : batteryCase.ok (fun m => match m.assemble with
      | .error _ => false
      | .ok lp => decide ((m.fcasAvailability lp batteryCase.x).toOption = some [⟨"B", .lowerReg, some 100⟩] ∧
        m.dispatched (fun v => if v = 2 then 100 else 0) "B" .lowerReg .load = 100 ∧
        (∃ b ∈ m.bids.getD [], b.unit = "B" ∧ b.service = .lowerReg ∧ b.dtype = .load ∧ b.vid = 2) ∧
        (∃ r ∈ lp.rows, (∃ q ∈ (m.conRhs.get? .jointCapacity).getD [], q.cid = r.cid) ∧ ¬ r.holds (fun v => if v = 2 then 100 else 0)))) = true := by
    decide +kernel
  obtain ⟨m, lp, h1, h2, h3, h4⟩ := Case.witness hb
  rw [h2] at h4
  have h4 := of_decide_eq_true h4
  obtain ⟨a1, a2, ⟨b, hbm, b1, b2, b3, b4⟩, r, hr, ⟨q, hq, hqc⟩, hn⟩ := h4
  refine ⟨m, lp, fun v => if v = 2 then 100 else 0, Case.reached h1, h2, h3, ?_, a1, a2, ?_⟩
  · intro v hv
    have : v ≠ 2 := fun e => hv b hbm b1 b2 b3 (b4.trans e.symm)
    simp only [if_neg this, Case.x, batteryCase]
    match v with
    | 0 => rfl
    | 1 => rfl
    | 2 => exact absurd rfl this
    | n + 3 => rfl
  · intro ho
    apply hn
    apply ho r hr
    left
    cases hg : m.conRhs.get? .jointCapacity with
    | none => rw [hg] at hq; simp at hq
    | some rows => rw [hg] at hq; exact ⟨rows, rfl, q, hq, hqc⟩

/-- a trapezium with a nearly vertical edge -/
def tinyCase : Case where
  regions := ["NSW"]
  units := [{ unit := "A", region := "NSW" }]
  hist := [.volumeBids [{ unit := "A", bands := [("1", 200)] }, { unit := "A", service := .raise5min, bands := [("1", 100)] }],
    .jointCapacity [{ unit := "A", service := .raise5min, maxAvail := 60, emin := 20, lbp := 40, hbp := 160 - 1/10000, emax := 160 }] none]
  sol := [160, 0]

/-- **C34** is false of tiny coefficients: with the unit at its enablement maximum the availability ignores the right edge
of the trapezium, whose coefficient is below 0.00001. -/
theorem C34_tiny_negation : ∃ (m : Market) (lp : Lp) (y : Nat → ℚ), Reached m ∧ m.assemble = .ok lp ∧ Feasible lp tinyCase.x ∧
    m.onlyChanges "A" .raise5min .generator tinyCase.x y ∧
    (m.fcasAvailability lp tinyCase.x).toOption = some [⟨"A", .raise5min, some 420⟩] ∧ m.dispatched y "A" .raise5min .generator = 60 ∧
    ¬ m.obeys lp y .jointCapacity := by
  have hb : tinyCase.ok (fun m => match m.assemble with
      | .error _ => false
      | .ok lp => decide ((m.fcasAvailability lp tinyCase.x).toOption = some [⟨"A", .raise5min, some 420⟩] ∧
        m.dispatched (fun v => if v = 1 then 60 else if v = 0 then 160 else 0) "A" .raise5min .generator = 60 ∧
        (∃ b ∈ m.bids.getD [], b.unit = "A" ∧ b.service = .raise5min ∧ b.dtype = .generator ∧ b.vid = 1) ∧
        (∃ r ∈ lp.rows, (∃ q ∈ (m.conRhs.get? .jointCapacity).getD [], q.cid = r.cid) ∧ ¬ r.holds (fun v => if v = 1 then 60 else if v = 0 then 160 else 0)))) = true := by
    decide +kernel
  obtain ⟨m, lp, h1, h2, h3, h4⟩ := Case.witness hb
  rw [h2] at h4
  have h4 := of_decide_eq_true h4
  obtain ⟨a1, a2, ⟨b, hbm, b1, b2, b3, b4⟩, r, hr, ⟨q, hq, hqc⟩, hn⟩ := h4
  refine ⟨m, lp, fun v => if v = 1 then 60 else if v = 0 then 160 else 0, Case.reached h1, h2, h3, ?_, a1, a2, ?_⟩
  · intro v hv
    have : v ≠ 1 := fun e => hv b hbm b1 b2 b3 (b4.trans e.symm)
    simp only [if_neg this, Case.x, tinyCase]
    match v with
    | 0 => rfl
    | 1 => exact absurd rfl this
    | n + 2 => rfl
  · intro ho
    apply hn
    apply ho r hr
    left
    cases hg : m.conRhs.get? .jointCapacity with
    | none => rw [hg] at hq; simp at hq
    | some rows => rw [hg] at hq; exact ⟨rows, rfl, q, hq, hqc⟩

end Verif
