import Verif.Proofs.Prices
import Verif.Proofs.Duality
import Verif.Props.Merit

/-!
# C30: energy and FCAS prices
-/

namespace Verif

theorem saveIndex_congr {α β : Type} {rows : List α} {n : Nat} {f g : Nat → α → β} (h : ∀ i a, rows[i]? = some a → f (n + i) a = g (n + i) a) :
    saveIndex rows n f = saveIndex rows n g := by
  induction rows generalizing n with
  | nil => rfl
  | cons a rows ih =>
    simp only [saveIndex]
    rw [show f n a = g n a from h 0 a rfl, ih]
    intro i b hb
    have := h (i + 1) b (by simpa using hb)
    rwa [show n + (i + 1) = n + 1 + i by omega] at this

theorem saveIndex_filterMap {ds : List Demand} {n : Nat} (price : Nat → ℚ) :
    (energyConstraints ds n).1.filterMap (fun r => r.region.map (fun g => (g, price r.cid))) =
      saveIndex ds n (fun i d => (d.region, price i)) := by
  unfold energyConstraints
  dsimp only
  induction ds generalizing n with
  | nil => rfl
  | cons d ds ih => simp [saveIndex, ih]

/-- **C30, where prices come from.**  Unless a re-run was asked for, the prices of a dispatch are the dual values the solver reports
for the linear model in which what the dispatch does not use is disabled. -/
theorem C30_of_linear_model {m : Market} {S : Solver} {o : Outcome} (ho : m.dispatch S none = .ok o) {lp : Lp} (hl : m.assemble = .ok lp) :
    o.price = S.dual (m.linear S o.x lp) := by
  obtain ⟨lp', h1, h2, h3, h4, h5⟩ := dispatch_parts ho
  rw [hl] at h1; injection h1 with h1; subst h1
  exact h4

/-- **C30, energy.**  After a successful dispatch `get_energy_prices` has one price for each region of the demand call, and
these prices are the marginal values of demand: when the prices the solver reports for the linear model are shadow prices at its
solution `xl`, then any point `y` that respects everything but the demand constraints and supplies each region its
demand plus `δ` costs at least the optimal cost plus `δ` at the energy prices. -/
theorem C30_energy_prices {m : Market} {ds : List Demand} {fs : List LossFn} (h : InForce (.demand ds none) m)
    (hf : LossFunctions fs m) (hp : m.properLinks fs) {S : Solver} {ocd : Option ReRun} {o : Outcome} (ho : m.dispatch S ocd = .ok o) :
    ∃ ps, m.energyPrices o.price = .ok ps ∧ ps.map Prod.fst = ds.map Demand.region ∧
      ∀ lp xl, m.assemble = .ok lp → ShadowPrices (m.linear S o.x lp) xl o.price →
      ∀ (δ : String → ℚ) y, m.allBut .demand (m.linear S o.x lp) y → (∀ d ∈ ds, m.balance y fs d.region = d.demand + δ d.region) →
        lp.cost xl + (ps.map (fun e => e.2 * δ e.1)).sum ≤ lp.cost y := by
  obtain ⟨n, hi⟩ := demand_imposed h
  refine ⟨saveIndex ds n (fun i d => (d.region, o.price i)), ?_, ?_, ?_⟩
  · unfold Market.energyPrices
    rw [hi.rhs]
    exact congrArg Except.ok (saveIndex_filterMap _)
  · rw [map_saveIndex, saveIndex_vals]
  · intro lp xl hl hs δ y hy hb
    obtain ⟨lp', hl', _, hpr, _⟩ := dispatch_parts ho
    rw [hl] at hl'; injection hl' with hl'; subst hl'
    have := shadow_set hi.wf.con hl (linear_rows ..) hpr hi.rhs rfl hs hy
    rw [linear_cost, linear_cost] at this
    have e : ((energyConstraints ds n).1.map (fun r => o.price r.cid * (rowVal m.terms y r.cid - r.rhs))).sum =
        ((saveIndex ds n (fun i d => (d.region, o.price i))).map (fun e => e.2 * δ e.1)).sum := by
      unfold energyConstraints
      dsimp only
      rw [map_saveIndex, map_saveIndex]
      congr 1
      apply saveIndex_congr
      intro i d hd
      dsimp only
      rw [(demand_row hi hf hp y hd).2]
      have := hb d (List.mem_of_getElem? hd)
      unfold Market.balance at this
      rw [this]
      ring
    rw [e] at this
    linarith

/-- weighted sum of grouped values -/
theorem groupSum_weighted {α κ : Type} [DecidableEq κ] (key : α → κ) (val : α → ℚ) (w : κ → ℚ) (l : List α) :
    ((groupSum key val l).map (fun e => e.2 * w e.1)).sum = (l.map (fun a => val a * w (key a))).sum := by
  unfold groupSum
  rw [List.map_map, ← sum_dedup_groups l key (fun a => val a * w (key a))]
  apply sum_map_congr
  intro k _
  simp only [Function.comp]
  rw [mul_comm, ← sum_map_mul_left]
  apply sum_map_congr
  intro a ha
  have := of_decide_eq_true (List.mem_filter.1 ha).2
  rw [this]; ring

/-- sums over a table, by the rows of another one -/
theorem sum_by_row {α β κ : Type} [DecidableEq κ] {rows : List β} {key : β → κ} (hn : (rows.map key).Nodup) {l : List α} {k : α → κ}
    (h : ∀ a ∈ l, k a ∈ rows.map key) (f : α → ℚ) :
    (l.map f).sum = (rows.map (fun r => ((l.filter (fun a => decide (k a = key r))).map f).sum)).sum := by
  simp only [sum_filter_eq_ite]
  rw [sum_comm]
  apply sum_map_congr
  intro a ha
  obtain ⟨r, hr, e⟩ := List.mem_map.1 (h a ha)
  have : (rows.map (fun b => if decide (k a = key b) = true then f a else 0)).sum =
      ((rows.filter (fun b => decide (key b = key r))).map (fun _ => f a)).sum := by
    rw [sum_filter_eq_ite]
    apply sum_map_congr
    intro b _
    rw [e]
    simp only [eq_comm]
  rw [this, filter_key_unique hn hr]
  simp

theorem fcasPrices_of {m : Market} {rs : List FcasReq} {n : Nat} (hmap : m.regCon.get? .fcas = some (fcasConstraints rs n).2)
    (hrhs : m.mktRhs.get? .fcas = some (fcasConstraints rs n).1) (hnd : ((fcasConstraints rs n).1.map Row.cid).Nodup) (price : Nat → ℚ) :
    m.fcasPrices price = .ok (groupSum (fun c : ConReg => (c.region, c.service)) (fun c => price c.cid) (fcasConstraints rs n).2) := by
  unfold Market.fcasPrices
  rw [hmap, hrhs]
  dsimp only
  congr 1
  have hone : ∀ c ∈ (fcasConstraints rs n).2, (((fcasConstraints rs n).1.filter (fun r => decide (r.cid = c.cid))).map (fun r => (c, r))).map
      (fun p : ConReg × Row => (p.1, p.2.cid)) = [(c, c.cid)] := by
    intro c hc
    obtain ⟨q, hq, ht⟩ := List.mem_flatMap.1 hc
    obtain ⟨t, ht', rfl⟩ := List.mem_map.1 ht
    have ht := (List.mem_filter.1 ht').1
    rw [List.map_map]
    have := filter_key_unique (key := Row.cid) hnd ht
    dsimp only
    rw [this]; rfl
  have hall : (((fcasConstraints rs n).2.flatMap (fun c => ((fcasConstraints rs n).1.filter (fun r => decide (r.cid = c.cid))).map
      (fun r => (c, r)))).map (fun p : ConReg × Row => (p.1, p.2.cid))) = (fcasConstraints rs n).2.map (fun c => (c, c.cid)) := by
    generalize hL : (fcasConstraints rs n).2 = L at hone ⊢
    clear hL
    induction L with
    | nil => rfl
    | cons c L ih =>
      rw [List.flatMap_cons, List.map_append, hone c (by simp), ih (fun c hc => hone c (by simp [hc]))]
      rfl
  have hg : ∀ (L : List (ConReg × Row)), groupSum (fun p : ConReg × Row => (p.1.region, p.1.service)) (fun p => price p.2.cid) L =
      groupSum (fun p : ConReg × Nat => (p.1.region, p.1.service)) (fun p => price p.2) (L.map (fun p => (p.1, p.2.cid))) := by
    intro L
    unfold groupSum
    simp only [List.map_map, List.filter_map, Function.comp_def]
  rw [hg, hall]
  unfold groupSum
  simp only [List.map_map, List.filter_map, Function.comp_def]

theorem fcasPrices_eq {m : Market} {rs : List FcasReq} {n : Nat} (hi : ImposedReg m .fcas (fcasConstraints rs n)) (price : Nat → ℚ) :
    m.fcasPrices price = .ok (groupSum (fun c : ConReg => (c.region, c.service)) (fun c => price c.cid) (fcasConstraints rs n).2) :=
  fcasPrices_of hi.map hi.rhs hi.nodup price

/-- **C30, FCAS.**  After a successful dispatch `get_fcas_prices` has one price for each region and service of the requirements,
and these are the marginal values of FCAS: when the prices the solver reports for the linear model are shadow
prices at its solution `xl`, then with `ε` MW of each service in each region for free, counted in all requirement sets that cover
it, no point `y` that respects everything else costs less than the optimal cost less `ε` at the FCAS prices. -/
theorem C30_fcas_prices {m : Market} {rs : List FcasReq} {fs : List LossFn} (h : InForce (.fcasReq rs none) m)
    (hs : ∀ r ∈ rs, r.service ≠ .energy) (hf : LossFunctions fs m)
    {S : Solver} {ocd : Option ReRun} {o : Outcome} (ho : m.dispatch S ocd = .ok o) :
    ∃ ps, m.fcasPrices o.price = .ok ps ∧ (ps.map Prod.fst).Nodup ∧
      (∀ g s, (g, s) ∈ ps.map Prod.fst ↔ ∃ r ∈ rs, r.region = g ∧ r.service = s) ∧
      ∀ lp xl, m.assemble = .ok lp → ShadowPrices (m.linear S o.x lp) xl o.price →
      ∀ (ε : String → Service → ℚ) y, m.allBut .fcas (m.linear S o.x lp) y →
        (∀ r, FirstOfSet rs r → r.ctype.holds (m.setSupply y rs r.set + m.linked y r.set +
          ((rs.filter (fun q => decide (q.set = r.set))).map (fun q => ε q.region q.service)).sum) r.volume) →
        lp.cost xl - (ps.map (fun e => e.2 * ε e.1.1 e.1.2)).sum ≤ lp.cost y := by
  obtain ⟨n, hi⟩ := fcas_imposed h
  refine ⟨_, fcasPrices_eq hi _, groupSum_nodup .., ?_, ?_⟩
  · intro g s
    rw [groupSum_keys, List.mem_dedup]
    simp only [List.mem_map, Prod.mk.injEq]
    constructor
    · rintro ⟨c, hc, e1, e2⟩
      obtain ⟨q, hq, ht⟩ := List.mem_flatMap.1 hc
      obtain ⟨t, ht, rfl⟩ := List.mem_map.1 ht
      exact ⟨q, hq, e1, e2⟩
    · rintro ⟨q, hq, e1, e2⟩
      obtain ⟨r, hr, e⟩ := exists_dropDup (key := FcasReq.set) hq
      obtain ⟨i, hr'⟩ := List.mem_iff_getElem?.1 hr
      have : (⟨n + i, q.region, q.service, 1⟩ : ConReg) ∈ (fcasConstraints rs n).2.filter (fun k => decide (k.cid = n + i)) := by
        rw [fcas_map n hr']
        exact List.mem_map.2 ⟨q, List.mem_filter.2 ⟨hq, by simpa using e.symm⟩, rfl⟩
      exact ⟨_, List.mem_of_mem_filter this, e1, e2⟩
  · intro lp xl hl hsp ε y hy hall
    obtain ⟨lp', hl', _, hpr, _⟩ := dispatch_parts ho
    rw [hl] at hl'; injection hl' with hl'; subst hl'
    have hb := shadow_set hi.wf.con hl (linear_rows ..) hpr hi.rhs rfl hsp hy
    rw [linear_cost, linear_cost] at hb
    rw [groupSum_weighted (fun c : ConReg => (c.region, c.service)) (fun c => o.price c.cid) (fun k => ε k.1 k.2)]
    rw [sum_by_row (rows := (fcasConstraints rs n).1) (key := Row.cid) (k := ConReg.cid) hi.nodup ?_]
    · have : -((fcasConstraints rs n).1.map (fun r => (((fcasConstraints rs n).2.filter (fun a => decide (a.cid = r.cid))).map
          (fun a => o.price a.cid * ε a.region a.service)).sum)).sum ≤
          ((fcasConstraints rs n).1.map (fun r => o.price r.cid * (rowVal m.terms y r.cid - r.rhs))).sum := by
        rw [neg_le_iff_add_nonneg', ← sum_map_add]
        apply sum_map_nonneg
        intro r hr
        obtain ⟨i, d, hd, rfl⟩ := mem_saveIndex.1 hr
        dsimp only
        rw [fcas_map n hd, (fcas_row hi hs hf y hd).2, List.map_map]
        simp only [Function.comp_def]
        rw [sum_map_mul_left]
        have h1 := hall d (mem_dropDup_first.1 (List.mem_of_getElem? hd))
        obtain ⟨t, ht, e⟩ := List.mem_map.1 (priced_row hpr hi.rhs hr)
        have hu := unique_row hi.wf.con (lpRow hl ht).2.1 (by rw [e]; exact mktRow_mem hi.rhs hr)
        have ht' : t ∈ (m.linear S o.x lp).rows := by rw [linear_rows]; exact ht
        have h2 := CType.pays (p := o.price (n + i)) (ty := d.ctype)
          (fun e' => by have := hsp.ge t ht' (hu.1.trans e'); rwa [e] at this)
          (fun e' => by have := hsp.le t ht' (hu.1.trans e'); rwa [e] at this) h1
        linarith
      linarith
    · intro c hc
      obtain ⟨q, hq, ht⟩ := List.mem_flatMap.1 hc
      obtain ⟨t, ht', rfl⟩ := List.mem_map.1 ht
      exact List.mem_map.2 ⟨t, (List.mem_filter.1 ht').1, rfl⟩

end Verif
