import Verif.Proofs.Losses

/-! Regional constraints of a market. -/

namespace Verif

theorem noLosses_none {m : Market} (h : NoLosses m) : m.lossReg = none ∧ m.losses = none := by
  obtain ⟨r, u, d, m0, ops, h1, h2, h3, rfl⟩ := h
  have := (part_run (m := m0) (ops := ops) (p := .set .interpWeights) h3)
  simp only [SamePart] at this
  obtain ⟨_, _, _, h4, h5⟩ := this.loss rfl
  rw [h4, h5, (init_fresh h1).1]
  exact ⟨rfl, rfl⟩

theorem losses_charged {m : Market} {fs : List LossFn} (h : LossFunctions fs m) (hp : m.properLinks fs) (x : Nat → ℚ) (r : String) :
    regSum (m.lossReg.getD []) x r .energy = - m.chargedLoss x fs r := by
  rcases h with ⟨rfl, h⟩ | ⟨bs, h⟩
  · rw [(noLosses_none h).1]
    unfold Market.chargedLoss
    have : ((m.dirs.getD []).map (fun d => (((([] : List LossFn).filter (fun f => decide (f.inter = d.inter ∧ f.link = d.link))).map (fun f =>
      lossCharge d.fromR d.toR f.share (m.linkLoss x d.inter d.link) r)).sum))).sum = 0 := by
      apply sum_map_zero; intro d _; rfl
    rw [this]; simp [regSum]
  · obtain ⟨ds, n, nv, nc, n1, n2, nw, ht⟩ := losses_set (by simp) h
    refine ht.charged_eq ?_ x r
    unfold Market.properLinks at hp
    rw [ht.dirs] at hp
    exact hp

theorem lossReg_link {m : Market} (hw : WF m) {fs : List LossFn} (h : LossFunctions fs m) {v : VarReg} (hv : v ∈ m.lossReg.getD []) :
    m.hasLink v.region ∧ v.service = .energy := by
  rcases h with ⟨rfl, h⟩ | ⟨bs, h⟩
  · rw [(noLosses_none h).1] at hv; simp at hv
  · obtain ⟨ds, n, nv, nc, n1, n2, nw, ht⟩ := losses_set (by simp) h
    rw [ht.lossReg, Option.getD_some] at hv
    simp only [lossMap, List.mem_flatMap, List.mem_map, List.mem_filter, decide_eq_true_eq] at hv
    obtain ⟨p, _, i, ⟨hi, _⟩, rfl⟩ := hv
    refine ⟨?_, rfl⟩
    unfold Market.hasLink
    rw [ht.dirs, Option.getD_some]
    unfold interMap at hi
    rcases List.mem_append.1 hi with hi | hi
    · obtain ⟨j, d, hd, rfl⟩ := mem_saveIndex.1 hi
      exact ⟨d, List.mem_of_getElem? hd, Or.inl rfl⟩
    · obtain ⟨j, d, hd, rfl⟩ := mem_saveIndex.1 hi
      exact ⟨d, List.mem_of_getElem? hd, Or.inr rfl⟩

theorem interReg_link {m : Market} (hw : WF m) {r : String} :
    (∃ v ∈ (m.interReg.getD []).map InterMap.toReg, v.region = r) ↔ m.hasLink r := by
  unfold Market.hasLink
  rcases hw.inter with ⟨a, b, c⟩ | ⟨ds, n, e1, e2, e3, hok⟩
  · rw [a, c]; simp
  · rw [e1, e3]
    simp only [Option.getD_some, interMap, List.mem_map, List.mem_append]
    constructor
    · rintro ⟨_, ⟨i, hi | hi, rfl⟩, rfl⟩
      · obtain ⟨j, d, hd, rfl⟩ := mem_saveIndex.1 hi
        exact ⟨d, List.mem_of_getElem? hd, Or.inl rfl⟩
      · obtain ⟨j, d, hd, rfl⟩ := mem_saveIndex.1 hi
        exact ⟨d, List.mem_of_getElem? hd, Or.inr rfl⟩
    · rintro ⟨d, hd, rfl | rfl⟩
      · obtain ⟨j, _, hm⟩ := mem_saveIndex' hd n (fun i d =>
          ({ vid := i, inter := d.inter, link := d.link, region := d.toR, coef := 1 * d.toLf } : InterMap))
        exact ⟨_, ⟨_, Or.inl hm, rfl⟩, rfl⟩
      · obtain ⟨j, _, hm⟩ := mem_saveIndex' hd n (fun i d =>
          ({ vid := i, inter := d.inter, link := d.link, region := d.fromR, coef := -1 * d.fromLf } : InterMap))
        exact ⟨_, ⟨_, Or.inr hm, rfl⟩, rfl⟩

theorem regVars_energy {m : Market} (hw : WF m) {fs : List LossFn} (h : LossFunctions fs m) {r : String} :
    (∃ v ∈ m.regVars, v.region = r ∧ v.service = .energy) ↔ m.hasSupply r .energy ∨ m.hasLink r := by
  unfold Market.regVars
  constructor
  · rintro ⟨v, hv, e1, e2⟩
    rcases List.mem_append.1 hv with hv | hv
    · rcases List.mem_append.1 hv with hv | hv
      · exact Or.inl ((mem_bidReg_iff hw).1 ⟨v, hv, e1, e2⟩)
      · exact Or.inr ((interReg_link hw).1 ⟨v, hv, e1⟩)
    · exact Or.inr (e1 ▸ (lossReg_link hw h hv).1)
  · rintro (h1 | h1)
    · obtain ⟨v, hv, e⟩ := (mem_bidReg_iff hw).2 h1
      exact ⟨v, List.mem_append_left _ (List.mem_append_left _ hv), e⟩
    · obtain ⟨v, hv, e⟩ := (interReg_link hw).2 h1
      refine ⟨v, List.mem_append_left _ (List.mem_append_right _ hv), e, ?_⟩
      obtain ⟨i, _, rfl⟩ := List.mem_map.1 hv
      rfl

theorem regVars_fcas {m : Market} (hw : WF m) {r : String} {s : Service} (hs : s ≠ .energy) (hl : ∀ v ∈ m.lossReg.getD [], v.service = .energy) :
    (∃ v ∈ m.regVars, v.region = r ∧ v.service = s) ↔ m.hasSupply r s := by
  unfold Market.regVars
  constructor
  · rintro ⟨v, hv, e1, e2⟩
    rcases List.mem_append.1 hv with hv | hv
    · rcases List.mem_append.1 hv with hv | hv
      · exact (mem_bidReg_iff hw).1 ⟨v, hv, e1, e2⟩
      · obtain ⟨i, _, rfl⟩ := List.mem_map.1 hv
        exact absurd e2.symm hs
    · exact absurd ((hl v hv).symm.trans e2).symm hs
  · intro h1
    obtain ⟨v, hv, e⟩ := (mem_bidReg_iff hw).2 h1
    exact ⟨v, List.mem_append_left _ (List.mem_append_left _ hv), e⟩

/-! ### demand -/

theorem demand_imposed {ds : List Demand} {m : Market} (h : InForce (.demand ds none) m) :
    ∃ n, ImposedReg m .demand (energyConstraints ds n) := by
  obtain ⟨a, ha, hm, hok, hb, hs⟩ := h.unpack
  have hn := step_ok hok
  have hs := hs (.set .demand) (by simp [Op.parts])
  simp only [SamePart] at hs
  simp only [Market.step, hn, Market.setDemand, Bool.false_eq_true, if_false] at hok hs
  by_cases h2 : (!(ds.all (fun d => decide (d.region ∈ a.regions)) && decide ((ds.map (·.region)).Nodup))) = true
  · rw [if_pos h2] at hok; simp at hok
  rw [if_neg h2] at hok hs
  obtain ⟨_, he⟩ := andThen_ok hok
  rw [he] at hs
  exact ⟨a.nextCon, imposedReg_of ha.con hm rfl (freshReg_energy ..) hs⟩

theorem regSum_energy {m : Market} (hw : WF m) {fs : List LossFn} (h : LossFunctions fs m) (hp : m.properLinks fs) (x : Nat → ℚ) (r : String) :
    regSum m.regVars x r .energy = m.supply x r .energy + m.netImport x r - m.chargedLoss x fs r := by
  rw [Market.regVars, regSum_append, regSum_append, supply_eq hw, imports_eq hw, losses_charged h hp]
  ring

theorem energy_mem {ds : List Demand} {n i : Nat} {d : Demand} (hd : ds[i]? = some d) :
    (⟨n + i, .eq, d.demand, none, some d.region⟩ : Row) ∈ (energyConstraints ds n).1 := mem_saveIndex.2 ⟨i, d, hd, rfl⟩

theorem demand_row {ds : List Demand} {m : Market} {n : Nat} (hi : ImposedReg m .demand (energyConstraints ds n)) {fs : List LossFn}
    (hf : LossFunctions fs m) (hp : m.properLinks fs) (x : Nat → ℚ) {i : Nat} {d : Demand} (hd : ds[i]? = some d) :
    ((∃ t ∈ m.terms, t.cid = n + i) ↔ m.hasSupply d.region .energy ∨ m.hasLink d.region) ∧
    rowVal m.terms x (n + i) = m.supply x d.region .energy + m.netImport x d.region - m.chargedLoss x fs d.region := by
  have hf1 : (energyConstraints ds n).2.filter (fun k => decide (k.cid = n + i)) = [⟨n + i, d.region, .energy, 1⟩] :=
    filter_saveIndex ds n (fun i (d : Demand) => ({ cid := i, region := d.region, service := .energy, coef := 1 } : ConReg))
      ConReg.cid (fun _ _ => rfl) hd
  have h1 := hi.term_iff (energy_mem hd)
  have h2 := hi.rowVal (energy_mem hd) x
  dsimp only at h1 h2
  simp only [reduceCtorEq, if_false, setIds, List.filterMap_nil, genericTermsFor_nil, List.not_mem_nil, false_and, exists_false, false_or] at h1 h2
  constructor
  · rw [h1, ← regVars_energy hi.wf hf]
    constructor
    · rintro ⟨c, hc, e, v, hv, e1, e2⟩
      have : c ∈ (energyConstraints ds n).2.filter (fun k => decide (k.cid = n + i)) := List.mem_filter.2 ⟨hc, by simpa using e⟩
      rw [hf1, List.mem_singleton] at this
      subst this
      exact ⟨v, hv, e1, e2⟩
    · rintro ⟨v, hv, e1, e2⟩
      have : (⟨n + i, d.region, .energy, 1⟩ : ConReg) ∈ (energyConstraints ds n).2.filter (fun k => decide (k.cid = n + i)) := by
        rw [hf1]; simp
      exact ⟨_, List.mem_of_mem_filter this, rfl, v, hv, e1, e2⟩
  · rw [h2, Market.regLhs, hf1, ← regSum_energy hi.wf hf hp]
    simp [rowVal_nil]

theorem demand_iff {ds : List Demand} {m : Market} (h : InForce (.demand ds none) m) {fs : List LossFn} (hf : LossFunctions fs m)
    (hp : m.properLinks fs) {lp : Lp} (hl : m.assemble = .ok lp) {x : Nat → ℚ} :
    m.obeys lp x .demand ↔ ∀ d ∈ ds, m.hasSupply d.region .energy ∨ m.hasLink d.region →
      m.supply x d.region .energy + m.netImport x d.region - m.chargedLoss x fs d.region = d.demand := by
  obtain ⟨n, hi⟩ := demand_imposed h
  rw [obeys_mkt hi.wf.con hl hi.mkt (by simp) hi.rhs]
  have key := fun i (d : Demand) (hd : ds[i]? = some d) => demand_row hi hf hp x hd
  constructor
  · intro ho d hd hex
    obtain ⟨i, hi'⟩ := List.mem_iff_getElem?.1 hd
    have := ho _ (energy_mem hi') ((key i d hi').1.2 hex)
    dsimp only at this
    rw [(key i d hi').2] at this
    exact this
  · intro hall r hr ht
    obtain ⟨i, d, hd, rfl⟩ := mem_saveIndex.1 hr
    dsimp only at ht ⊢
    rw [(key i d hd).2]
    exact hall d (List.mem_of_getElem? hd) ((key i d hd).1.1 ht)

/-! ### FCAS requirements -/

theorem mem_dropDup_first {rs : List FcasReq} {r : FcasReq} : r ∈ dropDup (·.set) rs ↔ FirstOfSet rs r := by
  induction rs with
  | nil => simp [dropDup, FirstOfSet]
  | cons a rs ih =>
    simp only [dropDup, List.mem_cons, List.mem_filter, ih, decide_eq_true_eq]
    constructor
    · rintro (rfl | ⟨⟨pre, post, rfl, h⟩, hne⟩)
      · exact ⟨[], rs, rfl, by simp⟩
      · refine ⟨a :: pre, post, rfl, ?_⟩
        intro q hq
        rcases List.mem_cons.1 hq with rfl | hq
        · exact fun e => hne e.symm
        · exact h q hq
    · rintro ⟨pre, post, e, h⟩
      cases pre with
      | nil => simp at e; exact Or.inl e.1.symm
      | cons b pre =>
        simp at e
        obtain ⟨rfl, rfl⟩ := e
        refine Or.inr ⟨⟨pre, post, rfl, fun q hq => h q (List.mem_cons_of_mem _ hq)⟩, ?_⟩
        exact fun e => h _ (List.mem_cons_self ..) e.symm

theorem dropDup_sets (rs : List FcasReq) : ((dropDup (·.set) rs).map FcasReq.set).Nodup := by
  induction rs with
  | nil => simp [dropDup]
  | cons a rs ih =>
    simp only [dropDup, List.map_cons, List.nodup_cons]
    refine ⟨?_, ih.sublist (List.filter_sublist.map _)⟩
    intro h
    obtain ⟨b, hb, e⟩ := List.mem_map.1 h
    simp only [List.mem_filter, decide_eq_true_eq] at hb
    exact hb.2 e

theorem fcas_imposed {rs : List FcasReq} {m : Market} (h : InForce (.fcasReq rs none) m) :
    ∃ n, ImposedReg m .fcas (fcasConstraints rs n) := by
  obtain ⟨a, ha, hm, hok, hb, hs⟩ := h.unpack
  have hn := step_ok hok
  have hs := hs (.set .fcas) (by simp [Op.parts])
  simp only [SamePart] at hs
  simp only [Market.step, hn, Market.setFcasReq, Bool.false_eq_true, if_false] at hok hs
  by_cases h2 : (!(rs.all (fun r => decide (r.region ∈ a.regions) && decide (r.ctype ≠ .other)) &&
      decide ((rs.map (fun r => (r.set, r.region, r.service))).Nodup))) = true
  · rw [if_pos h2] at hok; simp at hok
  rw [if_neg h2] at hok hs
  obtain ⟨_, he⟩ := andThen_ok hok
  rw [he] at hs
  refine ⟨a.nextCon, imposedReg_of ha.con hm rfl (freshReg_fcas _ _ ?_) hs⟩
  simp only [Bool.not_eq_true, Bool.not_eq_false', Bool.and_eq_true, List.all_eq_true, decide_eq_true_eq] at h2
  exact fun r hr => (h2.1 r hr).2

theorem fcas_mem {rs : List FcasReq} {n i : Nat} {d : FcasReq} (hd : (dropDup (·.set) rs)[i]? = some d) :
    (⟨n + i, d.ctype, d.volume, some d.set, none⟩ : Row) ∈ (fcasConstraints rs n).1 := mem_saveIndex.2 ⟨i, d, hd, rfl⟩

theorem fcas_map {rs : List FcasReq} (n : Nat) {i : Nat} {d : FcasReq} (hd : (dropDup (·.set) rs)[i]? = some d) :
    (fcasConstraints rs n).2.filter (fun k => decide (k.cid = n + i)) =
      (rs.filter (fun q => decide (q.set = d.set))).map (fun q => ⟨n + i, q.region, q.service, 1⟩) := by
  have hsets : ((fcasRows rs n).map Row.set).Nodup := by
    have := (dropDup_sets rs).map (f := some) (fun a b h => by injection h)
    rw [fcasRows, map_saveIndex]
    rw [show (fun (i : Nat) (a : FcasReq) => Row.set { cid := i, ctype := a.ctype, rhs := a.volume, set := some a.set }) =
      fun (_ : Nat) (a : FcasReq) => some a.set from rfl, saveIndex_vals]
    rw [List.map_map] at this
    exact this
  have hyes : ∀ q ∈ rs, q.set = d.set → (fcasRows rs n).filter (fun t => decide (t.set = some q.set)) =
      [⟨n + i, d.ctype, d.volume, some d.set, none⟩] := by
    intro q _ e
    have := filter_key_unique hsets (fcas_mem hd)
    rw [← this, e]
  have hno : ∀ q ∈ rs, q.set ≠ d.set → ∀ t ∈ (fcasRows rs n).filter (fun t => decide (t.set = some q.set)), t.cid ≠ n + i := by
    intro q _ hne t ht hc
    simp only [fcasRows, List.mem_filter, decide_eq_true_eq] at ht
    obtain ⟨ht, e⟩ := ht
    obtain ⟨j, d', hd', rfl⟩ := mem_saveIndex.1 ht
    dsimp only at e hc
    injection e with e
    have : j = i := by omega
    subst this
    rw [hd] at hd'; injection hd' with hd'
    exact hne (by rw [← e, hd'])
  have : ∀ L : List FcasReq, (∀ q ∈ L, q ∈ rs) → (L.flatMap (fun r => ((fcasRows rs n).filter (fun t => decide (t.set = some r.set))).map (fun t =>
      ({ cid := t.cid, region := r.region, service := r.service, coef := 1 } : ConReg)))).filter (fun k => decide (k.cid = n + i)) =
      (L.filter (fun q => decide (q.set = d.set))).map (fun q => ⟨n + i, q.region, q.service, 1⟩) := by
    intro L
    induction L with
    | nil => intro _; rfl
    | cons q L ih =>
      intro hL
      rw [List.flatMap_cons, List.filter_append, ih (fun q hq => hL q (List.mem_cons_of_mem _ hq))]
      by_cases e : q.set = d.set
      · rw [hyes q (hL q (by simp)) e, List.filter_cons, if_pos (by simpa using e)]
        simp
      · rw [List.filter_cons, if_neg (by simpa using e), List.filter_eq_nil_iff.2]
        · rfl
        · intro c hc
          obtain ⟨t, ht, rfl⟩ := List.mem_map.1 hc
          simpa using hno q (hL q (by simp)) e t ht
  exact this rs (fun _ h => h)

theorem fcas_row {rs : List FcasReq} {m : Market} {n : Nat} (hi : ImposedReg m .fcas (fcasConstraints rs n))
    (hs : ∀ r ∈ rs, r.service ≠ .energy) {fs : List LossFn} (hf : LossFunctions fs m) (x : Nat → ℚ) {i : Nat} {d : FcasReq}
    (hd : (dropDup (·.set) rs)[i]? = some d) :
    ((∃ t ∈ m.terms, t.cid = n + i) ↔ (∃ q ∈ rs, q.set = d.set ∧ m.hasSupply q.region q.service) ∨ m.hasLinked d.set) ∧
    rowVal m.terms x (n + i) = m.setSupply x rs d.set + m.linked x d.set := by
  have hle : ∀ v ∈ m.lossReg.getD [], v.service = .energy := fun v hv => (lossReg_link hi.wf hf hv).2
  have hmap := fcas_map n hd
  have hsum : ∀ q ∈ rs, regSum m.regVars x q.region q.service = m.supply x q.region q.service := by
    intro q hq
    rw [Market.regVars, regSum_append, regSum_append, supply_eq hi.wf, imports_fcas _ _ (hs q hq)]
    have : regSum (m.lossReg.getD []) x q.region q.service = 0 := by
      rw [regSum, List.filter_eq_nil_iff.2]
      · rfl
      · intro v hv h'
        have h' := (of_decide_eq_true h').2
        exact hs q hq (h'.symm.trans (hle v hv))
    rw [this]; ring
  have hrows : (fcasConstraints rs n).1 = fcasRows rs n := rfl
  have h1 := hi.term_iff (fcas_mem hd)
  have h2 := hi.rowVal (fcas_mem hd) x
  rw [if_pos rfl] at h1 h2
  rw [mem_genericTermsFor hi.wf hi.nodup (fcas_mem hd) rfl] at h1
  rw [rowVal_genericTermsFor hi.wf hi.nodup (fcas_mem hd) rfl] at h2
  dsimp only at h1 h2
  constructor
  · rw [h1, or_comm]
    apply or_congr _ Iff.rfl
    constructor
    · rintro ⟨c, hc, e, hv⟩
      have : c ∈ (fcasConstraints rs n).2.filter (fun k => decide (k.cid = n + i)) := List.mem_filter.2 ⟨hc, by simpa using e⟩
      rw [hmap, List.mem_map] at this
      obtain ⟨q, hq, rfl⟩ := this
      simp only [List.mem_filter, decide_eq_true_eq] at hq
      exact ⟨q, hq.1, hq.2, (regVars_fcas hi.wf (hs q hq.1) hle).1 hv⟩
    · rintro ⟨q, hq, e, hv⟩
      have : (⟨n + i, q.region, q.service, 1⟩ : ConReg) ∈ (fcasConstraints rs n).2.filter (fun k => decide (k.cid = n + i)) := by
        rw [hmap, List.mem_map]
        exact ⟨q, List.mem_filter.2 ⟨hq, by simpa using e⟩, rfl⟩
      exact ⟨_, List.mem_of_mem_filter this, rfl, (regVars_fcas hi.wf (hs q hq) hle).2 hv⟩
  · rw [h2, Market.regLhs, hmap, List.map_map, Market.setSupply, add_comm]
    congr 1
    apply sum_map_congr
    intro q hq
    simp only [Function.comp, one_mul]
    exact hsum q (List.mem_of_mem_filter hq)

theorem fcas_iff {rs : List FcasReq} {m : Market} (h : InForce (.fcasReq rs none) m) (hs : ∀ r ∈ rs, r.service ≠ .energy)
    {fs : List LossFn} (hf : LossFunctions fs m) {lp : Lp} (hl : m.assemble = .ok lp) {x : Nat → ℚ} :
    m.obeys lp x .fcas ↔ ∀ r, FirstOfSet rs r → (∃ q ∈ rs, q.set = r.set ∧ m.hasSupply q.region q.service) ∨ m.hasLinked r.set →
      r.ctype.holds (m.setSupply x rs r.set + m.linked x r.set) r.volume := by
  obtain ⟨n, hi⟩ := fcas_imposed h
  rw [obeys_mkt hi.wf.con hl hi.mkt (by simp) hi.rhs]
  have key := fun i (d : FcasReq) (hd : (dropDup (·.set) rs)[i]? = some d) => fcas_row hi hs hf x hd
  constructor
  · intro ho d hd hex
    obtain ⟨i, hi'⟩ := List.mem_iff_getElem?.1 (mem_dropDup_first.2 hd)
    have := ho _ (fcas_mem hi') ((key i d hi').1.2 hex)
    dsimp only at this
    rw [(key i d hi').2] at this
    exact this
  · intro hall r hr ht
    obtain ⟨i, d, hd, rfl⟩ := mem_saveIndex.1 hr
    dsimp only at ht ⊢
    rw [(key i d hd).2]
    exact hall d (mem_dropDup_first.1 (List.mem_of_getElem? hd)) ((key i d hd).1.1 ht)

/-! ### generic constraints -/

theorem generic_rows {gs : List GenericRow} {m : Market} (h : InForce (.generic gs none) m) :
    ∃ n, WF m ∧ m.conRhs.get? .generic = some (saveIndex gs n (fun i g =>
      ({ cid := i, ctype := g.ctype, rhs := g.rhs, set := some g.set } : Row))) ∧
      ∀ d, m.deficits.get? .generic = some d → ∀ s ∈ d.2, s.cid < n := by
  obtain ⟨a, ha, hm, hok, hb, hs⟩ := h.unpack
  have hn := step_ok hok
  have hs := hs (.set .generic) (by simp [Op.parts])
  simp only [SamePart] at hs
  simp only [Market.step, hn, Market.setGeneric, Bool.false_eq_true, if_false] at hok hs
  by_cases h2 : (!decide ((gs.map (·.set)).Nodup)) = true
  · rw [if_pos h2] at hok; simp at hok
  rw [if_neg h2] at hok hs
  have hd : m.deficits.get? .generic = a.deficits.get? .generic := by
    rw [hs.deficits]; simp only [Market.elasticOpt]; split <;> rfl
  refine ⟨a.nextCon, hm, ?_, ?_⟩
  · rw [hs.conRhs]; simp only [Market.elasticOpt]; split <;> exact Dict.get?_set_self ..
  · intro d hd' s hs'
    rw [hd] at hd'
    obtain ⟨own, ho⟩ := ha.con.own
    exact (ho .generic s.cid (Or.inr (Or.inr (Or.inr (Or.inr (Or.inl ⟨d, Dict.mem_of_get? hd', s, hs', rfl⟩)))))).2

theorem generic_iff {gs : List GenericRow} {m : Market} (h : InForce (.generic gs none) m) {lp : Lp} (hl : m.assemble = .ok lp) {x : Nat → ℚ} :
    m.obeys lp x .generic ↔ ∀ g ∈ gs, m.hasLinked g.set → g.ctype.holds (m.linked x g.set) g.rhs := by
  obtain ⟨n, hw, hr, hd⟩ := generic_rows h
  rw [obeys_con hw.con hl rfl (by simp) hr]
  set rows := saveIndex gs n (fun i g => ({ cid := i, ctype := g.ctype, rhs := g.rhs, set := some g.set } : Row)) with hrows
  have hnd : (rows.map Row.cid).Nodup := by
    rw [hrows, map_saveIndex, saveIndex_ids]; exact nodup_range' ..
  have hown : m.ownTerms .generic = ((m.deficits.get? .generic).elim [] (·.2)) ++ m.genericTermsFor (setIds rows) := by
    have h5 : m.unitCon.get? .generic = none := by
      apply get?_none_of_keys
      intro e he h'
      have := hw.key.1 e he
      rw [h'] at this; simp [CKey.isUnit] at this
    have h6 : m.regCon.get? .generic = none := by
      apply get?_none_of_keys
      intro e he h'
      have := hw.key.2 e he
      rw [h'] at this; simp [CKey.isMarket] at this
    unfold Market.ownTerms Market.genericRows
    rw [h5, h6, if_pos rfl, hr]
    simp [createLhsUnit, createLhsReg]
  have key : ∀ r ∈ rows, ∀ s, r.set = some s → ((∃ t ∈ m.terms, t.cid = r.cid) ↔ m.hasLinked s) ∧ rowVal m.terms x r.cid = m.linked x s := by
    intro r hr' s hs
    have hin : InTab m .generic r.cid := Or.inr (Or.inr (Or.inl ⟨rows, Dict.mem_of_get? hr, r, hr', rfl⟩))
    have hge : n ≤ r.cid := by
      obtain ⟨i, g, _, rfl⟩ := mem_saveIndex.1 hr'
      simp
    have hdef : ∀ q ∈ ((m.deficits.get? .generic).elim [] (·.2) : List Term), q.cid ≠ r.cid := by
      cases hd' : m.deficits.get? .generic with
      | none => simp
      | some d => intro q hq; have := hd d hd' q hq; omega
    constructor
    · rw [mem_terms_own hw.con hin, hown, ← mem_genericTermsFor hw hnd hr' hs]
      constructor
      · rintro ⟨q, hq, e⟩
        rcases List.mem_append.1 hq with hq | hq
        · exact absurd e (hdef q hq)
        · exact ⟨q, hq, e⟩
      · rintro ⟨q, hq, e⟩
        exact ⟨q, List.mem_append_right _ hq, e⟩
    · rw [rowVal_own hw.con hin, hown, rowVal_append, rowVal_zero hdef, zero_add, rowVal_genericTermsFor hw hnd hr' hs]
  constructor
  · intro ho g hg hlk
    obtain ⟨i, _, hm⟩ := mem_saveIndex' hg n (fun i (g : GenericRow) =>
      ({ cid := i, ctype := g.ctype, rhs := g.rhs, set := some g.set } : Row))
    have := ho _ hm ((key _ hm _ rfl).1.2 hlk)
    rw [(key _ hm _ rfl).2] at this
    exact this
  · intro hall r hr' ht
    obtain ⟨i, g, hg, rfl⟩ := mem_saveIndex.1 hr'
    rw [(key _ hr' _ rfl).2]
    exact hall g (List.mem_of_getElem? hg) ((key _ hr' _ rfl).1.1 ht)

/-! ### interconnectors -/

theorem inters_set {ds : List InterDef} {m : Market} (h : InForce (.interconnectors ds) m) :
    ∃ n, WF m ∧ m.dirs = some ds ∧ m.inters = some (interVariables ds n) ∧ m.interDefsOk ds = true := by
  obtain ⟨a, ha, hm, hok, hb, hs⟩ := h.unpack
  have hn := step_ok hok
  have hs := hs .inters (by simp [Op.parts])
  simp only [SamePart] at hs
  simp only [Market.step, hn, Market.setInterconnectors, Bool.false_eq_true, if_false] at hok hs
  by_cases h2 : (!a.interDefsOk ds) = true
  · rw [if_pos h2] at hok; simp at hok
  rw [if_neg h2] at hok hs
  by_cases h3 : (interVariables ds a.nextVar).isEmpty = true
  · rw [if_pos h3] at hok; simp at hok
  rw [if_neg h3] at hs
  refine ⟨a.nextVar, hm, hs.1, hs.2.1, ?_⟩
  have : m.interDefsOk ds = a.interDefsOk ds := by unfold Market.interDefsOk; rw [hb.1]
  rw [this]; simpa using h2

theorem netImport_cancel {m : Market} (x : Nat → ℚ) (hr : ∀ d ∈ m.dirs.getD [], d.toR ∈ m.regions ∧ d.fromR ∈ m.regions)
    (h1 : ∀ d ∈ m.dirs.getD [], d.toLf = 1 ∧ d.fromLf = 1) :
    ((m.regions.dedup).map (m.netImport x)).sum = 0 := by
  unfold Market.netImport
  rw [sum_comm]
  apply sum_map_zero
  intro d hd
  have one : ∀ (s : String) (c : ℚ), s ∈ m.regions → ((m.regions.dedup).map (fun r => if s = r then c else 0)).sum = c := by
    intro s c hs
    have h2 := filter_key_unique (key := fun r : String => r) (l := m.regions.dedup) (a := s) (by simpa using List.nodup_dedup _) (List.mem_dedup.2 hs)
    have h3 := sum_filter_eq_ite (m.regions.dedup) (fun r => decide (r = s)) (fun _ => c)
    rw [h2] at h3
    simp only [List.map_cons, List.map_nil, List.sum_cons, List.sum_nil, add_zero, decide_eq_true_eq] at h3
    refine Eq.trans ?_ h3.symm
    apply sum_map_congr
    intro r _
    by_cases e : s = r
    · subst e; simp
    · rw [if_neg e, if_neg (fun e' => e e'.symm)]
  rw [sum_map_sub, one _ _ (hr d hd).1, one _ _ (hr d hd).2, (h1 d hd).1, (h1 d hd).2]
  ring

end Verif
