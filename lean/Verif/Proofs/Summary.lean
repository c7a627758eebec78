import Verif.Proofs.Demo
import Verif.Proofs.Outputs
import Verif.Proofs.Balance

/-! # The regional dispatch summary -/

namespace Verif

theorem shares_prim {good : Prop} {ks : List Part} {m m' : Market} (h : Prim good ks m m') (hk : Part.set .interpWeights ∉ ks) :
    m'.lossShares = m.lossShares := by
  cases h with
  | bids _ b =>
    unfold Market.setVolumeBids
    split
    · rfl
    split
    · rfl
    dsimp only
    split <;> rfl
  | prices _ b =>
    unfold Market.setPriceBids
    split
    · rfl
    split
    · rfl
    split <;> rfl
  | unitSet _ k' t hk' ht =>
    unfold Market.addUnitSet
    dsimp only
    split <;> rfl
  | regSet _ k' t hk' ht =>
    unfold Market.addRegSet
    dsimp only
    split <;> rfl
  | elastic _ k' c =>
    unfold Market.makeElastic
    split
    · rfl
    split
    · rfl
    split
    · rfl
    dsimp only
    split <;> rfl
  | removeFs _ =>
    unfold Market.removeFastStart
    dsimp only
    split <;> split <;> rfl
  | inters _ d =>
    unfold Market.setInterconnectors
    split
    · rfl
    dsimp only
    split <;> rfl
  | losses _ f b hb => exact absurd (by simp) hk
  | generic _ g =>
    unfold Market.setGeneric
    split
    · rfl
    dsimp only [Market.elasticOpt]
    split <;> rfl
  | linkUnits _ g => unfold Market.linkUnits; split <;> rfl
  | linkRegions _ g => unfold Market.linkRegions; split <;> rfl
  | linkInters _ g => unfold Market.linkInters; split <;> rfl
  | tie _ ps hps => rfl

theorem shares_steps {good : Prop} {ks : List Part} {m m' : Market} (h : Steps good ks m m') (hk : Part.set .interpWeights ∉ ks) :
    m'.lossShares = m.lossShares := by
  induction h with
  | refl => rfl
  | tail _ q hks ih => exact (shares_prim q (fun h => hk (hks h))).trans ih

theorem shares_run {m : Market} {ops : List Op} (hk : ∀ o ∈ ops, Part.set .interpWeights ∉ o.parts) :
    (m.run ops).lossShares = m.lossShares := by
  induction ops generalizing m with
  | nil => rfl
  | cons o ops ih =>
    rw [run_cons, ih (fun o ho => hk o (List.mem_cons_of_mem _ ho))]
    exact shares_steps (step_steps (good := False) m o (fun h => h.elim)) (hk o (by simp))

/-- the loss shares that belong to the loss functions -/
theorem shares_of {fs : List LossFn} {m : Market} (h : LossFunctions fs m) :
    (fs = [] ∧ m.lossShares = none ∧ m.losses = none) ∨
    (∃ bs ds n nv nc n1 n2 nw, LossTables m fs bs ds n nv nc n1 n2 nw ∧
      m.lossShares = some (fs.map (fun f => (f.inter, f.link, f.share)))) := by
  rcases h with ⟨rfl, h⟩ | ⟨bs, h⟩
  · refine Or.inl ⟨rfl, ?_, (noLosses_none h).2⟩
    obtain ⟨r, u, d, m0, ops, h1, h2, h3, rfl⟩ := h
    rw [shares_run h3, (init_fresh h1).1]
  · obtain ⟨ds, n, nv, nc, n1, n2, nw, ht⟩ := losses_set (by simp) h
    refine Or.inr ⟨bs, ds, n, nv, nc, n1, n2, nw, ht, ?_⟩
    obtain ⟨r, u, d, m0, before, after, h1, h2, h3, h4, rfl⟩ := h
    rw [run_append, run_cons, shares_run (fun o ho => h4 o ho _ (by simp [Op.parts]))]
    have hn := step_ok h3
    simp only [Market.step, hn, Market.setLosses, Bool.false_eq_true, if_false] at h3 ⊢
    split at h3
    · simp at h3
    rename_i c
    rw [if_neg c]
    split
    · split <;> rfl
    · rfl

/-- the links, each with its flow and loss -/
def Market.flowRow (m : Market) (x : Nat → ℚ) (d : InterDef) : FlowRow :=
  ⟨d.inter, d.link, m.flow x d.inter d.link,
    if (m.losses.getD []).filter (fun l => decide (l.inter = d.inter ∧ l.link = d.link)) = [] then none else some (m.linkLoss x d.inter d.link)⟩

theorem flatMap_single {α β : Type} (l : List α) (f : α → List β) (g : α → β) (h : ∀ a ∈ l, f a = [g a]) : l.flatMap f = l.map g := by
  induction l with
  | nil => rfl
  | cons a l ih =>
    rw [List.flatMap_cons, h a (by simp), ih (fun b hb => h b (by simp [hb]))]
    rfl

theorem inters_of {m : Market} (hw : WF m) {ds : List InterDef} (hd : m.dirs = some ds) :
    ∃ n, m.inters = some (interVariables ds n) ∧ (ds.map (fun d => (d.inter, d.link))).Nodup := by
  rcases hw.inter with ⟨a, _, _⟩ | ⟨ds', n, e1, e2, e3, hok⟩
  · rw [a] at hd; cases hd
  · rw [hd] at e1; injection e1 with e1; subst e1
    exact ⟨n, e2, interKeys hok⟩

theorem flow_at' {m : Market} {ds : List InterDef} {n : Nat} (hi : m.inters = some (interVariables ds n))
    (hk : (ds.map (fun d => (d.inter, d.link))).Nodup) {i : Nat} {d : InterDef} (h : ds[i]? = some d) (x : Nat → ℚ) :
    m.flow x d.inter d.link = x (n + i) := by
  unfold Market.flow
  rw [hi, Option.getD_some, flow_at hk h]
  simp

theorem interFlows_eq {m : Market} (hw : WF m) {fs : List LossFn} (hf : LossFunctions fs m) {ds : List InterDef} (hd : m.dirs = some ds) (x : Nat → ℚ) :
    m.interFlows x = .ok (ds.map (m.flowRow x)) := by
  obtain ⟨n, hi, hk⟩ := inters_of hw hd
  unfold Market.interFlows
  rw [hi]
  simp only
  congr 1
  have hone : ∀ v ∈ interVariables ds n, ∀ l, (m.losses.getD []).filter (fun l => decide (l.inter = v.inter ∧ l.link = v.link)) = l → l ≠ [] →
      ∃ w, l = [w] := by
    intro v hv l hl hne
    obtain ⟨i, d, hdi, rfl⟩ := mem_saveIndex.1 hv
    rcases shares_of hf with ⟨_, _, h3⟩ | ⟨bs, ds', n', nv, nc, n1, n2, nw, ht, _⟩
    · rw [h3] at hl; exact absurd hl.symm hne
    · have e := ht.dirs
      rw [hd] at e; injection e with e; subst e
      rw [ht.losses, Option.getD_some] at hl
      have hks := lossVariables_keys (vs := interVariables ds n') nv (lossVariablesAux_fr ht.keys ht.fkeys)
        (by rw [interVariables_keys]; exact ht.keys)
      obtain ⟨w, hw⟩ := List.exists_mem_of_ne_nil _ hne
      rw [← hl] at hw
      have hwm := List.mem_filter.1 hw
      simp only [decide_eq_true_eq] at hwm
      refine ⟨w, ?_⟩
      rw [← hl, ← filter_key_unique hks hwm.1]
      apply List.filter_congr
      intro v _
      simp [Prod.ext_iff, hwm.2.1, hwm.2.2]
  rw [flatMap_single (interVariables ds n) _ (fun v => (⟨v.inter, v.link, x v.vid,
    if (m.losses.getD []).filter (fun l => decide (l.inter = v.inter ∧ l.link = v.link)) = [] then none
    else some (m.linkLoss x v.inter v.link)⟩ : FlowRow))]
  · apply List.ext_getElem?
    intro i
    rw [List.getElem?_map, List.getElem?_map, interVariables, getElem?_saveIndex]
    cases hdi : ds[i]? with
    | none => rfl
    | some d =>
      simp only [Option.map_some, Market.flowRow]
      rw [flow_at' hi hk hdi]
  · intro v hv
    split
    · rename_i he
      rw [if_pos he]
    · rename_i he
      obtain ⟨w, hw⟩ := hone v hv _ rfl he
      rw [if_neg he]
      unfold Market.linkLoss
      rw [hw]
      simp

/-- total of the entries of a key -/
def totalAt (L : List (String × ℚ)) (r : String) : ℚ := (L.map (fun p => if p.1 = r then p.2 else 0)).sum

theorem totalAt_flatMap {α : Type} (l : List α) (f : α → List (String × ℚ)) (r : String) :
    totalAt (l.flatMap f) r = (l.map (fun a => totalAt (f a) r)).sum := sum_map_flatMap l f _

theorem totalAt_append (a b : List (String × ℚ)) (r : String) : totalAt (a ++ b) r = totalAt a r + totalAt b r := by
  unfold totalAt; rw [List.map_append, List.sum_append]

theorem totalAt_filter (L : List (String × ℚ)) (r : String) : ((L.filter (fun e => decide (e.1 = r))).map Prod.snd).sum = totalAt L r := by
  rw [sum_filter_eq_ite]
  unfold totalAt
  apply sum_map_congr
  intro p _
  simp

theorem groupSum_total (L : List (String × ℚ)) (r : String) :
    (((groupSum Prod.fst Prod.snd L).filter (fun e => decide (e.1 = r))).map Prod.snd).sum = totalAt L r := by
  rw [groupSum_at, totalAt_filter]

theorem mem_group_total {L : List (String × ℚ)} {e : String × ℚ} :
    e ∈ groupSum Prod.fst Prod.snd L ↔ (∃ a ∈ L, a.1 = e.1) ∧ e.2 = totalAt L e.1 := by
  rw [mem_groupSum, totalAt_filter]

section
variable {m : Market} {ds : List InterDef} (hk : (ds.map (fun d => (d.inter, d.link))).Nodup) (x : Nat → ℚ)
include hk

theorem fl_filter {d : InterDef} (hd : d ∈ ds) : (ds.map (m.flowRow x)).filter (fun f => decide (f.inter = d.inter ∧ f.link = d.link)) = [m.flowRow x d] := by
  rw [List.filter_map]
  rw [show ((fun f : FlowRow => decide (f.inter = d.inter ∧ f.link = d.link)) ∘ m.flowRow x) = fun b => decide ((b.inter, b.link) = (d.inter, d.link)) from ?_,
    filter_key_unique (key := fun d : InterDef => (d.inter, d.link)) hk hd]
  · rfl
  · funext b
    simp [Market.flowRow, Prod.ext_iff]

theorem ds_filter {d : InterDef} (hd : d ∈ ds) : ds.filter (fun e => decide (e.inter = d.inter ∧ e.link = d.link)) = [d] := by
  rw [← filter_key_unique (key := fun d : InterDef => (d.inter, d.link)) hk hd]
  apply List.filter_congr
  intro b _
  simp [Prod.ext_iff]

theorem inflow_list : (ds.map (fun d => (d.inter, d.link, d.toR, (1 : ℚ))) ++ ds.map (fun d => (d.inter, d.link, d.fromR, (-1 : ℚ)))).flatMap
      (fun c => ((ds.map (m.flowRow x)).filter (fun f => decide (f.inter = c.1 ∧ f.link = c.2.1))).map (fun f => (c.2.2.1, f.flow * c.2.2.2))) =
    ds.map (fun d => (d.toR, m.flow x d.inter d.link * 1)) ++ ds.map (fun d => (d.fromR, m.flow x d.inter d.link * -1)) := by
  rw [List.flatMap_append, List.flatMap_map, List.flatMap_map]
  congr 1 <;>
  · apply flatMap_single
    intro d hd
    simp only
    rw [fl_filter hk x hd]
    rfl

omit hk in
theorem inflow_total (hd : m.dirs = some ds) (r : String) :
    totalAt (ds.map (fun d => (d.toR, m.flow x d.inter d.link * 1)) ++ ds.map (fun d => (d.fromR, m.flow x d.inter d.link * -1))) r = m.inflow x r := by
  rw [totalAt_append]
  unfold totalAt Market.inflow
  rw [hd, Option.getD_some, List.map_map, List.map_map, ← sum_map_add]
  apply sum_map_congr
  intro d _
  simp only [Function.comp]
  split <;> split <;> ring

theorem transmission_list : (ds.map (m.flowRow x)).flatMap (fun f =>
    (ds.filter (fun d => decide (d.inter = f.inter ∧ d.link = f.link))).flatMap (fun d =>
      [(d.fromR, transmissionLoss false f.flow d.fromLf), (d.toR, transmissionLoss true f.flow d.toLf)])) =
    ds.flatMap (fun d => [(d.fromR, transmissionLoss false (m.flow x d.inter d.link) d.fromLf), (d.toR, transmissionLoss true (m.flow x d.inter d.link) d.toLf)]) := by
  rw [List.flatMap_map]
  apply List.flatMap_congr
  intro d hd
  have : ds.filter (fun e => decide (e.inter = (m.flowRow x d).inter ∧ e.link = (m.flowRow x d).link)) = [d] := ds_filter hk hd
  rw [this]
  rfl

omit hk in
/-- the flow less the transmission losses is the net import, if the formula for the losses is right -/
theorem import_total (hd : m.dirs = some ds) (r : String)
    (h : ∀ d ∈ ds, (d.fromR = r → d.fromLf = 1 ∨ m.flow x d.inter d.link = 0) ∧
      (d.toR = r → d.toLf = 1 ∨ 0 ≤ m.flow x d.inter d.link)) :
    m.inflow x r - totalAt (ds.flatMap (fun d => [(d.fromR, transmissionLoss false (m.flow x d.inter d.link) d.fromLf),
      (d.toR, transmissionLoss true (m.flow x d.inter d.link) d.toLf)])) r = m.netImport x r := by
  unfold Market.inflow Market.netImport
  rw [totalAt_flatMap, hd, Option.getD_some, ← sum_map_sub]
  apply sum_map_congr
  intro d hdm
  have e1 : d.fromR = r → transmissionLoss false (m.flow x d.inter d.link) d.fromLf =
      -m.flow x d.inter d.link + d.fromLf * m.flow x d.inter d.link := by
    intro e
    unfold transmissionLoss
    rcases (h d hdm).1 e with e | e
    · rw [e]; simp
    · rw [e]; simp
  have e2 : d.toR = r → transmissionLoss true (m.flow x d.inter d.link) d.toLf =
      m.flow x d.inter d.link - d.toLf * m.flow x d.inter d.link := by
    intro e
    unfold transmissionLoss
    rcases (h d hdm).2 e with e | e
    · rw [e]; simp
    · rw [if_pos (Or.inl ⟨rfl, e⟩)]; ring
  unfold totalAt
  simp only [List.map_cons, List.map_nil, List.sum_cons, List.sum_nil]
  by_cases c1 : d.toR = r <;> by_cases c2 : d.fromR = r
  · rw [if_pos c1, if_pos c2, if_pos c2, if_pos c1, if_pos c1, if_pos c2, e1 c2, e2 c1]; ring
  · rw [if_pos c1, if_neg c2, if_neg c2, if_pos c1, if_pos c1, if_neg c2, e2 c1]; ring
  · rw [if_neg c1, if_pos c2, if_pos c2, if_neg c1, if_neg c1, if_pos c2, e1 c2]; ring
  · simp [c1, c2]

theorem regional_list {fs : List LossFn} {d : InterDef} (hd : d ∈ ds) (R : InterDef → String) (g : ℚ → ℚ) :
    (((fs.map (fun f => (f.inter, f.link, f.share))).flatMap (fun s => (ds.filter (fun d => decide (d.inter = s.1 ∧ d.link = s.2.1))).map (fun d =>
      (s.1, s.2.1, R d, g s.2.2)))).filter (fun s : String × String × String × ℚ => decide (s.1 = d.inter ∧ s.2.1 = d.link))) =
    (fs.filter (fun f => decide (f.inter = d.inter ∧ f.link = d.link))).map (fun f => (f.inter, f.link, R d, g f.share)) := by
  rw [List.flatMap_map]
  induction fs with
  | nil => rfl
  | cons f fs ih =>
    rw [List.flatMap_cons, List.filter_append, ih, List.filter_cons]
    by_cases hc : f.inter = d.inter ∧ f.link = d.link
    · have := ds_filter hk hd
      rw [← hc.1, ← hc.2] at this
      rw [this, if_pos (by simpa using hc)]
      simp [hc.1, hc.2]
    · rw [if_neg (by simpa using hc)]
      have : (List.filter (fun s : String × String × String × ℚ => decide (s.1 = d.inter ∧ s.2.1 = d.link))
        ((ds.filter (fun d => decide (d.inter = (f.inter, f.link, f.share).1 ∧ d.link = (f.inter, f.link, f.share).2.1))).map (fun d =>
          ((f.inter, f.link, f.share).1, (f.inter, f.link, f.share).2.1, R d, g (f.inter, f.link, f.share).2.2)))) = [] := by
        rw [List.filter_eq_nil_iff]
        intro a ha
        obtain ⟨b, _, rfl⟩ := List.mem_map.1 ha
        simpa using hc
      rw [this]
      rfl

end

theorem net_total {m : Market} {x : Nat → ℚ} {rows : List DispatchRow}
    (hn : (rows.map (fun r => (r.unit, r.dtype, r.service))).Nodup)
    (hi : ∀ u d s, (∃ r ∈ rows, r.unit = u ∧ r.dtype = d ∧ r.service = s) ↔ m.bidsFor u s d)
    (hv : ∀ r ∈ rows, r.dispatch = m.dispatched x r.unit r.service r.dtype) (g : String) :
    totalAt ((rows.filter (fun r => decide (r.service = .energy))).flatMap (fun r =>
      (m.units.filter (fun u => decide (u.unit = r.unit ∧ u.dtype = r.dtype))).map (fun u =>
        (u.region, if r.dtype = .load then -1 * r.dispatch else r.dispatch)))) g = m.supply x g .energy := by
  rw [totalAt_flatMap]
  unfold totalAt Market.supply
  have e1 : ((rows.filter (fun r => decide (r.service = .energy))).map (fun r => (((m.units.filter (fun u => decide (u.unit = r.unit ∧ u.dtype = r.dtype))).map (fun u =>
        (u.region, if r.dtype = .load then -1 * r.dispatch else r.dispatch))).map (fun p => if p.1 = g then p.2 else 0)).sum)).sum =
      ((rows.filter (fun r => decide (r.service = .energy))).map (fun r => (m.units.map (fun u => if u.unit = r.unit ∧ u.dtype = r.dtype then
        (if u.region = g then (if r.dtype = .load then -1 * r.dispatch else r.dispatch) else 0) else 0)).sum)).sum := by
    apply sum_map_congr
    intro r _
    rw [List.map_map, sum_filter_eq_ite]
    apply sum_map_congr
    intro u _
    simp [Function.comp]
  rw [e1, sum_comm, sum_filter_eq_ite]
  apply sum_map_congr
  intro u hu
  by_cases hg : u.region = g
  · rw [if_pos (by simpa using hg)]
    simp only [if_pos hg]
    by_cases hb : m.bidsFor u.unit .energy u.dtype
    · obtain ⟨r, hr, r1, r2, r3⟩ := (hi _ _ _).2 hb
      have hf : ((rows.filter (fun r => decide (r.service = .energy))).filter (fun a => decide (u.unit = a.unit ∧ u.dtype = a.dtype))) = [r] := by
        rw [List.filter_filter, ← filter_key_unique (key := fun r : DispatchRow => (r.unit, r.dtype, r.service)) hn hr]
        apply List.filter_congr
        intro b _
        rw [Bool.eq_iff_iff]
        simp only [Bool.and_eq_true, decide_eq_true_eq, Prod.mk.injEq, r1, r2, r3]
        constructor
        · rintro ⟨⟨a, b⟩, c⟩; exact ⟨a.symm, b.symm, c⟩
        · rintro ⟨a, b, c⟩; exact ⟨⟨a.symm, b.symm⟩, c⟩
      have e2 : ((rows.filter (fun r => decide (r.service = .energy))).map (fun a => if u.unit = a.unit ∧ u.dtype = a.dtype then
          (if a.dtype = .load then -1 * a.dispatch else a.dispatch) else 0)).sum =
          (((rows.filter (fun r => decide (r.service = .energy))).filter (fun a => decide (u.unit = a.unit ∧ u.dtype = a.dtype))).map (fun a =>
            if a.dtype = .load then -1 * a.dispatch else a.dispatch)).sum := by
        rw [sum_filter_eq_ite _ (fun a : DispatchRow => decide (u.unit = a.unit ∧ u.dtype = a.dtype))]
        apply sum_map_congr
        intro a _
        simp
      rw [e2, hf]
      simp only [List.map_cons, List.map_nil, List.sum_cons, List.sum_nil, add_zero]
      rw [hv r hr, r1, r2, r3]
      by_cases hl : u.dtype = .load <;> simp [hl]
    · have hz : m.dispatched x u.unit .energy u.dtype = 0 := by
        unfold Market.dispatched
        have : (m.bids.getD []).filter (fun b => decide (b.unit = u.unit ∧ b.service = .energy ∧ b.dtype = u.dtype)) = [] := by
          rw [List.filter_eq_nil_iff]
          intro b hbm e
          obtain ⟨q1, q2, q3⟩ := of_decide_eq_true e
          exact hb ⟨b, hbm, q1, q2, q3⟩
        rw [this]; rfl
      rw [hz, mul_zero]
      apply sum_map_zero
      intro r hr
      have hr := List.mem_filter.1 hr
      rw [if_neg]
      rintro ⟨q1, q2⟩
      exact hb ((hi _ _ _).1 ⟨r, hr.1, q1.symm, q2.symm, of_decide_eq_true hr.2⟩)
  · rw [if_neg (by simpa using hg)]
    apply sum_map_zero
    intro r _
    simp [hg]

theorem Case.witness1 {s : Case} {P : Market → Bool} {i : Nat} {op : Op} {keep : List Part} (hi : s.hist[i]? = some op)
    (h : (s.ok P && s.holds i keep) = true) :
    ∃ m lp, InForceKeeping keep op m ∧ m.assemble = .ok lp ∧ Feasible lp s.x ∧ P m = true := by
  rw [Bool.and_eq_true] at h
  obtain ⟨m, lp, h1, h2, h3, h4⟩ := Case.witness h.1
  exact ⟨m, lp, Case.inForce h1 hi h.2, h2, h3, h4⟩

end Verif
