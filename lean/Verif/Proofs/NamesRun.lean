import Verif.Proofs.NamesStep
import Verif.Proofs.ShuffleRun
import Verif.Proofs.ShuffleLp

/-! Histories of calls with other names.  The volume bids are sorted by the names of units, so ids are exchanged; apart from that the
market with other names arises. -/

namespace Verif

theorem getD_named {α β : Type} (r : α → β) (o : Option (List α)) : (o.map (List.map r)).getD [] = (o.getD []).map r := by
  cases o <;> rfl

/-- the rows of a table with other names -/
theorem tab_named {α : Type} {r : α → α} {P : α → Prop} (hP : ∀ a, P (r a) ↔ P a) {d : Dict CKey (List α)} {k : CKey} :
    (∃ t, (k, t) ∈ d.map (fun e => (e.1, e.2.map r)) ∧ ∃ a ∈ t, P a) ↔ ∃ t, (k, t) ∈ d ∧ ∃ a ∈ t, P a := by
  constructor
  · rintro ⟨t, ht, a, ha, hp⟩
    obtain ⟨e, he, ee⟩ := List.mem_map.1 ht
    injection ee with e1 e2
    subst e1 e2
    obtain ⟨b, hb, rfl⟩ := List.mem_map.1 ha
    exact ⟨e.2, he, b, hb, (hP b).1 hp⟩
  · rintro ⟨t, ht, a, ha, hp⟩
    exact ⟨t.map r, List.mem_map.2 ⟨_, ht, rfl⟩, r a, List.mem_map.2 ⟨a, ha, rfl⟩, (hP a).2 hp⟩

theorem keys_named {α : Type} (r : List α → List α) (d : Dict CKey (List α)) (h : d.NodupKeys) :
    Dict.NodupKeys (d.map (fun e => (e.1, r e.2)) : Dict CKey (List α)) := by
  unfold Dict.NodupKeys at h ⊢
  rw [List.map_map]
  exact h

section
variable (ρ : Names) {f g : Nat → Nat} {m M : Market}

theorem intab_named (k : CKey) (c : Nat) : InTab (m.named ρ) k c ↔ InTab m k c := by
  unfold InTab
  exact or_congr (tab_named (r := ConUnit.named ρ) (P := fun r => r.cid = c) (fun _ => Iff.rfl))
    (or_congr (tab_named (r := ConReg.named ρ) (P := fun r => r.cid = c) (fun _ => Iff.rfl))
    (or_congr (tab_named (r := Row.named ρ) (P := fun r => r.cid = c) (fun _ => Iff.rfl))
    (or_congr (tab_named (r := Row.named ρ) (P := fun r => r.cid = c) (fun _ => Iff.rfl)) Iff.rfl)))

theorem cids_named (d : Dict CKey (List Row)) : (d.map (fun e => (e.1, e.2.map (Row.named ρ)))).flatMap (fun d => d.2.map Row.cid) =
    d.flatMap (fun d => d.2.map Row.cid) := flatMap_same (fun e => by exact ids_named ρ e.2) d

theorem rcount_named (i : Nat) : (m.named ρ).rcount i = m.rcount i := by
  unfold Market.rcount
  exact congrArg₂ _ (congrArg₂ _ (congrArg _ (cids_named ρ m.conRhs)) (congrArg _ (cids_named ρ m.mktRhs))) rfl

theorem vcount_named (i : Nat) : (m.named ρ).vcount i = m.vcount i := by
  have h1 : ((m.named ρ).bids.getD []).map BidVar.vid = (m.bids.getD []).map BidVar.vid := by
    show ((m.bids.map (List.map (BidVar.named ρ))).getD []).map BidVar.vid = _
    rw [getD_named]; exact map_same (fun _ => by rfl) _
  have h2 : ((m.named ρ).inters.getD []).map InterVar.vid = (m.inters.getD []).map InterVar.vid := by
    show ((m.inters.map (List.map (InterVar.named ρ))).getD []).map InterVar.vid = _
    rw [getD_named]; exact map_same (fun _ => by rfl) _
  have h3 : ((m.named ρ).losses.getD []).map LossVar.vid = (m.losses.getD []).map LossVar.vid := by
    show ((m.losses.map (List.map (LossVar.named ρ))).getD []).map LossVar.vid = _
    rw [getD_named]; exact map_same (fun _ => by rfl) _
  have h4 : ((m.named ρ).weights.getD []).map WeightVar.vid = (m.weights.getD []).map WeightVar.vid := by
    show ((m.weights.map (List.map (WeightVar.named ρ))).getD []).map WeightVar.vid = _
    rw [getD_named]; exact map_same (fun _ => by rfl) _
  unfold Market.vcount
  rw [h1, h2, h3, h4]
  rfl

theorem interWF_named (w : InterWF m) : InterWF (m.named ρ) := by
  rcases w with ⟨h1, h2, h3⟩ | ⟨ds, n, h1, h2, h3, h4⟩
  · left
    refine ⟨?_, ?_, ?_⟩
    · show m.dirs.map _ = none; rw [h1]; rfl
    · show m.inters.map _ = none; rw [h2]; rfl
    · show m.interReg.map _ = none; rw [h3]; rfl
  · right
    refine ⟨ds.map (InterDef.named ρ), n, ?_, ?_, ?_, ?_⟩
    · show m.dirs.map _ = some _; rw [h1]; rfl
    · show m.inters.map _ = some _; rw [h2, interVars_named]; rfl
    · show m.interReg.map _ = some _; rw [h3, interMap_named]; rfl
    · rw [interDefsOk_named]; exact h4

theorem IdWF.named (w : IdWF m) : IdWF (m.named ρ) := by
  refine ⟨⟨?_, ?_, ?_, ?_, ?_, ?_, w.con.defKeys, ?_, ?_⟩, ?_, interWF_named ρ w.inter⟩
  · obtain ⟨own, h⟩ := w.con.own
    exact ⟨own, fun k c hc => h k c ((intab_named ρ k c).1 hc)⟩
  · intro i; rw [rcount_named]; exact w.con.rows i
  · exact keys_named _ _ w.con.unitKeys
  · exact keys_named _ _ w.con.regKeys
  · exact keys_named _ _ w.con.conKeys
  · exact keys_named _ _ w.con.mktKeys
  · intro e he
    obtain ⟨e', h, rfl⟩ := List.mem_map.1 he
    exact w.con.conMkt e' h
  · intro e he
    obtain ⟨e', h, rfl⟩ := List.mem_map.1 he
    exact w.con.mktMkt e' h
  · intro i; rw [vcount_named]; exact w.var i

/-! ### Volume bids -/

theorem melt_named (b : List BidRow) : meltVolumes (b.map (BidRow.named ρ)) = (meltVolumes b).map (BidVar.named ρ) := by
  unfold meltVolumes
  rw [flatMap_named (s := BidVar.named ρ) (G := fun r : BidRow => r.bands.map (fun b =>
    ({ unit := r.unit, band := b.1, service := r.service, dtype := r.dtype, vid := 0, ub := b.2 } : BidVar)))
    (fun r => by simp only [List.map_map]; rfl)]
  exact filter_named (fun _ => by rfl) _

theorem putBids_named (l : List BidVar) : (m.named ρ).putBids (l.map (BidVar.named ρ)) = Res.named ρ (m.putBids l) := by
  unfold Market.putBids
  have e1 : numbered (l.map (BidVar.named ρ)) (m.named ρ).nextVar = (numbered l m.nextVar).map (BidVar.named ρ) :=
    saveIndex_named (fun _ _ => by rfl) _ _
  have e2 : (m.named ρ).units = m.units.map (UnitInfo.named ρ) := rfl
  have e3 : ((numbered l m.nextVar).map (BidVar.named ρ)).map BidVar.vid = (numbered l m.nextVar).map BidVar.vid := map_same (fun _ => by rfl) _
  dsimp only
  rw [e1, e2, bidUnitMap_named ρ _ _ (mem_bidi_named ρ m), bidRegMap_named, List.isEmpty_map, e3]
  split <;> rfl

theorem volumeBids_both (h : Shuf f g (m.named ρ) M) (b : List BidRow) :
    ShufR (Res.named ρ (m.setVolumeBids b)) (M.setVolumeBids (b.map (BidRow.named ρ))) := by
  have h1 : M.volumeBidsOk (b.map (BidRow.named ρ)) = m.volumeBidsOk b :=
    checks_named (key := fun b : BidRow => (b.unit, b.service, b.dtype))
      (fun a => by
        have := knows_named ρ m a.unit
        rw [← knows_shuf h.tabs] at this
        exact congrArg (· && _) this)
      (fst_inj ρ.unit_inj) (fun _ => by rfl) b
  have h2 := biInputs_named ρ (b := m.bidi) (B := M.bidi) (fun u => (mem_bidi h.tabs _).trans (mem_bidi_named ρ m u)) (energyUnits b)
  rw [← energyUnits_named] at h2
  rw [setVolumeBids_put, setVolumeBids_put, h1, h2]
  split
  · exact h.same _
  split
  · exact h.same _
  rw [← putBids_named]
  refine putBids_shuf h ?_
  refine (List.perm_insertionSort _ _).trans ?_
  rw [melt_named]
  exact (List.perm_insertionSort _ _).symm.map _

end

/-! ### The other calls -/

section
variable {f g : Nat → Nat} {m M : Market}

theorem fcas_same (rs : List FcasReq) (n : Nat) : RegP n (fcasConstraints rs n) (fcasConstraints rs n) := by
  have i1 : ∀ l : List Row, l.map (Row.ren fun i => i) = l := fun l => by
    conv_rhs => rw [← List.map_id l]
    rfl
  have i2 : ∀ l : List ConReg, l.map (ConReg.ren fun i => i) = l := fun l => by
    conv_rhs => rw [← List.map_id l]
    rfl
  refine ⟨⟨fun i => i, (fcasConstraints rs n).1.length, .id _ _, .of_eq (i1 _).symm, .of_eq (i2 _).symm, .of_eq ?_⟩, ?_⟩
  · unfold fcasConstraints fcasRows
    dsimp only
    rw [map_saveIndex, length_saveIndex]
    exact saveIndex_ids _ _
  · intro c hc
    unfold fcasConstraints at hc ⊢
    dsimp only at hc ⊢
    obtain ⟨r, _, hr⟩ := List.mem_flatMap.1 hc
    obtain ⟨row, h1, rfl⟩ := List.mem_map.1 hr
    exact ⟨row, (List.mem_filter.1 h1).1, rfl⟩

theorem optPerm_refl {α : Type} (c : Option (List α)) : optSame List.Perm c c := by
  cases c with
  | none => trivial
  | some c => exact .refl c

theorem step_same (w : InterWF m) (h : Shuf f g m M) {op : Op} (hp : op.plain) (ho : op.nameFree m) (hb : op.benign m) :
    ShufR (m.step op) (M.step op) := by
  unfold Market.step
  rw [h.tabs.nan]
  split
  · exact h.same _
  cases op <;> first | exact hp.elim | skip
  · exact priceBidsStep_shuf h (.refl _)
  · exact capacityStep_shuf h (.refl _) (optSame_refl _)
  · exact uigfStep_shuf h (.refl _) (optSame_refl _)
  · exact rampRatesStep_shuf h (.refl _) (optPerm_refl _) (optPerm_refl _) _ (optSame_refl _)
  · exact fastStartStep_shuf h (.refl _) (optSame_refl _)
  · exact removeFastStart_shuf h
  · exact demandStep_shuf h (.refl _) (optSame_refl _)
  · rename_i rs vc
    show ShufR (m.setFcasReq rs vc) (M.setFcasReq rs vc)
    unfold Market.setFcasReq
    have e : (fun r : FcasReq => decide (r.region ∈ M.regions) && decide (r.ctype ≠ .other)) =
        fun r => decide (r.region ∈ m.regions) && decide (r.ctype ≠ .other) := by
      funext r
      congr 1
      rw [decide_eq_decide]; exact h.tabs.regions _
    rw [e, h.nextC]
    split
    · exact h.same _
    exact (addRegSet_shuf h _ (fcas_same rs _)).andThen (fun _ _ _ _ h => elasticOpt_shuf h _ (optSame_refl _))
  · exact fcasMaxAvailStep_shuf h (.refl _) (optSame_refl _)
  · exact jointRampingStep_shuf h (.refl _) (optPerm_refl _) _ (optSame_refl _)
  · exact jointCapacityStep_shuf h (.refl _) (optSame_refl _)
  · exact energyRegStep_shuf h (.refl _) (optSame_refl _)
  · exact interconnectorsStep_shuf h (.refl _)
  · exact lossesStep_shuf w h (.refl _) (.refl _) ho hb
  · exact genericStep_shuf h (.refl _) (optSame_refl _)
  · exact linkUnits_shuf h (.refl _)
  · exact linkRegions_shuf h (.refl _)
  · exact linkInters_shuf h (.refl _)
  · exact elastic_shuf h _ (VCost.sameRows_refl _)

end

/-! ### Histories -/

section
variable (ρ : Names) {f g : Nat → Nat} {m M : Market}

theorem mem_inters_named {v : InterVar} (hv : v ∈ m.inters.getD []) : v.named ρ ∈ (m.named ρ).inters.getD [] := by
  show v.named ρ ∈ (m.inters.map (List.map (InterVar.named ρ))).getD []
  rw [getD_named]
  exact List.mem_map.2 ⟨v, hv, rfl⟩

theorem nameFree_named {op : Op} (h : op.nameFree m) : (op.named ρ).nameFree (m.named ρ) := by
  cases op <;> first | trivial | exact h.elim | skip
  intro v hv
  change v ∈ (m.inters.map (List.map (InterVar.named ρ))).getD [] at hv
  rw [getD_named] at hv
  obtain ⟨a, ha, rfl⟩ := List.mem_map.1 hv
  obtain ⟨l, hl, e1, e2⟩ := h a ha
  exact ⟨l.named ρ, List.mem_map.2 ⟨l, hl, rfl⟩, congrArg ρ.inter e1, congrArg ρ.inter e2⟩

theorem benign_named {op : Op} (h : op.benign m) : (op.named ρ).benign (m.named ρ) := by
  cases op <;> first | trivial | exact h | skip
  · intro u hu
    obtain ⟨a, ha, rfl⟩ := List.mem_map.1 hu
    exact h a ha
  · intro u hu
    obtain ⟨a, ha, rfl⟩ := List.mem_map.1 hu
    exact h a ha
  · intro u hu
    obtain ⟨a, ha, rfl⟩ := List.mem_map.1 hu
    exact h a ha
  · intro u hu
    obtain ⟨a, ha, rfl⟩ := List.mem_map.1 hu
    exact h a ha
  · intro u hu
    obtain ⟨a, ha, rfl⟩ := List.mem_map.1 hu
    exact h a ha
  · intro u hu
    obtain ⟨a, ha, rfl⟩ := List.mem_map.1 hu
    obtain ⟨v, hv, e1, e2⟩ := h a ha
    exact ⟨_, mem_inters_named ρ hv, congrArg ρ.inter e1, congrArg ρ.inter e2⟩

theorem plain_named {op : Op} (h : op.plain) : (op.named ρ).plain := by
  cases op <;> first | trivial | exact h.elim

theorem sameRows_refl (op : Op) : op.sameRows op := by
  cases op <;> first | exact .refl _ | exact ⟨.refl _, optSame_refl _⟩ | trivial | exact ⟨rfl, VCost.sameRows_refl _⟩ | rfl | skip
  · exact ⟨.refl _, optPerm_refl _, optPerm_refl _, rfl, optSame_refl _⟩
  · exact ⟨.refl _, optPerm_refl _, rfl, optSame_refl _⟩

theorem step_both (w : InterWF m) (h : Shuf f g (m.named ρ) M) {op : Op} (ho : op.nameFree m) (hb : op.benign m) :
    ShufR (Res.named ρ (m.step op)) (M.step (op.named ρ)) := by
  by_cases hp : op.plain
  · rw [← step_named ρ m op hp]
    exact step_same (interWF_named ρ w) h (plain_named ρ hp) (nameFree_named ρ ho) (benign_named ρ hb)
  · cases op <;> first | exact absurd trivial hp | exact ho.elim | skip
    unfold Market.step
    rw [h.tabs.nan]
    have e : (m.named ρ).nanCon = m.nanCon := rfl
    rw [e]
    split
    · exact h.same _
    exact volumeBids_both ρ h _

theorem run_both : ∀ (ops : List Op) {f g : Nat → Nat} {m M : Market}, Reached m → Shuf f g (m.named ρ) M → NameFree m ops → Benign m ops →
    (∃ f g, Shuf f g ((m.run ops).named ρ) (M.run (ops.map (Op.named ρ)))) ∧ Benign M (ops.map (Op.named ρ)) ∧
      (M.outcomes (ops.map (Op.named ρ))).map Prod.snd = (m.outcomes ops).map Prod.snd
  | [], _, _, _, _, _, h, _, _ => ⟨⟨_, _, h⟩, trivial, rfl⟩
  | op :: ops, f, g, m, M, hr, h, ho, hb => by
    obtain ⟨⟨F, G, h2⟩, e⟩ := step_both ρ hr.wf.inter h ho.1 hb.1
    obtain ⟨a, b, c⟩ := run_both ops (hr.step hb.1) h2 ho.2 hb.2
    refine ⟨a, ⟨benign_shuf h.tabs (sameRows_refl _) (benign_named ρ hb.1), b⟩, ?_⟩
    simp only [Market.outcomes, List.map_cons, e, c]
    rfl

theorem init_named {regions : List String} {units : List UnitInfo} {di : ℚ} :
    Market.init (regions.map ρ.region) (units.map (UnitInfo.named ρ)) di = (Market.init regions units di).map (Market.named ρ) := by
  unfold Market.init
  have e1 : (units.map (UnitInfo.named ρ)).all (fun u => decide (u.region ∈ regions.map ρ.region) && decide (0 ≤ u.lf)) =
      units.all (fun u => decide (u.region ∈ regions) && decide (0 ≤ u.lf)) := all_named (fun u => by
    have : decide ((u.named ρ).region ∈ regions.map ρ.region) = decide (u.region ∈ regions) := by
      rw [decide_eq_decide]; exact List.mem_map_of_injective ρ.region_inj
    rw [this]; rfl) _
  have e2 : decide ((units.map (UnitInfo.named ρ)).map (fun u => (u.unit, u.dtype))).Nodup = decide (units.map (fun u => (u.unit, u.dtype))).Nodup :=
    nodup_named (fst_inj ρ.unit_inj) (fun _ => by rfl) _
  rw [e1, e2]
  split <;> rfl

end

end Verif
