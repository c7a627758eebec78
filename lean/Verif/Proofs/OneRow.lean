import Verif.Proofs.Refs
import Verif.Proofs.Eval

/-! Every row of a constraint set is about one unit, one region, one requirement set, one pair of bids of the same region, or one
interconnector. -/

namespace Verif

/-- Rows of unit level sets are about one unit, rows of market sets about one region or one named set, violation variables occur in one
row, tie break rows compare bids of one region, prices belong to the bid of the same variable. -/
structure OneWF (m : Market) : Prop where
  unit : ∀ e ∈ m.unitCon, ∀ c ∈ e.2, ∀ c' ∈ e.2, c.cid = c'.cid → c.unit = c'.unit
  reg : ∀ k cs, m.regCon.get? k = some cs → ∃ rows, m.mktRhs.get? k = some rows ∧
    ∀ c ∈ cs, ∃ r ∈ rows, r.cid = c.cid ∧ (r.set = none → r.region = some c.region)
  defs : ∀ e ∈ m.deficits, ∀ t ∈ e.2.2, ∀ t' ∈ e.2.2, t.vid = t'.vid → t.cid = t'.cid
  cost : ∀ c ∈ m.bidCost.getD [], ∀ b ∈ m.bids.getD [], c.vid = b.vid → c.unit = b.unit
  tie : ∀ t ∈ m.tieLhs.getD [], ∀ t' ∈ m.tieLhs.getD [], t.cid = t'.cid → ∀ b ∈ m.bids.getD [], ∀ b' ∈ m.bids.getD [],
    b.vid = t.vid → b'.vid = t'.vid → ∃ u ∈ m.units, ∃ u' ∈ m.units, u.unit = b.unit ∧ u'.unit = b'.unit ∧ u.region = u'.region

theorem oneWF_same {m m' : Market} (h : OneWF m) (h1 : m'.unitCon = m.unitCon) (h2 : m'.regCon = m.regCon) (h3 : m'.mktRhs = m.mktRhs)
    (h4 : m'.deficits = m.deficits) (h5 : m'.bidCost = m.bidCost) (h6 : m'.bids = m.bids) (h7 : m'.tieLhs = m.tieLhs)
    (h8 : m'.units = m.units) : OneWF m' where
  unit := by rw [h1]; exact h.unit
  reg := by rw [h2, h3]; exact h.reg
  defs := by rw [h4]; exact h.defs
  cost := by rw [h5, h6]; exact h.cost
  tie := by rw [h6, h7, h8]; exact h.tie

theorem deficit_one (rs : List (Row × ℚ)) (n : Nat) :
    ∀ t ∈ (deficitVariables rs n).2, ∀ t' ∈ (deficitVariables rs n).2, t.vid = t'.vid → t.cid = t'.cid := by
  intro t ht t' ht' e
  simp only [deficitVariables, List.mem_append, mem_saveIndex] at ht ht'
  rcases ht with (⟨i, r, h, rfl⟩ | ⟨i, r, h, rfl⟩) | ⟨i, r, h, rfl⟩ <;>
  rcases ht' with (⟨j, r', h', rfl⟩ | ⟨j, r', h', rfl⟩) | ⟨j, r', h', rfl⟩ <;>
  · have hi := (List.getElem?_eq_some_iff.1 h).1
    have hj := (List.getElem?_eq_some_iff.1 h').1
    dsimp only at e ⊢
    first
      | rw [same_index h h' e]
      | omega

theorem tieBids_one {m : Market} (h : OneWF m) {costs : List BidCost} {vars : List BidVar} (e1 : m.bidCost = some costs)
    (e2 : m.bids = some vars) {t : TieBid} (ht : t ∈ tieBids costs vars m.units) {b : BidVar} (hb : b ∈ m.bids.getD [])
    (hv : b.vid = t.vid) : ∃ u ∈ m.units, u.unit = b.unit ∧ u.region = t.region := by
  simp only [tieBids, List.mem_flatMap, List.mem_map, List.mem_filter, decide_eq_true_eq] at ht
  obtain ⟨cv, ⟨c, ⟨hc, _⟩, v, ⟨_, _⟩, rfl⟩, u, ⟨hu, e⟩, rfl⟩ := ht
  refine ⟨u, hu, ?_, rfl⟩
  rw [e]
  exact h.cost c (by rw [e1]; exact hc) b hb hv.symm

theorem oneWF_prim {good : Prop} {ks : List Part} {m m' : Market} (h : Prim good ks m m') (hm : OneWF m) (hr : RefWF m)
    (hb : BidWF m) : OneWF m' := by
  cases h with
  | bids _ b =>
    have key : ∀ (n : Nat) (bu : Option (List VarUnit)) (br : Option (List VarReg)),
        OneWF { m with bids := some (bidVariables b m.nextVar), bidUnit := bu, bidReg := br, nextVar := n } := by
      intro n bu br
      have hnew : ∀ v ∈ bidVariables b m.nextVar, m.nextVar ≤ v.vid := by
        intro v hv
        have := List.mem_map_of_mem (f := BidVar.vid) hv
        rw [bidVariables_vids] at this; simp only [List.mem_range'_1] at this; omega
      refine ⟨hm.unit, hm.reg, hm.defs, ?_, ?_⟩
      · intro c hc v hv e
        have h1 := hnew v hv
        have h2 := (hr.refs c.vid (by
          simp only [Market.refs, List.mem_append]
          have : c.vid ∈ (m.bidCost.getD []).map BidCost.vid := List.mem_map_of_mem hc
          tauto)).1
        omega
      · intro t ht t' ht' _ v hv v' hv' e
        have h1 := hnew v hv
        have h2 := (hr.refs t.vid (by
          simp only [Market.refs, List.mem_append]
          have : t.vid ∈ (m.tieLhs.getD []).map Term.vid := List.mem_map_of_mem ht
          tauto)).1
        omega
    simp only [Market.setVolumeBids]
    split
    · exact hm
    split
    · exact hm
    split
    · exact key m.nextVar _ _
    · exact key _ _ _
  | prices _ b =>
    simp only [Market.setPriceBids]
    split
    · exact hm
    split
    · exact hm
    split
    · exact hm
    rename_i vars hv _ _
    refine ⟨hm.unit, hm.reg, hm.defs, ?_, hm.tie⟩
    intro c hc v hv' e
    simp only [Option.getD_some] at hc
    rw [hv, Option.getD_some] at hv'
    simp only [scaleByLossFactors, List.mem_flatMap, List.mem_map] at hc
    obtain ⟨a, ha, _, _, rfl⟩ := hc
    simp only [bidCosts, List.mem_flatMap, List.mem_map] at ha
    obtain ⟨w, hw, _, _, _, _, rfl⟩ := ha
    rcases hb with ⟨h0, _⟩ | ⟨bs, n, _, _, h0, _⟩
    · rw [h0] at hv; cases hv
    · rw [h0] at hv
      injection hv with hv
      have hn : (vars.map BidVar.vid).Nodup := by rw [← hv, bidVariables_vids]; exact nodup_range' _ _
      have := List.inj_on_of_nodup_map hn hw hv' e
      rw [this]
  | unitSet _ k t hk ht =>
    have key : ∀ n : Nat, OneWF { m with conRhs := m.conRhs.set k t.1, unitCon := m.unitCon.set k t.2, nextCon := n } := by
      intro n
      refine ⟨?_, hm.reg, hm.defs, hm.cost, hm.tie⟩
      intro e he
      rcases Dict.mem_set he with rfl | he
      · exact ht.one
      · exact hm.unit e he
    simp only [Market.addUnitSet]
    split
    · exact key m.nextCon
    · exact key _
  | regSet _ k t hk ht =>
    have key : ∀ n : Nat, OneWF { m with mktRhs := m.mktRhs.set k t.1, regCon := m.regCon.set k t.2, nextCon := n } := by
      intro n
      refine ⟨hm.unit, ?_, hm.defs, hm.cost, hm.tie⟩
      intro k' cs e
      dsimp only at e ⊢
      by_cases hk' : k = k'
      · subst hk'
        rw [Dict.get?_set_self] at e
        injection e with e; subst e
        exact ⟨t.1, Dict.get?_set_self _ _ _, ht.one⟩
      · rw [Dict.get?_set_ne _ _ hk'] at e
        rw [Dict.get?_set_ne _ _ hk']
        exact hm.reg k' cs e
    simp only [Market.addRegSet]
    split
    · exact key m.nextCon
    · exact key _
  | elastic _ k c =>
    have key : ∀ (rs : List (Row × ℚ)) (n : Nat), OneWF { m with deficits := m.deficits.set k (deficitVariables rs m.nextVar), nextVar := n } := by
      intro rs n
      refine ⟨hm.unit, hm.reg, ?_, hm.cost, hm.tie⟩
      intro e he
      rcases Dict.mem_set he with rfl | he
      · exact deficit_one _ _
      · exact hm.defs e he
    simp only [Market.makeElastic]
    split
    · exact hm
    split
    · exact hm
    split
    · exact hm
    split
    · exact key _ m.nextVar
    · exact key _ _
  | removeFs =>
    have k1 : ∀ mm : Market, OneWF mm → OneWF { mm with deficits := mm.deficits.erase .fastStart } := fun mm h =>
      ⟨h.unit, h.reg, fun e he => h.defs e ((Dict.erase_sublist _ _).subset he), h.cost, h.tie⟩
    have k2 : OneWF { m with conRhs := m.conRhs.erase .fastStart, unitCon := m.unitCon.erase .fastStart } :=
      ⟨fun e he => hm.unit e ((Dict.erase_sublist _ _).subset he), hm.reg, hm.defs, hm.cost, hm.tie⟩
    simp only [Market.removeFastStart]
    split <;> split
    · exact k1 _ k2
    · exact k2
    · exact k1 _ hm
    · exact hm
  | inters _ d =>
    simp only [Market.setInterconnectors]
    split
    · exact hm
    split <;> exact oneWF_same hm rfl rfl rfl rfl rfl rfl rfl rfl
  | losses _ f b =>
    simp only [Market.setLosses]
    repeat' split
    all_goals first | exact hm | exact oneWF_same hm rfl rfl rfl rfl rfl rfl rfl rfl
  | generic _ g =>
    simp only [Market.setGeneric, Market.elasticOpt]
    split
    · exact hm
    · split <;> exact oneWF_same hm rfl rfl rfl rfl rfl rfl rfl rfl
  | linkUnits _ g => simp only [Market.linkUnits]; split <;> exact oneWF_same hm rfl rfl rfl rfl rfl rfl rfl rfl
  | linkRegions _ g => simp only [Market.linkRegions]; split <;> exact oneWF_same hm rfl rfl rfl rfl rfl rfl rfl rfl
  | linkInters _ g => simp only [Market.linkInters]; split <;> exact oneWF_same hm rfl rfl rfl rfl rfl rfl rfl rfl
  | tie _ ps hne hp =>
    obtain ⟨costs, vars, e1, e2, rfl⟩ := hp
    refine ⟨hm.unit, hm.reg, hm.defs, hm.cost, ?_⟩
    have hreg : ∀ p ∈ tiePairs (tieBids costs vars m.units), p.1.region = p.2.region := by
      intro p hp
      have h := mem_of_mem_dropDup hp
      simp only [List.mem_flatMap, List.mem_map, List.mem_filter, decide_eq_true_eq] at h
      obtain ⟨a, ha, b, ⟨hb, h2⟩, rfl⟩ := h
      exact h2.2.1.symm
    have hmem : ∀ t ∈ (tieConstraints (tiePairs (tieBids costs vars m.units)) m.nextCon).1,
        ∃ i p, (tiePairs (tieBids costs vars m.units))[i]? = some p ∧ t.cid = m.nextCon + i ∧
          ∃ q ∈ tieBids costs vars m.units, t.vid = q.vid ∧ q.region = p.1.region := by
      intro t ht
      simp only [tieConstraints, List.mem_append, mem_saveIndex] at ht
      rcases ht with ⟨i, p, hi, rfl⟩ | ⟨i, p, hi, rfl⟩
      · exact ⟨i, p, hi, rfl, p.1, (tiePairs_mem (List.mem_of_getElem? hi)).1, rfl, rfl⟩
      · exact ⟨i, p, hi, rfl, p.2, (tiePairs_mem (List.mem_of_getElem? hi)).2, rfl, (hreg p (List.mem_of_getElem? hi)).symm⟩
    intro t ht t' ht' e b hb b' hb' h1 h2
    obtain ⟨i, p, hi, ci, q, hq, vq, rq⟩ := hmem t ht
    obtain ⟨j, p', hj, cj, q', hq', vq', rq'⟩ := hmem t' ht'
    have hpp := same_index hi hj (n := m.nextCon) (by rw [← ci, ← cj, e])
    subst hpp
    obtain ⟨u, hu, a1, a2⟩ := tieBids_one hm e1 e2 hq hb (by rw [h1, vq])
    obtain ⟨u', hu', b1, b2⟩ := tieBids_one hm e1 e2 hq' hb' (by rw [h2, vq'])
    exact ⟨u, hu, u', hu', a1, b1, by rw [a2, b2, rq, rq']⟩

theorem Reached.one {m : Market} (h : Reached m) : OneWF m := by
  obtain ⟨r, u, di, m0, ops, h1, h2, rfl⟩ := h
  have h3 : OneWF m0 ∧ RefWF m0 ∧ InterWF m0 ∧ BidWF m0 := by
    rw [(init_fresh h1).1]
    refine ⟨⟨?_, ?_, ?_, ?_, ?_⟩, ⟨?_, ?_, ?_⟩, (wf_fresh r u di).2.1, Or.inl ⟨rfl, rfl, rfl⟩⟩ <;>
      simp [Market.refs, Market.defVids, Dict.get?]
  exact (run_invariant (good := True) (P := fun m => OneWF m ∧ RefWF m ∧ InterWF m ∧ BidWF m)
    (fun m m' ks hp hq => ⟨oneWF_prim hp hq.1 hq.2.1 hq.2.2.2, refWF_prim hp ⟨hq.2.1, hq.2.2.1⟩, interWF_prim hp hq.2.2.1,
      bidWF_prim hp hq.2.2.2⟩) (fun _ => h2) h3).1

end Verif
