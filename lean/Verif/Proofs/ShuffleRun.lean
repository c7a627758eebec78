import Verif.Proofs.ShuffleLoss
import Verif.Proofs.ShuffleStep
import Verif.Proofs.ShuffleTie
import Verif.Proofs.Merit
import Verif.Proofs.Refs

/-! Histories of calls with the rows of all tables in another order. -/

namespace Verif

theorem VCost.sameRows_refl (c : VCost) : c.sameRows c := by
  cases c with
  | num => rfl
  | table => exact .refl _

theorem optSame_refl (c : Option VCost) : optSame VCost.sameRows c c := by
  cases c with
  | none => trivial
  | some c => exact c.sameRows_refl

section
variable {f g : Nat → Nat} {m M : Market}

theorem step_shuf (w : WF m) (s : SortedWF m) (S : SortedWF M) (h : Shuf f g m M) {op op' : Op} (hs : op.sameRows op') (ho : op.orderFree m) (hb : op.benign m) :
    ShufR (m.step op) (M.step op') := by
  unfold Market.step
  rw [h.tabs.nan]
  split
  · exact h.same _
  cases op <;> cases op' <;> first | exact hs.elim | skip
  · exact volumeBidsStep_shuf h hs.symm
  · exact priceBidsStep_shuf h hs.symm
  · exact capacityStep_shuf h hs.1.symm hs.2
  · exact uigfStep_shuf h hs.1.symm hs.2
  · obtain ⟨h1, h2, h3, h4, h5⟩ := hs
    subst h4
    exact rampRatesStep_shuf h h1.symm h2 h3 _ h5
  · exact fastStartStep_shuf h hs.1.symm hs.2
  · exact removeFastStart_shuf h
  · exact demandStep_shuf h hs.1.symm hs.2
  · exact fcasReqStep_shuf h hs.1.symm ho hs.2
  · exact fcasMaxAvailStep_shuf h hs.1.symm hs.2
  · obtain ⟨h1, h3, h4, h5⟩ := hs
    subst h4
    exact jointRampingStep_shuf h h1.symm h3 _ h5
  · exact jointCapacityStep_shuf h hs.1.symm hs.2
  · exact energyRegStep_shuf h hs.1.symm hs.2
  · exact interconnectorsStep_shuf h hs.symm
  · exact lossesStep_shuf w.inter h hs.1.symm hs.2.symm ho hb
  · exact genericStep_shuf h hs.1.symm hs.2
  · exact linkUnits_shuf h hs.symm
  · exact linkRegions_shuf h hs.symm
  · exact linkInters_shuf h hs.symm
  · obtain ⟨h1, h2⟩ := hs
    subst h1
    exact elastic_shuf h _ h2
  · subst hs
    exact tieBreak_shuf h s S (fun l e => by have := bids_nodup w.var; rwa [e] at this) ho.1 ho.2 _

theorem inters_shuf (h : ShufT f g m M) {v : InterVar} (hv : v ∈ m.inters.getD []) : v.ren f ∈ M.inters.getD [] :=
  h.inters.getD.mem_iff.2 (List.mem_map.2 ⟨v, hv, rfl⟩)

theorem benign_shuf (h : ShufT f g m M) {op op' : Op} (hs : op.sameRows op') (hb : op.benign m) : op'.benign M := by
  cases op <;> cases op' <;> first | exact hs.elim | trivial | skip
  · exact fun u hu => hb u (h.units.mem_iff.1 hu)
  · rename_i r _ _ _ _ r' _ _ _ _
    show M.di ≠ 0
    rw [h.di]; exact hb
  · exact fun p hp => hb p (hs.1.mem_iff.2 hp)
  · show M.di ≠ 0
    rw [h.di]; exact hb
  · exact fun p hp => hb p (hs.1.mem_iff.2 hp)
  · exact fun p hp => hb p (hs.1.mem_iff.2 hp)
  · exact fun p hp => hb p (hs.mem_iff.2 hp)
  · intro b hb'
    obtain ⟨v, hv, e⟩ := hb b (hs.2.mem_iff.2 hb')
    exact ⟨_, inters_shuf h hv, e⟩

/-- what the calls of a history raise -/
theorem run_shuf {ops ops' : List Op} (hs : List.Forall₂ Op.sameRows ops ops') :
    ∀ {f g : Nat → Nat} {m M : Market}, Reached m → SortedWF m → SortedWF M → Shuf f g m M → OrderFree m ops → Benign m ops →
      (∃ f g, Shuf f g (m.run ops) (M.run ops')) ∧ Benign M ops' ∧ (M.outcomes ops').map Prod.snd = (m.outcomes ops).map Prod.snd := by
  induction hs with
  | nil => exact fun _ _ _ h _ _ => ⟨⟨_, _, h⟩, trivial, rfl⟩
  | cons h1 _ ih =>
    intro f g m M hr s S h ho hb
    obtain ⟨⟨F, G, h2⟩, e⟩ := step_shuf hr.wf s S h h1 ho.1 hb.1
    obtain ⟨a, b, c⟩ := ih (hr.step hb.1) (s.step _) (S.step _) h2 ho.2 hb.2
    exact ⟨a, ⟨benign_shuf h.tabs h1 hb.1, b⟩, by simp only [Market.outcomes, List.map_cons, e, c]⟩

theorem init_shuf {regions regions' : List String} {units units' : List UnitInfo} {di : ℚ} {m0 : Market}
    (h : Market.init regions units di = .ok m0) (hr : regions.Perm regions') (hu : units.Perm units') :
    ∃ M0, Market.init regions' units' di = .ok M0 ∧ Shuf id id m0 M0 := by
  unfold Market.init at h ⊢
  rw [all_perm hu.symm, nodup_perm (hu.symm.map _)]
  have e : (fun u : UnitInfo => decide (u.region ∈ regions') && decide (0 ≤ u.lf)) =
      fun u => decide (u.region ∈ regions) && decide (0 ≤ u.lf) := by
    funext u
    congr 1
    rw [decide_eq_decide]
    exact hr.symm.mem_iff
  rw [e]
  split at h
  · rename_i hc
    injection h with h
    subst h
    rw [if_pos hc]
    refine ⟨_, rfl, ⟨?_, rfl, rfl, ⟨fun _ _ h => h, fun _ h => h, fun _ _ => rfl⟩, ⟨fun _ _ h => h, fun _ h => h, fun _ _ => rfl⟩, ?_⟩⟩
    · constructor <;> first | trivial | rfl | exact fun _ => hr.symm.mem_iff | exact hu.symm | (intro k; trivial)
    · constructor <;> first | exact fun _ h => nomatch (show none = some _ from h) | exact fun _ _ h => nomatch (show none = some _ from h)
  · cases h

end

end Verif
