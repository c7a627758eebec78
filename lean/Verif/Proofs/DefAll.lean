import Verif.Spec.Existence
import Verif.Proofs.LpExists
import Verif.Proofs.Elastic
import Verif.Proofs.Balance
import Verif.Proofs.ShadowCheck
import Verif.Props.Infeasible
import Verif.Props.Marginal
import Verif.Props.Linear
import Verif.Props.Comparative

/-! The costs of the violation variables of a market are the violation costs of its history. -/

namespace Verif

variable {P : ℚ → Prop}

/-- all numbers of the violation cost are such -/
def VCost.all (P : ℚ → Prop) : VCost → Prop
  | .num c => P c
  | .table t => ∀ e ∈ t, P e.2

/-- all costs of violation variables are such -/
def DefAll (P : ℚ → Prop) (m : Market) : Prop := ∀ e ∈ m.deficits, ∀ v ∈ e.2.1, P v.cost

theorem costRows_all {k : CKey} {rows : List Row} {c : VCost} (hc : c.all P) {rs : List (Row × ℚ)}
    (h : costRows k rows c = .ok rs) : ∀ r ∈ rs, P r.2 := by
  intro r hr
  cases c with
  | num q =>
    simp only [costRows, Except.ok.injEq] at h
    subst h
    obtain ⟨a, _, rfl⟩ := List.mem_map.1 hr
    exact hc
  | table t =>
    simp only [costRows] at h
    split at h
    · cases h
    split at h
    · cases h
    injection h with h
    subst h
    obtain ⟨a, _, h⟩ := List.mem_flatMap.1 hr
    obtain ⟨e, he, rfl⟩ := List.mem_map.1 h
    exact hc e (List.mem_of_mem_filter he)

theorem deficitVariables_all {rs : List (Row × ℚ)} (h : ∀ r ∈ rs, P r.2) (n : Nat) :
    ∀ v ∈ (deficitVariables rs n).1, P v.cost := by
  intro v hv
  simp only [deficitVariables, List.mem_append] at hv
  have key : ∀ (l : List (Row × ℚ)) (n : Nat), (∀ r ∈ l, r ∈ rs) →
      v ∈ saveIndex l n (fun i r => ({ vid := i, cost := r.2 } : DefVar)) → P v.cost := by
    intro l n hl hv
    obtain ⟨i, r, hr, _, _, rfl⟩ := mem_saveIndex_lt hv
    exact h r (hl r hr)
  rcases hv with (hv | hv) | hv
  · exact key _ _ (fun _ => List.mem_of_mem_filter) hv
  · exact key _ _ (fun _ => List.mem_of_mem_filter) hv
  · exact key _ _ (fun _ => List.mem_of_mem_filter) hv

theorem defAll_elastic {m : Market} (h : DefAll P m) (k : CKey) {c : VCost} (hc : c.all P) : DefAll P (m.makeElastic k c).1 := by
  unfold Market.makeElastic
  split
  · exact h
  split
  · exact h
  rename_i rs hrs
  split
  · exact h
  have key : ∀ e ∈ m.deficits.set k (deficitVariables rs m.nextVar), ∀ v ∈ e.2.1, P v.cost := by
    intro e he
    rcases Dict.mem_set he with rfl | he
    · exact deficitVariables_all (costRows_all hc hrs) _
    · exact h e he
  dsimp only
  split <;> exact key

theorem mem_of_erase {κ α : Type} [DecidableEq κ] {d : Dict κ α} {k : κ} {e : κ × α} (h : e ∈ d.erase k) : e ∈ d := by
  induction d with
  | nil => exact h
  | cons a d ih =>
    unfold Dict.erase at h
    split at h
    · exact List.mem_cons_of_mem _ (ih h)
    · rcases List.mem_cons.1 h with h | h
      · exact h ▸ List.mem_cons_self ..
      · exact List.mem_cons_of_mem _ (ih h)

/-- violation costs are kept by the call -/
theorem defAll_opt {vc : Option VCost} (h : ∀ c, vc = some c → c.all P) {m : Market} (hm : DefAll P m) (k : CKey) :
    DefAll P (m.elasticOpt k vc).1 := by
  cases vc with
  | none => exact hm
  | some c => exact defAll_elastic hm k (h c rfl)

theorem defAll_if {m : Market} (hm : DefAll P m) (k : CKey) {c : VCost} (hc : c.all P) : DefAll P (m.elasticIfPresent k c).1 := by
  unfold Market.elasticIfPresent
  split
  · exact defAll_elastic hm k hc
  · exact hm

theorem defAll_then {r : Res} {f : Market → Res} (h : DefAll P r.1) (hf : ∀ m, DefAll P m → DefAll P (f m).1) :
    DefAll P (r.andThen f).1 := by
  unfold Res.andThen
  split
  · exact hf _ h
  · exact h

theorem defAll_same {m m' : Market} (h : DefAll P m) (e : m'.deficits = m.deficits) : DefAll P m' := by
  unfold DefAll; rw [e]; exact h

theorem defAll_unitSet {m : Market} (h : DefAll P m) (k : CKey) (t : List Row × List ConUnit) : DefAll P (m.addUnitSet k t).1 :=
  defAll_same h (by unfold Market.addUnitSet; dsimp only; split <;> rfl)

theorem defAll_unitSetIf {m : Market} (h : DefAll P m) (k : CKey) (b : Bool) (t : List Row × List ConUnit) :
    DefAll P (m.addUnitSetIf k b t).1 := by
  unfold Market.addUnitSetIf
  split
  · exact defAll_unitSet h k t
  · exact h

theorem defAll_regSet {m : Market} (h : DefAll P m) (k : CKey) (t : List Row × List ConReg) : DefAll P (m.addRegSet k t).1 :=
  defAll_same h (by unfold Market.addRegSet; dsimp only; split <;> rfl)

theorem defAll_generic {m : Market} (h : DefAll P m) (g : List GenericRow) : DefAll P (m.setGeneric g none).1 := by
  refine defAll_same h ?_
  simp only [Market.setGeneric, Market.elasticOpt]
  split
  · rfl
  · dsimp only
    split <;> rfl

theorem defAll_step {m : Market} (h : DefAll P m) {op : Op} (hc : ∀ vc, op.vcost = some vc → vc.all P) : DefAll P (m.step op).1 := by
  unfold Market.step
  split
  · exact h
  cases op with
  | volumeBids b =>
    refine defAll_same h ?_
    show (m.setVolumeBids b).1.deficits = m.deficits
    unfold Market.setVolumeBids
    repeat' (first | rfl | split | dsimp only)
  | priceBids b =>
    refine defAll_same h ?_
    show (m.setPriceBids b).1.deficits = m.deficits
    unfold Market.setPriceBids
    repeat' (first | rfl | split | dsimp only)
  | capacity l vc =>
    simp only [Market.setCapacity]
    split
    · exact h
    split
    · exact h
    · exact defAll_then (defAll_unitSet h _ _) (fun m hm => defAll_opt hc hm _)
  | uigf l vc =>
    simp only [Market.setUigf]
    split
    · exact h
    split
    · exact h
    · exact defAll_then (defAll_unitSet h _ _) (fun m hm => defAll_opt hc hm _)
  | rampRates r sc ps rt vc =>
    simp only [Market.setRampRates]
    split
    · exact h
    split
    · exact h
    split
    · exact h
    split
    · exact h
    split
    · exact h
    · refine defAll_then (defAll_unitSet h _ _) (fun m hm => ?_)
      refine defAll_then (defAll_unitSet hm _ _) (fun m hm => ?_)
      refine defAll_then ?_ (fun m hm => ?_)
      · unfold Market.addBiRamps
        split
        · exact hm
        · exact defAll_then (defAll_unitSet hm _ _) (fun m hm => defAll_unitSet hm _ _)
      · unfold Market.elasticRamps
        cases vc with
        | none => exact hm
        | some c =>
          have hc := hc c rfl
          refine defAll_then (defAll_elastic hm _ hc) (fun m hm => ?_)
          refine defAll_then (defAll_elastic hm _ hc) (fun m hm => ?_)
          exact defAll_then (defAll_if hm _ hc) (fun m hm => defAll_if hm _ hc)
  | fastStart p vc =>
    simp only [Market.setFastStart]
    split
    · exact h
    split
    · exact h
    · exact defAll_then (defAll_unitSet h _ _) (fun m hm => defAll_opt hc hm _)
  | removeFastStart =>
    intro e he
    apply h e
    revert he
    show e ∈ m.removeFastStart.1.deficits → _
    unfold Market.removeFastStart
    repeat' (first | exact id | exact mem_of_erase | split | dsimp only)
  | demand d vc =>
    simp only [Market.setDemand]
    split
    · exact h
    · exact defAll_then (defAll_regSet h _ _) (fun m hm => defAll_opt hc hm _)
  | fcasReq r vc =>
    simp only [Market.setFcasReq]
    split
    · exact h
    · exact defAll_then (defAll_regSet h _ _) (fun m hm => defAll_opt hc hm _)
  | fcasMaxAvail l vc =>
    simp only [Market.setFcasMaxAvail]
    split
    · exact h
    · exact defAll_then (defAll_unitSet h _ _) (fun m hm => defAll_opt hc hm _)
  | jointRamping r ps rt vc =>
    simp only [Market.setJointRamping]
    split
    · exact h
    split
    · exact h
    split
    · exact h
    split
    · exact h
    · refine defAll_then (defAll_unitSetIf h _ _ _) (fun m hm => ?_)
      refine defAll_then (defAll_unitSetIf hm _ _ _) (fun m hm => ?_)
      refine defAll_then (defAll_unitSetIf hm _ _ _) (fun m hm => ?_)
      refine defAll_then (defAll_unitSetIf hm _ _ _) (fun m hm => ?_)
      unfold Market.elasticJr
      cases vc with
      | none => exact hm
      | some c =>
        have hc := hc c rfl
        refine defAll_then (defAll_elastic hm _ hc) (fun m hm => ?_)
        refine defAll_then (defAll_elastic hm _ hc) (fun m hm => ?_)
        exact defAll_then (defAll_if hm _ hc) (fun m hm => defAll_if hm _ hc)
  | jointCapacity t vc =>
    simp only [Market.setJointCapacity]
    split
    · exact h
    split
    · exact h
    · exact defAll_then (defAll_unitSet h _ _) (fun m hm => defAll_opt hc hm _)
  | energyReg t vc =>
    simp only [Market.setEnergyReg]
    split
    · exact h
    split
    · exact h
    · exact defAll_then (defAll_unitSet h _ _) (fun m hm => defAll_opt hc hm _)
  | interconnectors d =>
    refine defAll_same h ?_
    simp only [Market.setInterconnectors]
    repeat' (first | rfl | split | dsimp only)
  | losses f b =>
    refine defAll_same h ?_
    simp only [Market.setLosses]
    repeat' (first | rfl | split | dsimp only)
  | generic g vc =>
    have h' : (m.setGeneric g vc).1 = (m.setGeneric g none).1 ∨
        (m.setGeneric g vc).1 = ((m.setGeneric g none).1.elasticOpt .generic vc).1 := by
      simp only [Market.setGeneric]
      split
      · exact Or.inl rfl
      · exact Or.inr rfl
    rcases h' with h' | h'
    · rw [h']; exact defAll_generic h g
    · rw [h']; exact defAll_opt hc (defAll_generic h g) _
  | linkUnits g =>
    refine defAll_same h ?_
    simp only [Market.linkUnits]
    repeat' (first | rfl | split | dsimp only)
  | linkRegions g =>
    refine defAll_same h ?_
    simp only [Market.linkRegions]
    repeat' (first | rfl | split | dsimp only)
  | linkInters g =>
    refine defAll_same h ?_
    simp only [Market.linkInters]
    repeat' (first | rfl | split | dsimp only)
  | elastic k c => exact defAll_elastic h k (hc c rfl)
  | tieBreak c =>
    simp only [Market.setTieBreak]
    split
    · split
      · exact h
      · refine defAll_elastic ?_ _ (hc _ rfl)
        exact defAll_same h rfl
    · exact h


/-- the costs of the violation variables are those of the history -/
theorem defAll_run {regions : List String} {units : List UnitInfo} {di : ℚ} {m0 : Market} {ops : List Op}
    (h1 : Market.init regions units di = .ok m0) (h3 : ∀ o ∈ ops, ∀ vc, o.vcost = some vc → vc.all P) : DefAll P (m0.run ops) := by
  have h0 : DefAll P m0 := by
    unfold DefAll
    rw [(init_fresh h1).1]
    intro e he
    cases he
  clear h1
  induction ops generalizing m0 with
  | nil => exact h0
  | cons op ops ih =>
    rw [run_cons]
    exact ih (fun o ho => h3 o (List.mem_cons_of_mem _ ho)) (defAll_step h0 (h3 op (List.mem_cons_self ..)))

end Verif
