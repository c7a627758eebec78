import Verif.Proofs.Rename
import Verif.Proofs.SimLp
import Verif.Spec.RowOrder

/-! Two markets that agree up to the order of the rows of their tables and up to renaming of ids. -/

namespace Verif

section lists
variable {α β γ : Type}

/-- `σ` permutes the ids from `n` to `n + k` and keeps the others -/
structure Moves (σ : Nat → Nat) (n k : Nat) : Prop where
  inj : Function.Injective σ
  below : ∀ i, i < n → σ i = i
  above : ∀ i, n + k ≤ i → σ i = i

theorem Moves.inside {σ : Nat → Nat} {n k : Nat} (h : Moves σ n k) {i : Nat} (h1 : n ≤ i) (h2 : i < n + k) : n ≤ σ i ∧ σ i < n + k := by
  constructor
  · by_contra hc
    have := h.below (σ i) (by omega)
    have := h.inj this
    omega
  · by_contra hc
    have := h.above (σ i) (by omega)
    have := h.inj this
    omega

theorem Moves.id (n k : Nat) : Moves (fun i => i) n k := ⟨fun _ _ h => h, fun _ _ => rfl, fun _ _ => rfl⟩

theorem Moves.comp {σ τ : Nat → Nat} {n k : Nat} (h : Moves σ n k) (h' : Moves τ n k) : Moves (σ ∘ τ) n k :=
  ⟨h.inj.comp h'.inj, fun i hi => by rw [Function.comp, h'.below i hi, h.below i hi],
    fun i hi => by rw [Function.comp, h'.above i hi, h.above i hi]⟩

theorem Moves.widen {σ : Nat → Nat} {n k n' k' : Nat} (h : Moves σ n k) (h1 : n' ≤ n) (h2 : n + k ≤ n' + k') : Moves σ n' k' :=
  ⟨h.inj, fun i hi => h.below i (by omega), fun i hi => h.above i (by omega)⟩

theorem Moves.range {σ : Nat → Nat} {n k : Nat} (h : Moves σ n k) : ((List.range' n k).map σ).Perm (List.range' n k) := by
  have hs : (List.range' n k).map σ ⊆ List.range' n k := by
    intro i hi
    obtain ⟨j, hj, rfl⟩ := List.mem_map.1 hi
    rw [List.mem_range'_1] at hj ⊢
    exact h.inside hj.1 hj.2
  have hn : ((List.range' n k).map σ).Nodup := List.Nodup.map h.inj List.nodup_range'
  exact (List.subperm_of_subset hn hs).perm_of_length_le (by simp)

/-- exchange the ids `n` and `n + 1` -/
def swapAt (n i : Nat) : Nat := if i = n then n + 1 else if i = n + 1 then n else i

theorem swapAt_moves (n k : Nat) : Moves (swapAt n) n (k + 2) := by
  refine ⟨?_, ?_, ?_⟩
  · intro a b h
    unfold swapAt at h
    split at h <;> split at h <;> (try split at h) <;> (try split at h) <;> omega
  · intro i hi; unfold swapAt; rw [if_neg (by omega), if_neg (by omega)]
  · intro i hi; unfold swapAt; rw [if_neg (by omega), if_neg (by omega)]

theorem saveIndex_ext {l : List α} {n : Nat} {F G : Nat → α → β} (h : ∀ i a, n ≤ i → i < n + l.length → a ∈ l → F i a = G i a) :
    saveIndex l n F = saveIndex l n G := by
  induction l generalizing n with
  | nil => rfl
  | cons a l ih =>
    simp only [saveIndex]
    rw [h n a (le_refl n) (by simp) (by simp), ih]
    intro i b h1 h2 hb
    exact h i b (by omega) (by rw [List.length_cons]; omega) (by simp [hb])

/-- numbering the rows of a table in another order -/
theorem saveIndex_perm {l l' : List α} (h : l'.Perm l) (n : Nat) : ∃ σ, Moves σ n l.length ∧
    ∀ {β : Type} (F : Nat → α → β), (saveIndex l' n F).Perm (saveIndex l n (fun i a => F (σ i) a)) := by
  induction h generalizing n with
  | nil => exact ⟨_, Moves.id _ _, fun F => .refl _⟩
  | @cons a l1 l2 h ih =>
    obtain ⟨σ, h1, h2⟩ := ih (n + 1)
    refine ⟨σ, h1.widen (by omega) (by simp; omega), fun F => ?_⟩
    simp only [saveIndex]
    rw [h1.below n (by omega)]
    exact (h2 F).cons _
  | swap a b l =>
    refine ⟨swapAt n, swapAt_moves n l.length, fun F => ?_⟩
    simp only [saveIndex]
    have e1 : swapAt n n = n + 1 := by simp [swapAt]
    have e2 : swapAt n (n + 1) = n := by simp [swapAt]
    rw [e1, e2]
    have e3 : saveIndex l (n + 1 + 1) (fun i a => F (swapAt n i) a) = saveIndex l (n + 1 + 1) F :=
      saveIndex_ext (fun i a hi _ _ => by unfold swapAt; rw [if_neg (by omega), if_neg (by omega)])
    rw [e3]
    exact List.Perm.swap _ _ _
  | @trans l1 l2 l3 h12 h23 ih1 ih2 =>
    obtain ⟨σ, a1, a2⟩ := ih1 n
    obtain ⟨τ, b1, b2⟩ := ih2 n
    rw [← h23.length_eq] at b1
    refine ⟨σ ∘ τ, h23.length_eq ▸ (a1.comp b1), fun F => (a2 F).trans (b2 _)⟩

theorem saveIndex_append (l l' : List α) (n : Nat) (F : Nat → α → β) :
    saveIndex (l ++ l') n F = saveIndex l n F ++ saveIndex l' (n + l.length) F := by
  induction l generalizing n with
  | nil => rfl
  | cons a l ih =>
    simp only [List.cons_append, saveIndex, ih, List.length_cons]
    rw [show n + 1 + l.length = n + (l.length + 1) by omega]

theorem saveIndex_of_map (h : α → γ) (l : List α) (n : Nat) (F : Nat → γ → β) :
    saveIndex (l.map h) n F = saveIndex l n (fun i a => F i (h a)) := by
  induction l generalizing n with
  | nil => rfl
  | cons a l ih => simp only [List.map_cons, saveIndex, ih]

theorem flatMap_perm {l l' : List α} {F G : α → List β} (h : l.Perm l') (hF : ∀ a, (F a).Perm (G a)) :
    (l.flatMap F).Perm (l'.flatMap G) :=
  (h.flatMap_right F).trans (List.Perm.flatMap_left l' (fun a _ => hF a))

/-- one representative row per key, when the rows of a key agree on `π` -/
theorem dropDup_perm {κ : Type} [DecidableEq κ] {key : α → κ} {π : α → γ} {ρ : γ → κ} {l l' : List α} (h : l'.Perm l)
    (hρ : ∀ a, ρ (π a) = key a) (hπ : ∀ a ∈ l, ∀ b ∈ l, key a = key b → π a = π b) :
    ((dropDup key l').map π).Perm ((dropDup key l).map π) := by
  have hn : ∀ l : List α, ((dropDup key l).map π).Nodup := by
    intro l
    apply List.Nodup.of_map ρ
    rw [List.map_map]
    have : ρ ∘ π = key := funext hρ
    rw [this]
    exact dropDup_nodup key l
  have key' : ∀ l1 l2 : List α, l1.Perm l2 → (∀ a ∈ l1, ∀ b ∈ l1, key a = key b → π a = π b) →
      ∀ c, c ∈ (dropDup key l1).map π → c ∈ (dropDup key l2).map π := by
    intro l1 l2 hp hq c hc
    obtain ⟨a, ha, rfl⟩ := List.mem_map.1 hc
    have ha1 := mem_of_mem_dropDup ha
    obtain ⟨b, hb, e⟩ := exists_dropDup (key := key) (hp.mem_iff.1 ha1)
    have hb1 := hp.mem_iff.2 (mem_of_mem_dropDup hb)
    exact List.mem_map.2 ⟨b, hb, hq b hb1 a ha1 e⟩
  rw [List.perm_ext_iff_of_nodup (hn l') (hn l)]
  intro c
  exact ⟨key' l' l h (fun a ha b hb => hπ a (h.mem_iff.1 ha) b (h.mem_iff.1 hb)) c, key' l l' h.symm hπ c⟩

theorem foldl_max_perm {l l' : List Nat} (h : l.Perm l') (a : Nat) : l.foldl max a = l'.foldl max a := by
  apply le_antisymm
  · exact foldl_max_le (le_foldl_max _ _) (fun i hi => mem_le_foldl_max (h.mem_iff.1 hi))
  · exact foldl_max_le (le_foldl_max _ _) (fun i hi => mem_le_foldl_max (h.mem_iff.2 hi))

theorem nextAfter_perm {l l' : List Nat} (h : l.Perm l') : nextAfter l = nextAfter l' := by
  unfold nextAfter; rw [foldl_max_perm h]

theorem all_perm {l l' : List α} (h : l.Perm l') (p : α → Bool) : l.all p = l'.all p := by
  rw [Bool.eq_iff_iff, List.all_eq_true, List.all_eq_true]
  exact ⟨fun H a ha => H a (h.mem_iff.2 ha), fun H a ha => H a (h.mem_iff.1 ha)⟩

theorem isEmpty_perm {l l' : List α} (h : l.Perm l') : l.isEmpty = l'.isEmpty := by
  rw [Bool.eq_iff_iff, List.isEmpty_iff_length_eq_zero, List.isEmpty_iff_length_eq_zero, h.length_eq]

theorem nodup_perm [DecidableEq α] {l l' : List α} (h : l.Perm l') : decide l.Nodup = decide l'.Nodup := by
  rw [decide_eq_decide]; exact h.nodup_iff

theorem dedup_perm [DecidableEq α] {l l' : List α} (h : l.Perm l') : l.dedup.Perm l'.dedup := by
  rw [List.perm_ext_iff_of_nodup (List.nodup_dedup _) (List.nodup_dedup _)]
  intro a
  rw [List.mem_dedup, List.mem_dedup, h.mem_iff]

end lists

/-! ### The relation -/

/-- both tables are missing, or the second has the rows of the first renamed by `r`, in any order -/
def TabP {α : Type} (r : α → α) : Option (List α) → Option (List α) → Prop
  | none, none => True
  | some l, some L => L.Perm (l.map r)
  | _, _ => False

def DefP (f g : Nat → Nat) : Option (List DefVar × List Term) → Option (List DefVar × List Term) → Prop
  | none, none => True
  | some d, some D => D.1.Perm (d.1.map (DefVar.ren f)) ∧ D.2.Perm (d.2.map (Term.ren f g))
  | _, _ => False

section tab
variable {α : Type} {r r' : α → α} {a A : Option (List α)}

theorem TabP.getD (h : TabP r a A) : (A.getD []).Perm ((a.getD []).map r) := by
  cases a <;> cases A <;> first | exact h.elim | exact .refl _ | exact h

theorem TabP.isNone (h : TabP r a A) : A.isNone = a.isNone := by
  cases a <;> cases A <;> first | exact h.elim | rfl

theorem TabP.isSome (h : TabP r a A) : A.isSome = a.isSome := by
  cases a <;> cases A <;> first | exact h.elim | rfl

theorem TabP.congr (h : TabP r a A) (hr : ∀ l, a = some l → ∀ x ∈ l, r' x = r x) : TabP r' a A := by
  cases a <;> cases A <;> first | exact h.elim | trivial | skip
  rename_i l L
  show L.Perm (l.map r')
  rw [List.map_congr_left (hr l rfl)]
  exact h

theorem TabP.none_iff (h : TabP r a A) : A = none ↔ a = none := by
  cases a <;> cases A <;> simp_all [TabP]

theorem TabP.some_of (h : TabP r a A) {l : List α} (e : a = some l) : ∃ L, A = some L ∧ L.Perm (l.map r) := by
  subst e
  cases A with
  | none => exact h.elim
  | some L => exact ⟨L, rfl, h⟩

theorem DefP.congr {f g f' g' : Nat → Nat} {d D : Option (List DefVar × List Term)} (h : DefP f g d D)
    (h1 : ∀ e, d = some e → (∀ v ∈ e.1, f' v.vid = f v.vid) ∧ ∀ t ∈ e.2, f' t.vid = f t.vid ∧ g' t.cid = g t.cid) : DefP f' g' d D := by
  cases d <;> cases D <;> first | exact h.elim | trivial | skip
  rename_i e E
  obtain ⟨a, b⟩ := h1 e rfl
  refine ⟨h.1.trans (.of_eq (List.map_congr_left (fun v hv => ?_))), h.2.trans (.of_eq (List.map_congr_left (fun t ht => ?_)))⟩
  · simp only [DefVar.ren, a v hv]
  · simp only [Term.ren, (b t ht).1, (b t ht).2]

end tab

/-- the tables of `M` have the rows of those of `m`, with ids renamed, in any order -/
structure ShufT (f g : Nat → Nat) (m M : Market) : Prop where
  regions : ∀ r, r ∈ M.regions ↔ r ∈ m.regions
  units : M.units.Perm m.units
  di : M.di = m.di
  bids : TabP (BidVar.ren f) m.bids M.bids
  bidUnit : TabP (VarUnit.ren f) m.bidUnit M.bidUnit
  bidReg : TabP (VarReg.ren f) m.bidReg M.bidReg
  bidCost : TabP (BidCost.ren f) m.bidCost M.bidCost
  dirs : TabP id m.dirs M.dirs
  inters : TabP (InterVar.ren f) m.inters M.inters
  interReg : TabP (InterMap.ren f) m.interReg M.interReg
  lossShares : TabP id m.lossShares M.lossShares
  losses : TabP (LossVar.ren f) m.losses M.losses
  lossReg : TabP (VarReg.ren f) m.lossReg M.lossReg
  weights : TabP (WeightVar.ren f) m.weights M.weights
  lossLhs : TabP (Term.ren f g) m.lossLhs M.lossLhs
  tieLhs : TabP (Term.ren f g) m.tieLhs M.tieLhs
  deficits : ∀ k, DefP f g (m.deficits.get? k) (M.deficits.get? k)
  gUnit : TabP id m.gUnit M.gUnit
  gRegion : TabP id m.gRegion M.gRegion
  gInter : TabP id m.gInter M.gInter
  unitCon : ∀ k, TabP (ConUnit.ren g) (m.unitCon.get? k) (M.unitCon.get? k)
  regCon : ∀ k, TabP (ConReg.ren g) (m.regCon.get? k) (M.regCon.get? k)
  conRhs : ∀ k, TabP (Row.ren g) (m.conRhs.get? k) (M.conRhs.get? k)
  mktRhs : ∀ k, TabP (Row.ren g) (m.mktRhs.get? k) (M.mktRhs.get? k)
  dynRhs : TabP (DynRow.ren f g) m.dynRhs M.dynRhs
  nan : M.nanCon = m.nanCon

/-- all ids in the tables of `m` are below the bounds -/
structure Bnd (nV nC : Nat) (m : Market) : Prop where
  bids : ∀ l, m.bids = some l → ∀ v ∈ l, v.vid < nV
  bidUnit : ∀ l, m.bidUnit = some l → ∀ v ∈ l, v.vid < nV
  bidReg : ∀ l, m.bidReg = some l → ∀ v ∈ l, v.vid < nV
  bidCost : ∀ l, m.bidCost = some l → ∀ v ∈ l, v.vid < nV
  inters : ∀ l, m.inters = some l → ∀ v ∈ l, v.vid < nV
  interReg : ∀ l, m.interReg = some l → ∀ v ∈ l, v.vid < nV
  losses : ∀ l, m.losses = some l → ∀ v ∈ l, v.vid < nV
  lossReg : ∀ l, m.lossReg = some l → ∀ v ∈ l, v.vid < nV
  weights : ∀ l, m.weights = some l → ∀ v ∈ l, v.vid < nV
  lossLhs : ∀ l, m.lossLhs = some l → ∀ v ∈ l, v.vid < nV ∧ v.cid < nC
  tieLhs : ∀ l, m.tieLhs = some l → ∀ v ∈ l, v.vid < nV ∧ v.cid < nC
  deficits : ∀ k e, m.deficits.get? k = some e → (∀ v ∈ e.1, v.vid < nV) ∧ ∀ t ∈ e.2, t.vid < nV ∧ t.cid < nC
  unitCon : ∀ k l, m.unitCon.get? k = some l → ∀ c ∈ l, c.cid < nC
  regCon : ∀ k l, m.regCon.get? k = some l → ∀ c ∈ l, c.cid < nC
  conRhs : ∀ k l, m.conRhs.get? k = some l → ∀ c ∈ l, c.cid < nC
  mktRhs : ∀ k l, m.mktRhs.get? k = some l → ∀ c ∈ l, c.cid < nC
  dynRhs : ∀ l, m.dynRhs = some l → ∀ r ∈ l, r.rhsVid < nV ∧ r.cid < nC

theorem Bnd.mono {nV nC nV' nC' : Nat} {m : Market} (h : Bnd nV nC m) (hV : nV ≤ nV') (hC : nC ≤ nC') : Bnd nV' nC' m where
  bids l e v hv := lt_of_lt_of_le (h.bids l e v hv) hV
  bidUnit l e v hv := lt_of_lt_of_le (h.bidUnit l e v hv) hV
  bidReg l e v hv := lt_of_lt_of_le (h.bidReg l e v hv) hV
  bidCost l e v hv := lt_of_lt_of_le (h.bidCost l e v hv) hV
  inters l e v hv := lt_of_lt_of_le (h.inters l e v hv) hV
  interReg l e v hv := lt_of_lt_of_le (h.interReg l e v hv) hV
  losses l e v hv := lt_of_lt_of_le (h.losses l e v hv) hV
  lossReg l e v hv := lt_of_lt_of_le (h.lossReg l e v hv) hV
  weights l e v hv := lt_of_lt_of_le (h.weights l e v hv) hV
  lossLhs l e v hv := ⟨lt_of_lt_of_le (h.lossLhs l e v hv).1 hV, lt_of_lt_of_le (h.lossLhs l e v hv).2 hC⟩
  tieLhs l e v hv := ⟨lt_of_lt_of_le (h.tieLhs l e v hv).1 hV, lt_of_lt_of_le (h.tieLhs l e v hv).2 hC⟩
  deficits k e he := ⟨fun v hv => lt_of_lt_of_le ((h.deficits k e he).1 v hv) hV,
    fun t ht => ⟨lt_of_lt_of_le ((h.deficits k e he).2 t ht).1 hV, lt_of_lt_of_le ((h.deficits k e he).2 t ht).2 hC⟩⟩
  unitCon k l e v hv := lt_of_lt_of_le (h.unitCon k l e v hv) hC
  regCon k l e v hv := lt_of_lt_of_le (h.regCon k l e v hv) hC
  conRhs k l e v hv := lt_of_lt_of_le (h.conRhs k l e v hv) hC
  mktRhs k l e v hv := lt_of_lt_of_le (h.mktRhs k l e v hv) hC
  dynRhs l e v hv := ⟨lt_of_lt_of_le (h.dynRhs l e v hv).1 hV, lt_of_lt_of_le (h.dynRhs l e v hv).2 hC⟩

/-- the tables agree, the counters too, and the ids are below the counters -/
structure Shuf (f g : Nat → Nat) (m M : Market) : Prop where
  tabs : ShufT f g m M
  nextV : M.nextVar = m.nextVar
  nextC : M.nextCon = m.nextCon
  vars : Ren f m.nextVar m.nextVar
  cons : Ren g m.nextCon m.nextCon
  bnd : Bnd m.nextVar m.nextCon m

section
variable {f g f' g' : Nat → Nat} {m M : Market}

/-- renamings that agree on the ids in use -/
theorem ShufT.congr {nV nC : Nat} (h : ShufT f g m M) (b : Bnd nV nC m) (hf : ∀ i, i < nV → f' i = f i) (hg : ∀ i, i < nC → g' i = g i) :
    ShufT f' g' m M :=
  { h with
    bids := h.bids.congr (fun l e v hv => by simp only [BidVar.ren, hf _ (b.bids l e v hv)])
    bidUnit := h.bidUnit.congr (fun l e v hv => by simp only [VarUnit.ren, hf _ (b.bidUnit l e v hv)])
    bidReg := h.bidReg.congr (fun l e v hv => by simp only [VarReg.ren, hf _ (b.bidReg l e v hv)])
    bidCost := h.bidCost.congr (fun l e v hv => by simp only [BidCost.ren, hf _ (b.bidCost l e v hv)])
    inters := h.inters.congr (fun l e v hv => by simp only [InterVar.ren, hf _ (b.inters l e v hv)])
    interReg := h.interReg.congr (fun l e v hv => by simp only [InterMap.ren, hf _ (b.interReg l e v hv)])
    losses := h.losses.congr (fun l e v hv => by simp only [LossVar.ren, hf _ (b.losses l e v hv)])
    lossReg := h.lossReg.congr (fun l e v hv => by simp only [VarReg.ren, hf _ (b.lossReg l e v hv)])
    weights := h.weights.congr (fun l e v hv => by simp only [WeightVar.ren, hf _ (b.weights l e v hv)])
    lossLhs := h.lossLhs.congr (fun l e v hv => by simp only [Term.ren, hf _ (b.lossLhs l e v hv).1, hg _ (b.lossLhs l e v hv).2])
    tieLhs := h.tieLhs.congr (fun l e v hv => by simp only [Term.ren, hf _ (b.tieLhs l e v hv).1, hg _ (b.tieLhs l e v hv).2])
    deficits := fun k => (h.deficits k).congr (fun e he => ⟨fun v hv => hf _ ((b.deficits k e he).1 v hv),
      fun t ht => ⟨hf _ ((b.deficits k e he).2 t ht).1, hg _ ((b.deficits k e he).2 t ht).2⟩⟩)
    unitCon := fun k => (h.unitCon k).congr (fun l e v hv => by simp only [ConUnit.ren, hg _ (b.unitCon k l e v hv)])
    regCon := fun k => (h.regCon k).congr (fun l e v hv => by simp only [ConReg.ren, hg _ (b.regCon k l e v hv)])
    conRhs := fun k => (h.conRhs k).congr (fun l e v hv => by simp only [Row.ren, hg _ (b.conRhs k l e v hv)])
    mktRhs := fun k => (h.mktRhs k).congr (fun l e v hv => by simp only [Row.ren, hg _ (b.mktRhs k l e v hv)])
    dynRhs := h.dynRhs.congr (fun l e v hv => by simp only [DynRow.ren, hf _ (b.dynRhs l e v hv).1, hg _ (b.dynRhs l e v hv).2]) }

/-- new ids are numbered in another order -/
theorem Moves.after {σ : Nat → Nat} {n k : Nat} (h : Moves σ n k) (hf : Ren f n n) :
    Ren (σ ∘ f) (n + k) (n + k) ∧ (∀ i, i < n → (σ ∘ f) i = f i) ∧ ∀ i, n ≤ i → (σ ∘ f) i = σ i := by
  refine ⟨⟨h.inj.comp hf.inj, ?_, ?_⟩, ?_, ?_⟩
  · intro i hi
    by_cases hn : i < n
    · have := hf.low i hn
      rw [Function.comp, h.below _ this]; omega
    · have e : f i = i := by have := hf.tail i (by omega); omega
      rw [Function.comp, e]
      exact (h.inside (by omega) hi).2
  · intro i hi
    have e : f i = i := by have := hf.tail i (by omega); omega
    rw [Function.comp, e, h.above i hi]
  · intro i hi; rw [Function.comp, h.below _ (hf.low i hi)]
  · intro i hi
    have e : f i = i := by have := hf.tail i hi; omega
    rw [Function.comp, e]

end

/-- results of a call: the markets agree up to the order of rows and ids, and the same exception -/
def ShufR (r R : Res) : Prop := (∃ f g, Shuf f g r.1 R.1) ∧ R.2 = r.2

theorem Shuf.same {f g : Nat → Nat} {m M : Market} (h : Shuf f g m M) (e : Option Err) : ShufR (m, e) (M, e) := ⟨⟨f, g, h⟩, rfl⟩

theorem ShufR.andThen {r R : Res} (h : ShufR r R) {F G : Market → Res} (hF : ∀ f g m M, Shuf f g m M → ShufR (F m) (G M)) :
    ShufR (r.andThen F) (R.andThen G) := by
  obtain ⟨⟨f, g, h1⟩, h2⟩ := h
  unfold Res.andThen
  rw [h2]
  cases r.2 with
  | none => exact hF _ _ _ _ h1
  | some e => exact ⟨⟨f, g, h1⟩, rfl⟩

/-! ### Primitive updates -/

section
variable {f g : Nat → Nat} {m M : Market}

theorem tabP_set {α : Type} {r : α → α} {d D : Dict CKey (List α)} (h : ∀ k, TabP r (d.get? k) (D.get? k)) (k0 : CKey) {v V : List α}
    (hv : V.Perm (v.map r)) : ∀ k, TabP r ((d.set k0 v).get? k) ((D.set k0 V).get? k) := by
  intro k
  by_cases hk : k0 = k
  · subst hk; rw [Dict.get?_set_self, Dict.get?_set_self]; exact hv
  · rw [Dict.get?_set_ne _ _ hk, Dict.get?_set_ne _ _ hk]; exact h k

theorem bnd_set {α : Type} {P : α → Prop} {d : Dict CKey (List α)} (h : ∀ k l, d.get? k = some l → ∀ c ∈ l, P c) (k0 : CKey) {v : List α}
    (hv : ∀ c ∈ v, P c) : ∀ k l, (d.set k0 v).get? k = some l → ∀ c ∈ l, P c := by
  intro k l e
  by_cases hk : k0 = k
  · subst hk; rw [Dict.get?_set_self] at e; injection e with e; subst e; exact hv
  · rw [Dict.get?_set_ne _ _ hk] at e; exact h k l e

/-- two freshly numbered tables: the same rows up to the order and the new ids -/
structure UnitP (n : Nat) (t T : List Row × List ConUnit) : Prop where
  ex : ∃ σ N, Moves σ n N ∧ T.1.Perm (t.1.map (Row.ren σ)) ∧ T.2.Perm (t.2.map (ConUnit.ren σ)) ∧ (t.1.map Row.cid).Perm (List.range' n N)
  sub : ∀ c ∈ t.2, ∃ r ∈ t.1, r.cid = c.cid

structure RegP (n : Nat) (t T : List Row × List ConReg) : Prop where
  ex : ∃ σ N, Moves σ n N ∧ T.1.Perm (t.1.map (Row.ren σ)) ∧ T.2.Perm (t.2.map (ConReg.ren σ)) ∧ (t.1.map Row.cid).Perm (List.range' n N)
  sub : ∀ c ∈ t.2, ∃ r ∈ t.1, r.cid = c.cid

theorem nextAfter_moved {σ : Nat → Nat} {n N : Nat} (h : Moves σ n N) {l L : List Nat} (h1 : L.Perm (l.map σ)) (h2 : l.Perm (List.range' n N))
    (hN : 0 < N) : nextAfter L = n + N ∧ nextAfter l = n + N := by
  refine ⟨?_, by rw [nextAfter_perm h2, nextAfter_range' hN]⟩
  rw [nextAfter_perm (h1.trans ((h2.map σ).trans h.range)), nextAfter_range' hN]

theorem map_cid_ren {σ : Nat → Nat} {T t : List Row} (h : T.Perm (t.map (Row.ren σ))) : (T.map Row.cid).Perm ((t.map Row.cid).map σ) := by
  refine (h.map _).trans ?_
  rw [List.map_map, List.map_map]
  exact .refl _

theorem addUnitSet_shuf (h : Shuf f g m M) (k : CKey) {t T : List Row × List ConUnit} (ht : UnitP m.nextCon t T) :
    ShufR (m.addUnitSet k t) (M.addUnitSet k T) := by
  obtain ⟨⟨σ, N, hσ, h1, h2, hr⟩, hs⟩ := ht
  obtain ⟨a1, a2, a3⟩ := hσ.after h.cons
  have hlt : ∀ r ∈ t.1, m.nextCon ≤ r.cid ∧ r.cid < m.nextCon + N := by
    intro r hr'
    exact List.mem_range'_1.1 (hr.mem_iff.1 (List.mem_map.2 ⟨r, hr', rfl⟩))
  have hlt2 : ∀ c ∈ t.2, m.nextCon ≤ c.cid ∧ c.cid < m.nextCon + N := by
    intro c hc
    obtain ⟨r, hr', e⟩ := hs c hc
    exact e ▸ hlt r hr'
  have e1 : t.1.map (Row.ren (σ ∘ g)) = t.1.map (Row.ren σ) :=
    List.map_congr_left (fun r hr' => by simp only [Row.ren, a3 _ (hlt r hr').1])
  have e2 : t.2.map (ConUnit.ren (σ ∘ g)) = t.2.map (ConUnit.ren σ) :=
    List.map_congr_left (fun r hr' => by simp only [ConUnit.ren, a3 _ (hlt2 r hr').1])
  have hb := h.bnd.mono (le_refl _) (Nat.le_add_right m.nextCon N)
  have hT := h.tabs.congr (f' := f) (g' := σ ∘ g) h.bnd (fun _ _ => rfl) a2
  have hT' : ShufT f (σ ∘ g) { m with conRhs := m.conRhs.set k t.1, unitCon := m.unitCon.set k t.2 }
      { M with conRhs := M.conRhs.set k T.1, unitCon := M.unitCon.set k T.2 } :=
    { hT with
      conRhs := tabP_set hT.conRhs k (e1 ▸ h1)
      unitCon := tabP_set hT.unitCon k (e2 ▸ h2) }
  have hb' : Bnd m.nextVar (m.nextCon + N) { m with conRhs := m.conRhs.set k t.1, unitCon := m.unitCon.set k t.2 } :=
    { hb with
      conRhs := bnd_set hb.conRhs k (fun c hc => (hlt c hc).2)
      unitCon := bnd_set hb.unitCon k (fun c hc => (hlt2 c hc).2) }
  unfold Market.addUnitSet
  have he : T.1.isEmpty = t.1.isEmpty := by rw [isEmpty_perm h1, List.isEmpty_map]
  dsimp only
  rw [he]
  have hN : t.1.length = N := by simpa using hr.length_eq
  split
  · rename_i hc
    have h0 : N = 0 := by rw [← hN, List.isEmpty_iff_length_eq_zero.1 hc]
    subst h0
    exact ⟨⟨f, σ ∘ g, hT', h.nextV, h.nextC, h.vars, a1, hb'⟩, rfl⟩
  · rename_i hc
    have h0 : 0 < N := by
      rw [List.isEmpty_iff_length_eq_zero] at hc; omega
    obtain ⟨n1, n2⟩ := nextAfter_moved hσ (map_cid_ren h1) hr h0
    rw [n1, n2]
    exact ⟨⟨f, σ ∘ g, { hT' with }, h.nextV, rfl, h.vars, a1, { hb' with }⟩, rfl⟩

theorem addRegSet_shuf (h : Shuf f g m M) (k : CKey) {t T : List Row × List ConReg} (ht : RegP m.nextCon t T) :
    ShufR (m.addRegSet k t) (M.addRegSet k T) := by
  obtain ⟨⟨σ, N, hσ, h1, h2, hr⟩, hs⟩ := ht
  obtain ⟨a1, a2, a3⟩ := hσ.after h.cons
  have hlt : ∀ r ∈ t.1, m.nextCon ≤ r.cid ∧ r.cid < m.nextCon + N := by
    intro r hr'
    exact List.mem_range'_1.1 (hr.mem_iff.1 (List.mem_map.2 ⟨r, hr', rfl⟩))
  have hlt2 : ∀ c ∈ t.2, m.nextCon ≤ c.cid ∧ c.cid < m.nextCon + N := by
    intro c hc
    obtain ⟨r, hr', e⟩ := hs c hc
    exact e ▸ hlt r hr'
  have e1 : t.1.map (Row.ren (σ ∘ g)) = t.1.map (Row.ren σ) :=
    List.map_congr_left (fun r hr' => by simp only [Row.ren, a3 _ (hlt r hr').1])
  have e2 : t.2.map (ConReg.ren (σ ∘ g)) = t.2.map (ConReg.ren σ) :=
    List.map_congr_left (fun r hr' => by simp only [ConReg.ren, a3 _ (hlt2 r hr').1])
  have hb := h.bnd.mono (le_refl _) (Nat.le_add_right m.nextCon N)
  have hT := h.tabs.congr (f' := f) (g' := σ ∘ g) h.bnd (fun _ _ => rfl) a2
  have hT' : ShufT f (σ ∘ g) { m with mktRhs := m.mktRhs.set k t.1, regCon := m.regCon.set k t.2 }
      { M with mktRhs := M.mktRhs.set k T.1, regCon := M.regCon.set k T.2 } :=
    { hT with
      mktRhs := tabP_set hT.mktRhs k (e1 ▸ h1)
      regCon := tabP_set hT.regCon k (e2 ▸ h2) }
  have hb' : Bnd m.nextVar (m.nextCon + N) { m with mktRhs := m.mktRhs.set k t.1, regCon := m.regCon.set k t.2 } :=
    { hb with
      mktRhs := bnd_set hb.mktRhs k (fun c hc => (hlt c hc).2)
      regCon := bnd_set hb.regCon k (fun c hc => (hlt2 c hc).2) }
  unfold Market.addRegSet
  have he : T.1.isEmpty = t.1.isEmpty := by rw [isEmpty_perm h1, List.isEmpty_map]
  dsimp only
  rw [he]
  have hN : t.1.length = N := by simpa using hr.length_eq
  split
  · rename_i hc
    have h0 : N = 0 := by rw [← hN, List.isEmpty_iff_length_eq_zero.1 hc]
    subst h0
    exact ⟨⟨f, σ ∘ g, hT', h.nextV, h.nextC, h.vars, a1, hb'⟩, rfl⟩
  · rename_i hc
    have h0 : 0 < N := by
      rw [List.isEmpty_iff_length_eq_zero] at hc; omega
    obtain ⟨n1, n2⟩ := nextAfter_moved hσ (map_cid_ren h1) hr h0
    rw [n1, n2]
    exact ⟨⟨f, σ ∘ g, { hT' with }, h.nextV, rfl, h.vars, a1, { hb' with }⟩, rfl⟩

end

end Verif
