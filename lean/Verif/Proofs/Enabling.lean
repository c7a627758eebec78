import Verif.Proofs.BidScaling

namespace Verif.Units

theorem capsOf_cases {caps : List CapLimit} (hn : (caps.map CapLimit.key).Nodup) (d : String) (t : Option DType) :
    (capsOf caps d t = [none] ∧ ∀ c ∈ caps, c.unit = d → c.dtype = t → False) ∨
    ∃ c ∈ caps, c.unit = d ∧ c.dtype = t ∧ capsOf caps d t = [some c.capacity] ∧
      ∀ c' ∈ caps, c'.unit = d → c'.dtype = t → c' = c := by
  have hfil : caps.filter (fun c => decide (c.unit = d ∧ c.dtype = t)) =
      caps.filter (fun c => decide (CapLimit.key c = (d, t))) := by
    apply List.filter_congr
    intro c _
    unfold CapLimit.key
    simp only [Prod.mk.injEq]
  by_cases h : (d, t) ∈ caps.map CapLimit.key
  · obtain ⟨c, hc, e⟩ := List.mem_map.1 h
    right
    have e' : c.unit = d ∧ c.dtype = t := by
      unfold CapLimit.key at e
      simpa using e
    have hs := filter_present hn hc
    refine ⟨c, hc, e'.1, e'.2, ?_, ?_⟩
    · unfold capsOf
      rw [hfil, ← e, hs]
      rfl
    · intro c' hc' h1 h2
      have : c' ∈ caps.filter (fun a => decide (CapLimit.key a = CapLimit.key c)) := by
        rw [List.mem_filter]
        refine ⟨hc', ?_⟩
        simp only [decide_eq_true_eq]
        unfold CapLimit.key
        rw [h1, h2, e'.1, e'.2]
      rw [hs] at this
      simpa using this
  · left
    refine ⟨?_, ?_⟩
    · unfold capsOf
      rw [hfil, filter_absent h]
    · intro c hc h1 h2
      refine h (List.mem_map.2 ⟨c, hc, ?_⟩)
      unfold CapLimit.key
      rw [h1, h2]

theorem caps_single {caps : List CapLimit} (hn : (caps.map CapLimit.key).Nodup) (d : String) (t : Option DType) :
    ∃ x, capsOf caps d t = [x] := by
  rcases capsOf_cases hn d t with ⟨h, _⟩ | ⟨c, _, _, _, h, _⟩
  · exact ⟨_, h⟩
  · exact ⟨_, h⟩

theorem capAtLeast_iff {caps : List CapLimit} (hn : (caps.map CapLimit.key).Nodup) {d : String} {t : Option DType}
    {x : Option ℚ} (hx : x ∈ capsOf caps d t) (e : ℚ) : capAtLeast e x = true ↔ CapsMeet caps d t (fun c => e ≤ c) := by
  rcases capsOf_cases hn d t with ⟨h, h1⟩ | ⟨c, hc, h1, h2, h, h3⟩
  · rw [h, List.mem_singleton] at hx
    subst hx
    exact ⟨fun _ c hc a b => absurd (h1 c hc a b) id, fun _ => rfl⟩
  · rw [h, List.mem_singleton] at hx
    subst hx
    unfold capAtLeast
    simp only [decide_eq_true_eq]
    constructor
    · intro hle c' hc' a b
      rw [h3 c' hc' a b]; exact hle
    · intro hm
      exact hm c hc h1 h2

theorem negCap_iff {caps : List CapLimit} (hn : (caps.map CapLimit.key).Nodup) {d : String} {t : Option DType}
    {x : Option ℚ} (hx : x ∈ capsOf caps d t) (e : ℚ) : negCapAtMost e x = true ↔ CapsMeet caps d t (fun c => -c ≤ e) := by
  rcases capsOf_cases hn d t with ⟨h, h1⟩ | ⟨c, hc, h1, h2, h, h3⟩
  · rw [h, List.mem_singleton] at hx
    subst hx
    exact ⟨fun _ c hc a b => absurd (h1 c hc a b) id, fun _ => rfl⟩
  · rw [h, List.mem_singleton] at hx
    subst hx
    unfold negCapAtMost
    simp only [decide_eq_true_eq, neg_one_mul]
    constructor
    · intro hle c' hc' a b
      rw [h3 c' hc' a b]; exact hle
    · intro hm
      exact hm c hc h1 h2

/-- one row at most for each element -/
theorem flatMap_sublist {α β γ : Type} {l : List α} {f : α → List β} {h : β → γ} {g : α → γ}
    (hs : ∀ a ∈ l, ((f a).map h).Sublist [g a]) : ((l.flatMap f).map h).Sublist (l.map g) := by
  induction l with
  | nil => simp
  | cons a l ih =>
    rw [List.flatMap_cons, List.map_append, List.map_cons]
    exact (hs a List.mem_cons_self).append (ih (fun b hb => hs b (List.mem_cons_of_mem _ hb)))

theorem fcasRows_sublist {bs : List VolBid} {cs : List InitCond} {caps : List CapLimit}
    (hc : (cs.map InitCond.duid).Nodup) (hk : (caps.map CapLimit.key).Nodup) :
    ((fcasRows bs cs caps).map FcasRow.bid).Sublist bs := by
  unfold fcasRows
  refine List.Sublist.trans (l₂ := ((((bs.filter (fun b => !decide (b.service = .energy))).filter
    (fun b => decide (0 < b.maxAvail))).filter (fun b => b.bands.any (fun v => decide (0 < v)))).map id)) ?_ ?_
  · refine flatMap_sublist ?_
    intro b _
    obtain ⟨x, hx⟩ := caps_single hk b.duid b.dir
    rw [hx]
    by_cases h : capAtLeast b.emin x
    · rw [List.filter_cons, if_pos h, List.filter_nil, List.flatMap_cons, List.flatMap_nil, List.append_nil, List.map_map]
      by_cases hd : b.duid ∈ cs.map InitCond.duid
      · obtain ⟨c, hcc, e⟩ := List.mem_map.1 hd
        rw [← e, filter_present hc hcc]
        simp
      · rw [filter_absent hd]
        simp
    · rw [List.filter_cons, if_neg h]
      simp
  · rw [List.map_id]
    exact List.filter_sublist.trans (List.filter_sublist.trans List.filter_sublist)

theorem mem_fcasRows {bs : List VolBid} {cs : List InitCond} {caps : List CapLimit}
    (hk : (caps.map CapLimit.key).Nodup) {r : FcasRow} :
    r ∈ fcasRows bs cs caps ↔ r.bid ∈ bs ∧ Offered caps r.bid ∧ r.init ∈ cs ∧ r.init.duid = r.bid.duid ∧
      r.capacity ∈ capsOf caps r.bid.duid r.bid.dir ∧ r.fmin = none ∧ r.fmax = none := by
  unfold fcasRows
  simp only [List.mem_flatMap, List.mem_filter, Bool.not_eq_true', decide_eq_false_iff_not, decide_eq_true_eq,
    List.any_eq_true, List.mem_map]
  constructor
  · rintro ⟨b, ⟨⟨⟨hb, h1⟩, h2⟩, h3⟩, x, ⟨hx, h4⟩, c, ⟨hc, h5⟩, rfl⟩
    exact ⟨hb, ⟨h1, h2, h3, (capAtLeast_iff hk hx _).1 h4⟩, hc, h5, hx, rfl, rfl⟩
  · rintro ⟨hb, ⟨h1, h2, h3, h4⟩, hc, h5, hx, h6, h7⟩
    refine ⟨r.bid, ⟨⟨⟨hb, h1⟩, h2⟩, h3⟩, r.capacity, ⟨hx, (capAtLeast_iff hk hx _).2 h4⟩, r.init, ⟨hc, h5⟩, ?_⟩
    cases r
    simp only at h6 h7
    rw [h6, h7]

/-- the rows of one side for regulation -/
def sideReg (bs : List VolBid) (cs : List InitCond) (caps : List CapLimit) (d : DType) : List FcasRow :=
  (((fcasRows bs cs caps).filter FcasRow.bdu).filter (fun r => decide (r.bid.dir = some d))).filter
    (fun r => isReg r.bid.service)

theorem sideReg_sublist {bs : List VolBid} {cs : List InitCond} {caps : List CapLimit} {d : DType} :
    (sideReg bs cs caps d).Sublist (fcasRows bs cs caps) :=
  List.filter_sublist.trans (List.filter_sublist.trans List.filter_sublist)

theorem mem_sideReg {bs : List VolBid} {cs : List InitCond} {caps : List CapLimit} {d : DType} {r : FcasRow} :
    r ∈ sideReg bs cs caps d ↔ r ∈ fcasRows bs cs caps ∧ r.init.traderType = "BIDIRECTIONAL" ∧ r.bid.dir = some d ∧
      isReg r.bid.service = true := by
  unfold sideReg FcasRow.bdu
  simp only [List.mem_filter, decide_eq_true_eq, and_assoc]

/-- the limit taken from the other side -/
theorem otherSide_cases {bs : List VolBid} {cs : List InitCond} {caps : List CapLimit}
    (hb : (bs.map VolBid.key).Nodup) (hc : (cs.map InitCond.duid).Nodup) (hk : (caps.map CapLimit.key).Nodup)
    (limit : VolBid → ℚ) (d : DType) {r : FcasRow} (hr : r ∈ fcasRows bs cs caps)
    (ht : r.init.traderType = "BIDIRECTIONAL") (hreg : isReg r.bid.service = true) :
    (otherSide (fun o => limit o.bid) (limit r.bid) (sideReg bs cs caps d) r = [limit r.bid] ∧
      ∀ o ∈ bs, ¬Counterpart caps r.bid d o) ∨
    ∃ o ∈ bs, Counterpart caps r.bid d o ∧
      otherSide (fun o => limit o.bid) (limit r.bid) (sideReg bs cs caps d) r = [limit o] ∧
      ∀ o' ∈ bs, Counterpart caps r.bid d o' → o' = o := by
  obtain ⟨hrb, hro, hrc, hre, _⟩ := (mem_fcasRows hk).1 hr
  have hsub : ((sideReg bs cs caps d).map (fun r => VolBid.key r.bid)).Nodup := by
    have h1 : ((sideReg bs cs caps d).map FcasRow.bid).Sublist bs :=
      (sideReg_sublist.map _).trans (fcasRows_sublist hc hk)
    have h2 := (h1.map VolBid.key).nodup hb
    rw [List.map_map] at h2
    exact h2
  have hfil : (sideReg bs cs caps d).filter (fun o => decide (o.bid.duid = r.bid.duid ∧ o.bid.service = r.bid.service)) =
      (sideReg bs cs caps d).filter (fun o => decide (VolBid.key o.bid = (r.bid.duid, r.bid.service, some d))) := by
    apply List.filter_congr
    intro o ho
    have := (mem_sideReg.1 ho).2.2.1
    unfold VolBid.key
    rw [this]
    simp only [Prod.mk.injEq, and_true]
  have hbn : bs.Nodup := hb.of_map
  by_cases h : (r.bid.duid, r.bid.service, some d) ∈ (sideReg bs cs caps d).map (fun r => VolBid.key r.bid)
  · right
    obtain ⟨o, ho, e⟩ := List.mem_map.1 h
    obtain ⟨ho1, ho2, ho3, ho4⟩ := mem_sideReg.1 ho
    obtain ⟨ho5, ho6, ho7, ho8, _⟩ := (mem_fcasRows hk).1 ho1
    unfold VolBid.key at e
    simp only [Prod.mk.injEq] at e
    refine ⟨o.bid, ho5, ⟨ho6, e.1, e.2.1, ho3⟩, ?_, ?_⟩
    · have e2 : (r.bid.duid, r.bid.service, some d) = VolBid.key o.bid := by
        unfold VolBid.key
        rw [e.1, e.2.1, ho3]
      unfold otherSide
      rw [hfil, e2, filter_present (key := fun r : FcasRow => VolBid.key r.bid) hsub ho]
      rfl
    · rintro o' ho' ⟨_, c1, c2, c3⟩
      have hkey : VolBid.key o' = VolBid.key o.bid := by
        unfold VolBid.key
        rw [c1, c2, c3, e.1, e.2.1, ho3]
      have h1 := rowFor_mem hb ho'
      rw [hkey, rowFor_mem hb ho5] at h1
      injection h1 with h1
      exact h1.symm
  · left
    refine ⟨?_, ?_⟩
    · unfold otherSide
      rw [hfil, filter_absent (key := fun r : FcasRow => VolBid.key r.bid) h]
    · rintro o ho ⟨c0, c1, c2, c3⟩
      refine h (List.mem_map.2 ?_)
      obtain ⟨x, hx⟩ := caps_single hk o.duid o.dir
      refine ⟨⟨o, x, r.init, none, none⟩, mem_sideReg.2 ⟨(mem_fcasRows hk).2 ⟨ho, c0, hrc, by rw [hre]; exact c1.symm,
        by rw [hx]; exact List.mem_singleton_self x, rfl, rfl⟩, ht, c3, by show isReg o.service = true; rw [c2]; exact hreg⟩, ?_⟩
      show VolBid.key o = _
      unfold VolBid.key
      rw [c1, c2, c3]

/-! The groups of enabled rows -/

def gNotBdu (bs : List VolBid) (cs : List InitCond) (caps : List CapLimit) : List FcasRow :=
  (((fcasRows bs cs caps).filter (fun r => !r.bdu)).filter (fun r => decide (0 ≤ r.bid.emax))).filter
    (fun r => capAtLeast r.bid.emin r.capacity)

def gGenCon (bs : List VolBid) (cs : List InitCond) (caps : List CapLimit) : List FcasRow :=
  ((((((fcasRows bs cs caps).filter FcasRow.bdu).filter (fun r => decide (r.bid.dir = some .generator))).filter
    (fun r => !isReg r.bid.service)).filter (fun r => decide (0 ≤ r.bid.emax))).filter
    (fun r => capAtLeast r.bid.emin r.capacity)).flatMap (fun r =>
      ((capsOf caps r.bid.duid (some .load)).filter (negCapAtMost r.bid.emax)).map (fun c => { r with capacity := c }))

def gLoadCon (bs : List VolBid) (cs : List InitCond) (caps : List CapLimit) : List FcasRow :=
  ((((fcasRows bs cs caps).filter FcasRow.bdu).filter (fun r => decide (r.bid.dir = some .load))).filter
    (fun r => !isReg r.bid.service)).filter (fun r => decide (r.bid.emin ≤ 0))

def gLoadReg (bs : List VolBid) (cs : List InitCond) (caps : List CapLimit) : List FcasRow :=
  (((sideReg bs cs caps .load).flatMap (fun r => (otherSide (fun o => o.bid.emax) r.bid.emax
      (sideReg bs cs caps .generator) r).map (fun x => { r with fmin := some r.bid.emin, fmax := some x }))).filter
    (fun r => decide (r.bid.emin ≤ 0))).filter (fun r => negCapAtMost r.bid.emax r.capacity)

def gGenReg (bs : List VolBid) (cs : List InitCond) (caps : List CapLimit) : List FcasRow :=
  (((sideReg bs cs caps .generator).flatMap (fun r => (otherSide (fun o => o.bid.emin) r.bid.emin
      (sideReg bs cs caps .load) r).map (fun x => { r with fmin := some x, fmax := some r.bid.emax }))).filter
    (fun r => decide (0 ≤ r.bid.emax))).filter (fun r => capAtLeast r.bid.emin r.capacity)

theorem enabledRows_eq (bs : List VolBid) (cs : List InitCond) (caps : List CapLimit) :
    enabledRows bs cs caps =
      ((gLoadCon bs cs caps ++ gGenCon bs cs caps ++ gNotBdu bs cs caps).filter
        (fun r => within r.bid.emin r.bid.emax r.initMw) ++
       (gGenReg bs cs caps ++ gLoadReg bs cs caps).filter
        (fun r => within (r.fmin.getD 0) (r.fmax.getD 0) r.init.initMw)).filter
        (fun r => !(decide (r.init.agc = some 0) && isReg r.bid.service)) := rfl

/-- what is known of any row in a group -/
def RowFact (bs : List VolBid) (cs : List InitCond) (caps : List CapLimit) (r : FcasRow) : Prop :=
  r.bid ∈ bs ∧ Offered caps r.bid ∧ r.init ∈ cs ∧ r.init.duid = r.bid.duid

section
variable {bs : List VolBid} {cs : List InitCond} {caps : List CapLimit}
  (hb : (bs.map VolBid.key).Nodup) (hc : (cs.map InitCond.duid).Nodup) (hk : (caps.map CapLimit.key).Nodup)
include hk

theorem rowFact {r : FcasRow} (h : r ∈ fcasRows bs cs caps) : RowFact bs cs caps r :=
  let ⟨a, b, c, d, _⟩ := (mem_fcasRows hk).1 h
  ⟨a, b, c, d⟩

theorem mem_gNotBdu {r : FcasRow} : r ∈ gNotBdu bs cs caps ↔
    r ∈ fcasRows bs cs caps ∧ r.init.traderType ≠ "BIDIRECTIONAL" ∧ 0 ≤ r.bid.emax := by
  unfold gNotBdu FcasRow.bdu
  simp only [List.mem_filter, decide_eq_true_eq, Bool.not_eq_true', decide_eq_false_iff_not]
  constructor
  · rintro ⟨⟨⟨h1, h2⟩, h3⟩, _⟩; exact ⟨h1, h2, h3⟩
  · rintro ⟨h1, h2, h3⟩
    obtain ⟨_, a2, _, _, a5, _⟩ := (mem_fcasRows hk).1 h1
    exact ⟨⟨⟨h1, h2⟩, h3⟩, (capAtLeast_iff hk a5 _).2 a2.2.2.2⟩

omit hk in
theorem mem_gLoadCon {r : FcasRow} : r ∈ gLoadCon bs cs caps ↔
    r ∈ fcasRows bs cs caps ∧ r.init.traderType = "BIDIRECTIONAL" ∧ r.bid.dir = some .load ∧ isReg r.bid.service = false ∧
      r.bid.emin ≤ 0 := by
  unfold gLoadCon FcasRow.bdu
  simp only [List.mem_filter, decide_eq_true_eq, Bool.not_eq_true', and_assoc]

theorem mem_gGenCon {r : FcasRow} : r ∈ gGenCon bs cs caps ↔
    ∃ r0 ∈ fcasRows bs cs caps, r.bid = r0.bid ∧ r.init = r0.init ∧ r.fmin = none ∧ r.fmax = none ∧
      r.capacity ∈ capsOf caps r.bid.duid (some .load) ∧
      r.init.traderType = "BIDIRECTIONAL" ∧ r.bid.dir = some .generator ∧ isReg r.bid.service = false ∧
      0 ≤ r.bid.emax ∧ CapsMeet caps r.bid.duid (some .load) (fun c => -c ≤ r.bid.emax) := by
  unfold gGenCon FcasRow.bdu
  simp only [List.mem_flatMap, List.mem_map, List.mem_filter, decide_eq_true_eq, Bool.not_eq_true']
  constructor
  · rintro ⟨r0, ⟨⟨⟨⟨⟨h0, h1⟩, h2⟩, h3⟩, h4⟩, _⟩, x, ⟨hx, h5⟩, rfl⟩
    obtain ⟨_, _, _, _, _, f1, f2⟩ := (mem_fcasRows hk).1 h0
    exact ⟨r0, h0, rfl, rfl, f1, f2, hx, h1, h2, h3, h4, (negCap_iff hk hx _).1 h5⟩
  · rintro ⟨r0, h0, e1, e2, f1, f2, hx, h1, h2, h3, h4, h5⟩
    obtain ⟨_, a2, _, _, a5, f1', f2'⟩ := (mem_fcasRows hk).1 h0
    refine ⟨r0, ⟨⟨⟨⟨⟨h0, by rw [← e2]; exact h1⟩, by rw [← e1]; exact h2⟩, by rw [← e1]; exact h3⟩,
      by rw [← e1]; exact h4⟩, (capAtLeast_iff hk a5 _).2 a2.2.2.2⟩, r.capacity, ⟨by rw [← e1]; exact hx,
      by rw [← e1]; exact (negCap_iff hk hx _).2 h5⟩, ?_⟩
    cases r
    cases r0
    simp only at e1 e2 f1 f2 f1' f2'
    subst e1 e2 f1 f2 f1' f2'
    rfl

include hb hc

theorem mem_gGenReg {r : FcasRow} : r ∈ gGenReg bs cs caps ↔
    ∃ r0 ∈ fcasRows bs cs caps, r.bid = r0.bid ∧ r.init = r0.init ∧ r.capacity = r0.capacity ∧
      r.init.traderType = "BIDIRECTIONAL" ∧ r.bid.dir = some .generator ∧ isReg r.bid.service = true ∧
      0 ≤ r.bid.emax ∧ r.fmax = some r.bid.emax ∧
      ∃ x, r.fmin = some x ∧ (((∀ o ∈ bs, ¬Counterpart caps r.bid .load o) ∧ x = r.bid.emin) ∨
        ∃ o ∈ bs, Counterpart caps r.bid .load o ∧ x = o.emin) := by
  unfold gGenReg
  simp only [List.mem_filter, List.mem_flatMap, List.mem_map, decide_eq_true_eq]
  constructor
  · rintro ⟨⟨⟨r0, hr0, x, hx, rfl⟩, h1⟩, h2⟩
    obtain ⟨g1, g2, g3, g4⟩ := mem_sideReg.1 hr0
    refine ⟨r0, g1, rfl, rfl, rfl, g2, g3, g4, h1, rfl, x, rfl, ?_⟩
    rcases otherSide_cases hb hc hk VolBid.emin .load g1 g2 g4 with ⟨h3, h4⟩ | ⟨o, ho, h3, h4, _⟩
    · rw [h3, List.mem_singleton] at hx
      exact Or.inl ⟨h4, hx⟩
    · rw [h4, List.mem_singleton] at hx
      exact Or.inr ⟨o, ho, h3, hx⟩
  · rintro ⟨r0, h0, e1, e2, e3, h1, h2, h3, h4, h5, x, h6, h7⟩
    obtain ⟨_, a2, _, _, a5, _, _⟩ := (mem_fcasRows hk).1 h0
    rw [e2] at h1
    rw [e1] at h2 h3 h7
    refine ⟨⟨⟨r0, mem_sideReg.2 ⟨h0, h1, h2, h3⟩, x, ?_, ?_⟩, h4⟩, ?_⟩
    · rcases otherSide_cases hb hc hk VolBid.emin .load h0 h1 h3 with ⟨h8, h9⟩ | ⟨o, ho, h8, h9, h10⟩
      · rcases h7 with ⟨_, rfl⟩ | ⟨o, ho, h7, _⟩
        · rw [h8]; exact List.mem_singleton_self _
        · exact absurd h7 (h9 o ho)
      · rcases h7 with ⟨h7, _⟩ | ⟨o', ho', h7, rfl⟩
        · exact absurd h8 (h7 o ho)
        · rw [h9, h10 o' ho' h7]; exact List.mem_singleton_self _
    · cases r
      cases r0
      simp only at e1 e2 e3 h5 h6
      subst e1 e2 e3 h5 h6
      rfl
    · rw [e3, e1]
      exact (capAtLeast_iff hk a5 _).2 a2.2.2.2

theorem mem_gLoadReg {r : FcasRow} : r ∈ gLoadReg bs cs caps ↔
    ∃ r0 ∈ fcasRows bs cs caps, r.bid = r0.bid ∧ r.init = r0.init ∧ r.capacity = r0.capacity ∧
      r.init.traderType = "BIDIRECTIONAL" ∧ r.bid.dir = some .load ∧ isReg r.bid.service = true ∧
      r.bid.emin ≤ 0 ∧ r.fmin = some r.bid.emin ∧ CapsMeet caps r.bid.duid (some .load) (fun c => -c ≤ r.bid.emax) ∧
      ∃ x, r.fmax = some x ∧ (((∀ o ∈ bs, ¬Counterpart caps r.bid .generator o) ∧ x = r.bid.emax) ∨
        ∃ o ∈ bs, Counterpart caps r.bid .generator o ∧ x = o.emax) := by
  unfold gLoadReg
  simp only [List.mem_filter, List.mem_flatMap, List.mem_map, decide_eq_true_eq]
  constructor
  · rintro ⟨⟨⟨r0, hr0, x, hx, rfl⟩, h1⟩, h2⟩
    obtain ⟨g1, g2, g3, g4⟩ := mem_sideReg.1 hr0
    obtain ⟨_, a2, _, _, a5, _, _⟩ := (mem_fcasRows hk).1 g1
    rw [g3] at a5
    refine ⟨r0, g1, rfl, rfl, rfl, g2, g3, g4, h1, rfl, (negCap_iff hk a5 _).1 h2, x, rfl, ?_⟩
    rcases otherSide_cases hb hc hk VolBid.emax .generator g1 g2 g4 with ⟨h3, h4⟩ | ⟨o, ho, h3, h4, _⟩
    · rw [h3, List.mem_singleton] at hx
      exact Or.inl ⟨h4, hx⟩
    · rw [h4, List.mem_singleton] at hx
      exact Or.inr ⟨o, ho, h3, hx⟩
  · rintro ⟨r0, h0, e1, e2, e3, h1, h2, h3, h4, h5, hcap, x, h6, h7⟩
    obtain ⟨_, a2, _, _, a5, _, _⟩ := (mem_fcasRows hk).1 h0
    rw [e2] at h1
    rw [e1] at h2 h3 h7
    refine ⟨⟨⟨r0, mem_sideReg.2 ⟨h0, h1, h2, h3⟩, x, ?_, ?_⟩, h4⟩, ?_⟩
    · rcases otherSide_cases hb hc hk VolBid.emax .generator h0 h1 h3 with ⟨h8, h9⟩ | ⟨o, ho, h8, h9, h10⟩
      · rcases h7 with ⟨_, rfl⟩ | ⟨o, ho, h7, _⟩
        · rw [h8]; exact List.mem_singleton_self _
        · exact absurd h7 (h9 o ho)
      · rcases h7 with ⟨h7, _⟩ | ⟨o', ho', h7, rfl⟩
        · exact absurd h8 (h7 o ho)
        · rw [h9, h10 o' ho' h7]; exact List.mem_singleton_self _
    · cases r
      cases r0
      simp only at e1 e2 e3 h5 h6
      subst e1 e2 e3 h5 h6
      rfl
    · rw [e3, e1]
      rw [h2] at a5
      rw [e1] at hcap
      exact (negCap_iff hk a5 _).2 hcap

theorem bidSub {d : DType} {limit : VolBid → ℚ} {e : DType} {g : FcasRow → ℚ → FcasRow} (hg : ∀ r x, (g r x).bid = r.bid) :
    (((sideReg bs cs caps e).flatMap (fun r => (otherSide (fun o => limit o.bid) (limit r.bid)
      (sideReg bs cs caps d) r).map (g r))).map FcasRow.bid).Sublist bs := by
  refine List.Sublist.trans (flatMap_sublist (g := FcasRow.bid) ?_)
    ((sideReg_sublist.map _).trans (fcasRows_sublist hc hk))
  intro r hr
  obtain ⟨g1, g2, _, g4⟩ := mem_sideReg.1 hr
  rcases otherSide_cases hb hc hk limit d g1 g2 g4 with ⟨h3, h4⟩ | ⟨o, ho, h3, h4, _⟩
  · rw [h3]; simp [hg]
  · rw [h4]; simp [hg]

/-- No bid is listed twice. -/
theorem enabled_nodup : ((enabledRows bs cs caps).map FcasRow.bid).Nodup := by
  have hbn : bs.Nodup := hb.of_map
  have s0 := fcasRows_sublist (bs := bs) hc hk
  have hnb : ((gNotBdu bs cs caps).map FcasRow.bid).Sublist bs :=
    ((List.filter_sublist.trans (List.filter_sublist.trans List.filter_sublist)).map _).trans s0
  have hlc : ((gLoadCon bs cs caps).map FcasRow.bid).Sublist bs :=
    ((List.filter_sublist.trans (List.filter_sublist.trans (List.filter_sublist.trans List.filter_sublist))).map _).trans s0
  have hgc : ((gGenCon bs cs caps).map FcasRow.bid).Sublist bs := by
    unfold gGenCon
    refine List.Sublist.trans (flatMap_sublist (g := FcasRow.bid) ?_)
      (((List.filter_sublist.trans (List.filter_sublist.trans (List.filter_sublist.trans
        (List.filter_sublist.trans List.filter_sublist)))).map _).trans s0)
    intro r _
    obtain ⟨x, hx⟩ := caps_single hk r.bid.duid (some .load)
    rw [hx, List.filter_cons]
    by_cases h : negCapAtMost r.bid.emax x
    · rw [if_pos h]; simp
    · rw [if_neg h]; simp
  have hgr : ((gGenReg bs cs caps).map FcasRow.bid).Sublist bs := by
    refine ((List.filter_sublist.trans List.filter_sublist).map _).trans
      (bidSub hb hc hk (d := .load) (e := .generator) (limit := VolBid.emin)
        (g := fun r x => { r with fmin := some x, fmax := some r.bid.emax }) (fun _ _ => rfl))
  have hlr : ((gLoadReg bs cs caps).map FcasRow.bid).Sublist bs := by
    refine ((List.filter_sublist.trans List.filter_sublist).map _).trans
      (bidSub hb hc hk (d := .generator) (e := .load) (limit := VolBid.emax)
        (g := fun r x => { r with fmin := some r.bid.emin, fmax := some x }) (fun _ _ => rfl))
  have init_eq : ∀ r r' : FcasRow, RowFact bs cs caps r → RowFact bs cs caps r' → r.bid = r'.bid → r.init = r'.init := by
    intro r r' ⟨_, _, h1, h2⟩ ⟨_, _, h3, h4⟩ e
    exact uniq_row hc h1 h3 (by rw [h2, h4, e])
  have f1 : ∀ r ∈ gNotBdu bs cs caps, RowFact bs cs caps r ∧ r.init.traderType ≠ "BIDIRECTIONAL" := fun r hr =>
    let h := (mem_gNotBdu hk).1 hr
    ⟨rowFact hk h.1, h.2.1⟩
  have f2 : ∀ r ∈ gLoadCon bs cs caps, RowFact bs cs caps r ∧ r.init.traderType = "BIDIRECTIONAL" ∧
      r.bid.dir = some .load ∧ isReg r.bid.service = false := fun r hr =>
    let h := mem_gLoadCon.1 hr
    ⟨rowFact hk h.1, h.2.1, h.2.2.1, h.2.2.2.1⟩
  have f3 : ∀ r ∈ gGenCon bs cs caps, RowFact bs cs caps r ∧ r.init.traderType = "BIDIRECTIONAL" ∧
      r.bid.dir = some .generator ∧ isReg r.bid.service = false := by
    intro r hr
    obtain ⟨r0, h0, e1, e2, _, _, _, h1, h2, h3, _⟩ := (mem_gGenCon hk).1 hr
    have := rowFact hk h0
    unfold RowFact at this ⊢
    rw [← e1, ← e2] at this
    exact ⟨this, h1, h2, h3⟩
  have f4 : ∀ r ∈ gGenReg bs cs caps, RowFact bs cs caps r ∧ r.init.traderType = "BIDIRECTIONAL" ∧
      r.bid.dir = some .generator ∧ isReg r.bid.service = true := by
    intro r hr
    obtain ⟨r0, h0, e1, e2, _, h1, h2, h3, _⟩ := (mem_gGenReg hb hc hk).1 hr
    have := rowFact hk h0
    unfold RowFact at this ⊢
    rw [← e1, ← e2] at this
    exact ⟨this, h1, h2, h3⟩
  have f5 : ∀ r ∈ gLoadReg bs cs caps, RowFact bs cs caps r ∧ r.init.traderType = "BIDIRECTIONAL" ∧
      r.bid.dir = some .load ∧ isReg r.bid.service = true := by
    intro r hr
    obtain ⟨r0, h0, e1, e2, _, h1, h2, h3, _⟩ := (mem_gLoadReg hb hc hk).1 hr
    have := rowFact hk h0
    unfold RowFact at this ⊢
    rw [← e1, ← e2] at this
    exact ⟨this, h1, h2, h3⟩
  have big : ((gLoadCon bs cs caps ++ gGenCon bs cs caps ++ gNotBdu bs cs caps ++
      (gGenReg bs cs caps ++ gLoadReg bs cs caps)).map FcasRow.bid).Nodup := by
    simp only [List.map_append]
    rw [List.nodup_append, List.nodup_append, List.nodup_append, List.nodup_append]
    refine ⟨⟨⟨hlc.nodup hbn, hgc.nodup hbn, ?_⟩, hnb.nodup hbn, ?_⟩, ⟨hgr.nodup hbn, hlr.nodup hbn, ?_⟩, ?_⟩
    · intro a ha b hb' e
      obtain ⟨r, hr, rfl⟩ := List.mem_map.1 ha
      obtain ⟨r', hr', rfl⟩ := List.mem_map.1 hb'
      have x1 := (f2 r hr).2.2.1
      have x2 := (f3 r' hr').2.2.1
      rw [e, x2] at x1
      cases x1
    · intro a ha b hb' e
      obtain ⟨r', hr', rfl⟩ := List.mem_map.1 hb'
      rcases List.mem_append.1 ha with ha | ha
      · obtain ⟨r, hr, rfl⟩ := List.mem_map.1 ha
        have x := init_eq r r' (f2 r hr).1 (f1 r' hr').1 e
        exact (f1 r' hr').2 (x ▸ (f2 r hr).2.1)
      · obtain ⟨r, hr, rfl⟩ := List.mem_map.1 ha
        have x := init_eq r r' (f3 r hr).1 (f1 r' hr').1 e
        exact (f1 r' hr').2 (x ▸ (f3 r hr).2.1)
    · intro a ha b hb' e
      obtain ⟨r, hr, rfl⟩ := List.mem_map.1 ha
      obtain ⟨r', hr', rfl⟩ := List.mem_map.1 hb'
      have x1 := (f4 r hr).2.2.1
      have x2 := (f5 r' hr').2.2.1
      rw [e, x2] at x1
      cases x1
    · intro a ha b hb' e
      have hB : ∃ r', b = FcasRow.bid r' ∧ RowFact bs cs caps r' ∧ r'.init.traderType = "BIDIRECTIONAL" ∧
          isReg r'.bid.service = true := by
        rcases List.mem_append.1 hb' with hb' | hb'
        · obtain ⟨r, hr, rfl⟩ := List.mem_map.1 hb'
          exact ⟨r, rfl, (f4 r hr).1, (f4 r hr).2.1, (f4 r hr).2.2.2⟩
        · obtain ⟨r, hr, rfl⟩ := List.mem_map.1 hb'
          exact ⟨r, rfl, (f5 r hr).1, (f5 r hr).2.1, (f5 r hr).2.2.2⟩
      obtain ⟨r', rfl, g1, g2, g3⟩ := hB
      rcases List.mem_append.1 ha with ha | ha
      · rcases List.mem_append.1 ha with ha | ha
        · obtain ⟨r, hr, rfl⟩ := List.mem_map.1 ha
          have x := (f2 r hr).2.2.2
          rw [e, g3] at x
          cases x
        · obtain ⟨r, hr, rfl⟩ := List.mem_map.1 ha
          have x := (f3 r hr).2.2.2
          rw [e, g3] at x
          cases x
      · obtain ⟨r, hr, rfl⟩ := List.mem_map.1 ha
        have x := init_eq r r' (f1 r hr).1 g1 e
        exact (f1 r hr).2 (x.trans rfl ▸ g2)
  rw [enabledRows_eq]
  refine List.Nodup.sublist (List.Sublist.map _ ?_) big
  exact List.filter_sublist.trans (List.filter_sublist.append List.filter_sublist)

theorem initMw_two {r : FcasRow} (h : r.init.traderType = "BIDIRECTIONAL") : r.initMw = r.init.initMw := by
  unfold FcasRow.initMw FcasRow.bdu
  cases r.init.initMw with
  | none => rfl
  | some x =>
    simp [h]

theorem initMw_one {r : FcasRow} (h : r.init.traderType ≠ "BIDIRECTIONAL") :
    r.initMw = r.init.initMw.map (fun x => max x 0) := by
  unfold FcasRow.initMw FcasRow.bdu
  cases r.init.initMw with
  | none => rfl
  | some x =>
    simp only [Option.map_some, Option.some.injEq, decide_eq_false_iff_not]
    by_cases h0 : x < 0
    · rw [if_pos ⟨h0, h⟩, max_eq_right (le_of_lt h0)]
    · rw [if_neg (fun g => h0 g.1), max_eq_left (not_lt.1 h0)]

theorem within_iff {lo hi : ℚ} {mw : Option ℚ} :
    within lo hi mw = true ↔ ∃ x, mw = some x ∧ lo ≤ round5 x ∧ round5 x ≤ hi := by
  unfold within
  cases mw with
  | none => simp
  | some x =>
    simp only [Bool.and_eq_true, decide_eq_true_eq, Option.some.injEq]
    constructor
    · rintro ⟨h1, h2⟩; exact ⟨x, rfl, h2, h1⟩
    · rintro ⟨y, rfl, h1, h2⟩; exact ⟨h2, h1⟩

theorem agc_iff {r : FcasRow} : (!(decide (r.init.agc = some 0) && isReg r.bid.service)) = true ↔
    (isReg r.bid.service = true → r.init.agc ≠ some 0) := by
  cases isReg r.bid.service <;> simp

/-- exactly the bids that meet the conditions -/
theorem mem_enabled {b : VolBid} : b ∈ (enabledRows bs cs caps).map FcasRow.bid ↔ b ∈ bs ∧ Enabled bs cs caps b := by
  rw [enabledRows_eq]
  simp only [List.mem_map, List.mem_filter, List.mem_append, agc_iff hb hc hk, within_iff hb hc hk]
  constructor
  · rintro ⟨r, ⟨h, hagc⟩, rfl⟩
    rcases h with ⟨(h | h) | h, mw, hmw, hlo, hhi⟩ | ⟨h | h, mw, hmw, hlo, hhi⟩
    · obtain ⟨h0, h1, h2, h3, h4⟩ := mem_gLoadCon.1 h
      obtain ⟨a1, a2, a3, a4⟩ := rowFact hk h0
      rw [initMw_two hb hc hk h1] at hmw
      exact ⟨a1, a2, r.init, a3, a4, hagc, mw, hmw, Or.inr ⟨h1, Or.inr ⟨h2, h4, hlo, fun _ => hhi,
        fun h5 => by rw [h3] at h5; cases h5⟩⟩⟩
    · obtain ⟨r0, h0, e1, e2, _, _, _, h1, h2, h3, h4, h5⟩ := (mem_gGenCon hk).1 h
      obtain ⟨a1, a2, a3, a4⟩ := rowFact hk h0
      rw [← e1] at a1 a2 a4
      rw [← e2] at a3 a4
      rw [initMw_two hb hc hk h1] at hmw
      exact ⟨a1, a2, r.init, a3, a4, hagc, mw, hmw, Or.inr ⟨h1, Or.inl ⟨h2, h4, hhi, fun _ => ⟨hlo, h5⟩,
        fun h5 => by rw [h3] at h5; cases h5⟩⟩⟩
    · obtain ⟨h0, h1, h2⟩ := (mem_gNotBdu hk).1 h
      obtain ⟨a1, a2, a3, a4⟩ := rowFact hk h0
      rw [initMw_one hb hc hk h1] at hmw
      cases hi : r.init.initMw with
      | none => rw [hi] at hmw; cases hmw
      | some y =>
        rw [hi] at hmw
        injection hmw with hmw
        subst hmw
        exact ⟨a1, a2, r.init, a3, a4, hagc, y, hi, Or.inl ⟨h1, h2, hlo, hhi⟩⟩
    · obtain ⟨r0, h0, e1, e2, _, h1, h2, h3, h4, h5, x, h6, h7⟩ := (mem_gGenReg hb hc hk).1 h
      obtain ⟨a1, a2, a3, a4⟩ := rowFact hk h0
      rw [← e1] at a1 a2 a4
      rw [← e2] at a3 a4
      rw [h5] at hhi
      rw [h6] at hlo
      simp only [Option.getD_some] at hlo hhi
      refine ⟨a1, a2, r.init, a3, a4, hagc, mw, hmw, Or.inr ⟨h1, Or.inl ⟨h2, h4, hhi, ?_, fun _ => ⟨?_, ?_⟩⟩⟩⟩
      · intro h8; rw [h3] at h8; cases h8
      · intro o ho hco
        rcases h7 with ⟨h7, _⟩ | ⟨o', ho', h7, rfl⟩
        · exact absurd hco (h7 o ho)
        · have hkey : VolBid.key o = VolBid.key o' := by
            unfold VolBid.key
            rw [hco.2.1, hco.2.2.1, hco.2.2.2, h7.2.1, h7.2.2.1, h7.2.2.2]
          have h9 := rowFor_mem hb ho
          rw [hkey, rowFor_mem hb ho'] at h9
          injection h9 with h9
          rw [← h9]; exact hlo
      · intro hno
        rcases h7 with ⟨_, rfl⟩ | ⟨o', ho', h7, _⟩
        · exact hlo
        · exact absurd h7 (hno o' ho')
    · obtain ⟨r0, h0, e1, e2, _, h1, h2, h3, h4, h5, hcap, x, h6, h7⟩ := (mem_gLoadReg hb hc hk).1 h
      obtain ⟨a1, a2, a3, a4⟩ := rowFact hk h0
      rw [← e1] at a1 a2 a4
      rw [← e2] at a3 a4
      rw [h5] at hlo
      rw [h6] at hhi
      simp only [Option.getD_some] at hlo hhi
      refine ⟨a1, a2, r.init, a3, a4, hagc, mw, hmw, Or.inr ⟨h1, Or.inr ⟨h2, h4, hlo, ?_, fun _ => ⟨hcap, ?_, ?_⟩⟩⟩⟩
      · intro h8; rw [h3] at h8; cases h8
      · intro o ho hco
        rcases h7 with ⟨h7, _⟩ | ⟨o', ho', h7, rfl⟩
        · exact absurd hco (h7 o ho)
        · have hkey : VolBid.key o = VolBid.key o' := by
            unfold VolBid.key
            rw [hco.2.1, hco.2.2.1, hco.2.2.2, h7.2.1, h7.2.2.1, h7.2.2.2]
          have h9 := rowFor_mem hb ho
          rw [hkey, rowFor_mem hb ho'] at h9
          injection h9 with h9
          rw [← h9]; exact hhi
      · intro hno
        rcases h7 with ⟨_, rfl⟩ | ⟨o', ho', h7, _⟩
        · exact hhi
        · exact absurd h7 (hno o' ho')
  · rintro ⟨hbm, hoff, c, hcm, hce, hagc, mw, hmw, hcase⟩
    obtain ⟨x, hx⟩ := caps_single hk b.duid b.dir
    have hrow : (⟨b, x, c, none, none⟩ : FcasRow) ∈ fcasRows bs cs caps :=
      (mem_fcasRows hk).2 ⟨hbm, hoff, hcm, hce, by rw [hx]; exact List.mem_singleton_self x, rfl, rfl⟩
    rcases hcase with ⟨ht, h0, hlo, hhi⟩ | ⟨ht, hcase⟩
    · refine ⟨⟨b, x, c, none, none⟩, ⟨Or.inl ⟨Or.inr ((mem_gNotBdu hk).2 ⟨hrow, ht, h0⟩), max mw 0, ?_, hlo, hhi⟩, hagc⟩, rfl⟩
      rw [initMw_one hb hc hk ht]
      show c.initMw.map _ = _
      rw [hmw]
      rfl
    · rcases hcase with ⟨hd, h0, hhi, hcon, hreg⟩ | ⟨hd, h0, hlo, hcon, hreg⟩
      · cases hs : isReg b.service with
        | false =>
          obtain ⟨hlo, hcap⟩ := hcon hs
          obtain ⟨y, hy⟩ := caps_single hk b.duid (some .load)
          refine ⟨⟨b, y, c, none, none⟩, ⟨Or.inl ⟨Or.inl (Or.inr ((mem_gGenCon hk).2 ⟨_, hrow, rfl, rfl, rfl, rfl,
            by rw [hy]; exact List.mem_singleton_self y, ht, hd, hs, h0, hcap⟩)), mw, ?_, hlo, hhi⟩, hagc⟩, rfl⟩
          rw [initMw_two hb hc hk ht]
          exact hmw
        | true =>
          obtain ⟨h1, h2⟩ := hreg hs
          by_cases hex : ∃ o ∈ bs, Counterpart caps b .load o
          · obtain ⟨o, ho, hco⟩ := hex
            exact ⟨⟨b, x, c, some o.emin, some b.emax⟩, ⟨Or.inr ⟨Or.inl ((mem_gGenReg hb hc hk).2 ⟨_, hrow, rfl, rfl, rfl,
              ht, hd, hs, h0, rfl, o.emin, rfl, Or.inr ⟨o, ho, hco, rfl⟩⟩), mw, hmw, h1 o ho hco, hhi⟩, hagc⟩, rfl⟩
          · push Not at hex
            exact ⟨⟨b, x, c, some b.emin, some b.emax⟩, ⟨Or.inr ⟨Or.inl ((mem_gGenReg hb hc hk).2 ⟨_, hrow, rfl, rfl, rfl,
              ht, hd, hs, h0, rfl, b.emin, rfl, Or.inl ⟨hex, rfl⟩⟩), mw, hmw, h2 hex, hhi⟩, hagc⟩, rfl⟩
      · cases hs : isReg b.service with
        | false =>
          have hhi := hcon hs
          refine ⟨⟨b, x, c, none, none⟩, ⟨Or.inl ⟨Or.inl (Or.inl (mem_gLoadCon.2 ⟨hrow, ht, hd, hs, h0⟩)), mw, ?_, hlo, hhi⟩,
            hagc⟩, rfl⟩
          rw [initMw_two hb hc hk ht]
          exact hmw
        | true =>
          obtain ⟨hcap, h1, h2⟩ := hreg hs
          by_cases hex : ∃ o ∈ bs, Counterpart caps b .generator o
          · obtain ⟨o, ho, hco⟩ := hex
            exact ⟨⟨b, x, c, some b.emin, some o.emax⟩, ⟨Or.inr ⟨Or.inr ((mem_gLoadReg hb hc hk).2 ⟨_, hrow, rfl, rfl, rfl,
              ht, hd, hs, h0, rfl, hcap, o.emax, rfl, Or.inr ⟨o, ho, hco, rfl⟩⟩), mw, hmw, hlo, h1 o ho hco⟩, hagc⟩, rfl⟩
          · push Not at hex
            exact ⟨⟨b, x, c, some b.emin, some b.emax⟩, ⟨Or.inr ⟨Or.inr ((mem_gLoadReg hb hc hk).2 ⟨_, hrow, rfl, rfl, rfl,
              ht, hd, hs, h0, rfl, hcap, b.emax, rfl, Or.inl ⟨hex, rfl⟩⟩), mw, hmw, hlo, h2 hex⟩, hagc⟩, rfl⟩

end

end Verif.Units
