import Verif.Proofs.Balance
import Verif.Proofs.Demo

/-!
# Regional balance, FCAS requirements, interconnectors, losses and generic constraints: C13, C14, C19, C20, C21, C22, C42
-/

namespace Verif

/-! ### C13 -/

/-- **C13**, exact form: the demand constraints say exactly that in every region of the demand table which has an energy
bid or a link, net supply plus import less charged losses equals demand. -/
theorem C13_regional_balance_exact {ds : List Demand} {fs : List LossFn} {m : Market} (h : InForce (.demand ds none) m)
    (hf : LossFunctions fs m) (hp : m.properLinks fs) {lp : Lp} (hl : m.assemble = .ok lp) {x : Nat → ℚ} :
    m.obeys lp x .demand ↔ ∀ d ∈ ds, m.hasSupply d.region .energy ∨ m.hasLink d.region →
      m.supply x d.region .energy + m.netImport x d.region - m.chargedLoss x fs d.region = d.demand :=
  demand_iff h hf hp hl

/-- **C13** In every feasible solution the energy balance of a region holds. -/
theorem C13_regional_balance {ds : List Demand} {fs : List LossFn} {m : Market} (h : InForce (.demand ds none) m)
    (hf : LossFunctions fs m) (hp : m.properLinks fs) {lp : Lp} (hl : m.assemble = .ok lp) {x : Nat → ℚ} (hx : Feasible lp x)
    {d : Demand} (hd : d ∈ ds) (hs : m.hasSupply d.region .energy ∨ m.hasLink d.region) :
    m.supply x d.region .energy + m.netImport x d.region - m.chargedLoss x fs d.region = d.demand :=
  (C13_regional_balance_exact h hf hp hl).1 (hx.obeys m _) d hd hs

/-! ### C14 -/

/-- **C14**, exact form: the FCAS requirement constraints say exactly that for each requirement set the enabled volume
over its regions and services, plus any terms linked to a set of the same name, is related to the volume of the first
row of the set by the type of that row. -/
theorem C14_fcas_requirements_exact {rs : List FcasReq} {fs : List LossFn} {m : Market} (h : InForce (.fcasReq rs none) m)
    (hs : ∀ r ∈ rs, r.service ≠ .energy) (hf : LossFunctions fs m) {lp : Lp} (hl : m.assemble = .ok lp) {x : Nat → ℚ} :
    m.obeys lp x .fcas ↔ ∀ r, FirstOfSet rs r → (∃ q ∈ rs, q.set = r.set ∧ m.hasSupply q.region q.service) ∨ m.hasLinked r.set →
      r.ctype.holds (m.setSupply x rs r.set + m.linked x r.set) r.volume :=
  fcas_iff h hs hf hl

/-- **C14** In every feasible solution the FCAS enabled over the regions and services of a requirement set meets the
requirement (for sets to which nothing is linked by the generic constraint links). -/
theorem C14_fcas_requirements {rs : List FcasReq} {fs : List LossFn} {m : Market} (h : InForce (.fcasReq rs none) m)
    (hs : ∀ r ∈ rs, r.service ≠ .energy) (hf : LossFunctions fs m) {lp : Lp} (hl : m.assemble = .ok lp) {x : Nat → ℚ}
    (hx : Feasible lp x) {r : FcasReq} (hr : FirstOfSet rs r) (hq : ∃ q ∈ rs, q.set = r.set ∧ m.hasSupply q.region q.service)
    (hu : ∀ g ∈ m.gUnit.getD [], g.set ≠ r.set) (hg : ∀ g ∈ m.gRegion.getD [], g.set ≠ r.set)
    (hi : ∀ g ∈ m.gInter.getD [], g.set ≠ r.set) : r.ctype.holds (m.setSupply x rs r.set) r.volume := by
  have := (C14_fcas_requirements_exact h hs hf hl).1 (hx.obeys m _) r hr (Or.inl hq)
  have e : m.linked x r.set = 0 := by
    unfold Market.linked
    rw [List.filter_eq_nil_iff.2 (by simpa using hu), List.filter_eq_nil_iff.2 (by simpa using hg),
      List.filter_eq_nil_iff.2 (by simpa using hi)]
    simp
  rwa [e, add_zero] at this

/-! ### C19, C42 -/

/-- **C19** In every feasible solution the flow of each link is within its limits. -/
theorem C19_flow_limits {ds : List InterDef} {m : Market} (h : InForce (.interconnectors ds) m) {lp : Lp} (hl : m.assemble = .ok lp)
    {x : Nat → ℚ} (hx : Feasible lp x) {d : InterDef} (hd : d ∈ ds) : d.min ≤ m.flow x d.inter d.link ∧ m.flow x d.inter d.link ≤ d.max := by
  obtain ⟨n, hw, e1, e2, hok⟩ := inters_set h
  obtain ⟨i, hi⟩ := List.mem_iff_getElem?.1 hd
  have e : m.flow x d.inter d.link = x (n + i) := by
    unfold Market.flow
    rw [e2, Option.getD_some, flow_at (interKeys hok) hi]
    simp
  have hv : (⟨n + i, d.min, some d.max⟩ : LVar) ∈ lp.vars := by
    rw [(assemble_parts hl).1]
    unfold Market.allVars
    refine List.mem_append_left _ (List.mem_append_left _ (List.mem_append_left _ (List.mem_append_right _ ?_)))
    rw [e2, Option.getD_some, List.mem_map]
    exact ⟨⟨d.inter, d.link, n + i, d.min, d.max, d.gcf⟩, mem_saveIndex.2 ⟨i, d, hi, rfl⟩, rfl⟩
  have := hx.vars _ hv
  rw [e]
  exact ⟨this.1, this.2 d.max rfl⟩

/-- **C19** The table of links in the regional balance of C13 is the one given: the import of a region is the flow of
the links to it times their to region factor less the flow of the links from it times their from region factor. -/
theorem C19_contribution {ds : List InterDef} {m : Market} (h : InForce (.interconnectors ds) m) (x : Nat → ℚ) (r : String) :
    m.netImport x r = (ds.map (fun d => (if d.toR = r then d.toLf * m.flow x d.inter d.link else 0) -
      (if d.fromR = r then d.fromLf * m.flow x d.inter d.link else 0))).sum := by
  obtain ⟨n, hw, e1, e2, hok⟩ := inters_set h
  unfold Market.netImport
  rw [e1, Option.getD_some]

/-- **C19** With unit loss factors the imports of all regions cancel. -/
theorem C19_flows_cancel {ds : List InterDef} {m : Market} (h : InForce (.interconnectors ds) m)
    (h1 : ∀ d ∈ ds, d.toLf = 1 ∧ d.fromLf = 1) (x : Nat → ℚ) : ((m.regions.dedup).map (m.netImport x)).sum = 0 := by
  obtain ⟨n, hw, e1, e2, hok⟩ := inters_set h
  apply netImport_cancel
  · rw [e1, Option.getD_some]
    intro d hd
    simp only [Market.interDefsOk, Bool.and_eq_true, List.all_eq_true, decide_eq_true_eq] at hok
    have := hok.1 d hd
    exact ⟨this.1.1.1.1, this.1.1.1.2⟩
  · rw [e1, Option.getD_some]; exact h1

/-- **C42** In every feasible solution at most one link of a market interconnector (whose links have names of their
own) carries flow. -/
theorem C42_one_link {ds : List InterDef} {m : Market} (h : InForce (.interconnectors ds) m) {lp : Lp} (hl : m.assemble = .ok lp)
    {x : Nat → ℚ} (hx : Feasible lp x) {d d' : InterDef} (hd : d ∈ ds) (hd' : d' ∈ ds) (hi : d.inter = d'.inter)
    (h1 : d.inter ≠ d.link) (h2 : d'.inter ≠ d'.link) (f1 : m.flow x d.inter d.link ≠ 0) (f2 : m.flow x d'.inter d'.link ≠ 0) : d = d' := by
  obtain ⟨n, hw, e1, e2, hok⟩ := inters_set h
  obtain ⟨i, hi1⟩ := List.mem_iff_getElem?.1 hd
  obtain ⟨j, hj1⟩ := List.mem_iff_getElem?.1 hd'
  have fl : ∀ (i : Nat) (d : InterDef), ds[i]? = some d → m.flow x d.inter d.link = x (n + i) := by
    intro i d hi
    unfold Market.flow
    rw [e2, Option.getD_some, flow_at (interKeys hok) hi]
    simp
  rw [fl i d hi1] at f1
  rw [fl j d' hj1] at f2
  have mem : ∀ (i : Nat) (d : InterDef), ds[i]? = some d → d.inter ≠ d.link →
      (⟨d.inter, d.link, n + i, d.min, d.max, d.gcf⟩ : InterVar) ∈ (interVariables ds n).filter (fun v => decide (v.inter ≠ v.link)) := by
    intro i d hi hne
    exact List.mem_filter.2 ⟨mem_saveIndex.2 ⟨i, d, hi, rfl⟩, by simpa using hne⟩
  have hg := mem_groupBy (key := InterVar.inter) (mem i d hi1 h1)
  have hs : Sos1 x (((interVariables ds n).filter (fun v => decide (v.inter ≠ v.link))).filter
      (fun b => decide (b.inter = d.inter)) |>.map InterVar.vid) := by
    apply hx.sos1
    rw [(assemble_parts hl).2.2.2.1, Market.sos1Groups, e2, Option.getD_some, List.mem_map]
    exact ⟨_, hg, rfl⟩
  have a1 : n + i ∈ (((interVariables ds n).filter (fun v => decide (v.inter ≠ v.link))).filter
      (fun b => decide (b.inter = d.inter))).map InterVar.vid :=
    List.mem_map.2 ⟨_, List.mem_filter.2 ⟨mem i d hi1 h1, decide_eq_true (p := d.inter = d.inter) rfl⟩, rfl⟩
  have a2 : n + j ∈ (((interVariables ds n).filter (fun v => decide (v.inter ≠ v.link))).filter
      (fun b => decide (b.inter = d.inter))).map InterVar.vid :=
    List.mem_map.2 ⟨_, List.mem_filter.2 ⟨mem j d' hj1 h2, decide_eq_true (p := d'.inter = d.inter) hi.symm⟩, rfl⟩
  have := hs _ a1 _ a2 f1 f2
  have : i = j := by omega
  subst this
  rw [hi1] at hj1
  injection hj1

/-- **C42** Generic constraints see the flow of the one used link of a market interconnector with the sign of its
generic constraint factor. -/
theorem C42_generic_sign {ds : List InterDef} {m : Market} (h : InForce (.interconnectors ds) m) {lp : Lp} (hl : m.assemble = .ok lp)
    {x : Nat → ℚ} (hx : Feasible lp x) {d : InterDef} (hd : d ∈ ds) (hm : ∀ e ∈ ds, e.inter = d.inter → e.inter ≠ e.link)
    (hf : m.flow x d.inter d.link ≠ 0) : m.interTotal x d.inter = d.gcf * m.flow x d.inter d.link := by
  obtain ⟨n, hw, e1, e2, hok⟩ := inters_set h
  have hz : ∀ e ∈ ds, e.inter = d.inter → e ≠ d → m.flow x e.inter e.link = 0 := by
    intro e he hi hne
    by_contra hc
    exact hne (C42_one_link h hl hx he hd hi (hm e he hi) (hm d hd rfl) hc hf)
  unfold Market.interTotal
  rw [e1, Option.getD_some, sum_filter_eq_ite]
  have hk := interKeys hok
  have h3 := filter_key_unique hk hd
  have h4 := sum_filter_eq_ite ds (fun e => decide ((e.inter, e.link) = (d.inter, d.link))) (fun e => e.gcf * m.flow x e.inter e.link)
  rw [h3] at h4
  simp only [List.map_cons, List.map_nil, List.sum_cons, List.sum_nil, add_zero] at h4
  rw [h4]
  apply sum_map_congr
  intro e he
  by_cases c1 : e.inter = d.inter
  · by_cases c2 : e.link = d.link
    · simp [c1, c2]
    · have : e ≠ d := fun h => c2 (by rw [h])
      rw [if_pos (by simpa using c1), if_neg (by simp [c2]), hz e he c1 this, mul_zero]
  · rw [if_neg (by simpa using c1), if_neg (by simp [c1])]

/-! ### C20, C21 -/

/-- **C20** In every feasible solution the loss of a link with a loss function and (increasing) break points is the
piecewise linear interpolation of its loss function at the flow; in particular the flow is within the break points. -/
theorem C20_losses_interpolate {fs : List LossFn} {bs : List BreakPt} {m : Market} (h : InForceKeeping [.inters] (.losses fs bs) m)
    {lp : Lp} (hl : m.assemble = .ok lp) {x : Nat → ℚ} (hx : Feasible lp x) {f : LossFn} (hf : f ∈ fs)
    (hp : pointsOf bs f.inter f.link ≠ []) (hinc : Increasing (pointsOf bs f.inter f.link)) :
    Interpolates f.fn ((pointsOf bs f.inter f.link).map BreakPt.bp) (m.flow x f.inter f.link) (m.linkLoss x f.inter f.link) := by
  obtain ⟨ds, n, nv, nc, n1, n2, nw, ht⟩ := losses_set (by simp) h
  refine ht.interpolates hl hx hf ?_ hp hinc
  obtain ⟨b, hb⟩ := List.exists_mem_of_ne_nil _ hp
  simp only [pointsOf, List.mem_filter, decide_eq_true_eq] at hb
  obtain ⟨d, hd, d1, d2⟩ := ht.known b hb.1
  exact ⟨d, hd, d1.trans hb.2.1, d2.trans hb.2.2⟩

/-- **C21** The from region is charged its share of the loss, the to region the rest, other regions nothing. -/
theorem C21_shares {fs : List LossFn} {m : Market} (h : LossFunctions fs m) (hp : m.properLinks fs) {ds : List Demand}
    (hd : InForce (.demand ds none) m) {lp : Lp} (hl : m.assemble = .ok lp) {x : Nat → ℚ} (hx : Feasible lp x) {d : Demand} (hm : d ∈ ds)
    (hs : m.hasSupply d.region .energy ∨ m.hasLink d.region) :
    m.supply x d.region .energy + m.netImport x d.region - d.demand = ((m.dirs.getD []).map (fun e =>
      ((fs.filter (fun f => decide (f.inter = e.inter ∧ f.link = e.link))).map (fun f =>
        if d.region = e.fromR then f.share * m.linkLoss x e.inter e.link
        else if d.region = e.toR then (1 - f.share) * m.linkLoss x e.inter e.link else 0)).sum)).sum := by
  have := C13_regional_balance hd h hp hl hx hm hs
  rw [← this]
  unfold Market.chargedLoss lossCharge
  ring

/-- **C21** The two charges for a link sum to its loss. -/
theorem C21_full_allocation (fromR toR : String) (h : fromR ≠ toR) (share loss : ℚ) :
    lossCharge fromR toR share loss fromR + lossCharge fromR toR share loss toR = loss := by
  unfold lossCharge
  rw [if_pos rfl, if_neg (Ne.symm h), if_pos rfl]
  ring

/-- **C21** Over all regions the charged losses sum to the losses of all links with a loss function. -/
theorem C21_total {fs : List LossFn} {m : Market} (hr : Reached m) (hp : m.properLinks fs) (x : Nat → ℚ) :
    ((m.regions.dedup).map (m.chargedLoss x fs)).sum = ((m.dirs.getD []).map (fun d =>
      ((fs.filter (fun f => decide (f.inter = d.inter ∧ f.link = d.link))).map (fun _ => m.linkLoss x d.inter d.link)).sum)).sum := by
  obtain ⟨r, u, di, m0, ops, h1, h2, rfl⟩ := hr
  have hw := wf_run h1 h2
  generalize m0.run ops = m at *
  have hreg : ∀ d ∈ m.dirs.getD [], d.toR ∈ m.regions ∧ d.fromR ∈ m.regions := by
    rcases hw.inter with ⟨a, _, _⟩ | ⟨ds, n, e1, e2, e3, hok⟩
    · rw [a]; simp
    · rw [e1, Option.getD_some]
      intro d hd
      simp only [Market.interDefsOk, Bool.and_eq_true, List.all_eq_true, decide_eq_true_eq] at hok
      have := hok.1 d hd
      exact ⟨this.1.1.1.1, this.1.1.1.2⟩
  unfold Market.chargedLoss
  rw [sum_comm]
  apply sum_map_congr
  intro d hd
  rw [sum_comm]
  apply sum_map_congr
  intro f hf
  simp only [List.mem_filter, decide_eq_true_eq] at hf
  have hne := hp d hd f hf.1 hf.2.1 hf.2.2
  have one : ∀ (s : String) (c : ℚ), s ∈ m.regions → ((m.regions.dedup).map (fun r => if r = s then c else 0)).sum = c := by
    intro s c hs
    have h2 := filter_key_unique (key := fun r : String => r) (l := m.regions.dedup) (a := s) (by simpa using List.nodup_dedup _) (List.mem_dedup.2 hs)
    have h3 := sum_filter_eq_ite (m.regions.dedup) (fun r => decide (r = s)) (fun _ => c)
    rw [h2] at h3
    simp only [List.map_cons, List.map_nil, List.sum_cons, List.sum_nil, add_zero, decide_eq_true_eq] at h3
    exact h3.symm
  have e : (fun r => lossCharge d.fromR d.toR f.share (m.linkLoss x d.inter d.link) r) = fun r =>
      (if r = d.fromR then f.share * m.linkLoss x d.inter d.link else 0) + (if r = d.toR then (1 - f.share) * m.linkLoss x d.inter d.link else 0) := by
    funext r
    unfold lossCharge
    by_cases c1 : r = d.fromR
    · have : r ≠ d.toR := fun h => hne (c1.symm.trans h)
      rw [if_pos c1, if_pos c1, if_neg this, add_zero]
    · rw [if_neg c1, if_neg c1, zero_add]
  rw [e, sum_map_add, one _ _ (hreg d hd).2, one _ _ (hreg d hd).1]
  ring

/-! ### C22 -/

/-- **C22**, exact form: the generic constraints say exactly that for each set with something linked to it, the linked
terms times their coefficients satisfy the constraint. -/
theorem C22_generic_exact {gs : List GenericRow} {m : Market} (h : InForce (.generic gs none) m) {lp : Lp} (hl : m.assemble = .ok lp)
    {x : Nat → ℚ} : m.obeys lp x .generic ↔ ∀ g ∈ gs, m.hasLinked g.set → g.ctype.holds (m.linked x g.set) g.rhs :=
  generic_iff h hl

/-- **C22** In every feasible solution every generic constraint with something linked to it holds. -/
theorem C22_generic {gs : List GenericRow} {m : Market} (h : InForce (.generic gs none) m) {lp : Lp} (hl : m.assemble = .ok lp)
    {x : Nat → ℚ} (hx : Feasible lp x) {g : GenericRow} (hg : g ∈ gs) (hk : m.hasLinked g.set) :
    g.ctype.holds (m.linked x g.set) g.rhs :=
  (C22_generic_exact h hl).1 (hx.obeys m _) g hg hk

/-- **C22** The linked terms are those of the link calls in force, in whatever order the calls were made. -/
theorem C22_links {m : Market} {gu : List GUnit} {gr : List GRegion} {gi : List GInter} (hu : InForce (.linkUnits gu) m)
    (hr : InForce (.linkRegions gr) m) (hi : InForce (.linkInters gi) m) (x : Nat → ℚ) (set : String) :
    m.linked x set = ((gu.filter (fun g => decide (g.set = set))).map (fun g => g.coef * m.unitTotal x g.unit g.service)).sum +
      ((gr.filter (fun g => decide (g.set = set))).map (fun g => g.coef * m.regionTotal x g.region g.service)).sum +
      ((gi.filter (fun g => decide (g.set = set))).map (fun g => g.coef * m.interTotal x g.inter)).sum := by
  have e1 : m.gUnit = some gu := by
    obtain ⟨a, ha, hm, hok, hb, hs⟩ := hu.unpack
    have hn := step_ok hok
    have hs := hs .gUnit (by simp [Op.parts])
    simp only [SamePart] at hs
    simp only [Market.step, hn, Market.linkUnits, Bool.false_eq_true, if_false] at hok hs
    split at hok
    · simp at hok
    · rename_i hc; rw [if_neg hc] at hs; exact hs
  have e2 : m.gRegion = some gr := by
    obtain ⟨a, ha, hm, hok, hb, hs⟩ := hr.unpack
    have hn := step_ok hok
    have hs := hs .gRegion (by simp [Op.parts])
    simp only [SamePart] at hs
    simp only [Market.step, hn, Market.linkRegions, Bool.false_eq_true, if_false] at hok hs
    split at hok
    · simp at hok
    · rename_i hc; rw [if_neg hc] at hs; exact hs
  have e3 : m.gInter = some gi := by
    obtain ⟨a, ha, hm, hok, hb, hs⟩ := hi.unpack
    have hn := step_ok hok
    have hs := hs .gInter (by simp [Op.parts])
    simp only [SamePart] at hs
    simp only [Market.step, hn, Market.linkInters, Bool.false_eq_true, if_false] at hok hs
    split at hok
    · simp at hok
    · rename_i hc; rw [if_neg hc] at hs; exact hs
  unfold Market.linked
  rw [e1, e2, e3]
  rfl

/-! ### Instances -/

instance (m : Market) (fs : List LossFn) : Decidable (m.properLinks fs) := by unfold Market.properLinks; infer_instance
instance (m : Market) (r : String) (s : Service) : Decidable (m.hasSupply r s) := by unfold Market.hasSupply; infer_instance
instance (m : Market) (r : String) : Decidable (m.hasLink r) := by unfold Market.hasLink; infer_instance

def regUnits : List UnitInfo := [{ unit := "A", region := "NSW" }, { unit := "V", region := "VIC" }]
def regDemand : List Demand := [{ region := "NSW", demand := 100 }, { region := "VIC", demand := 50 }]
def regLoss : List LossFn := [{ inter := "I", link := "I", share := 1/2, fn := fun f => f * f / 1000 }]
def regPoints : List BreakPt := [{ inter := "I", link := "I", seg := 1, bp := -100 }, { inter := "I", link := "I", seg := 2, bp := 0 },
  { inter := "I", link := "I", seg := 3, bp := 100 }]

/-- two regions, a lossy link that carries 50 MW and loses 5 MW -/
def regCase : Case where
  regions := ["NSW", "VIC"]
  units := regUnits
  hist := [.volumeBids [{ unit := "A", bands := [("1", 200)] }, { unit := "V", bands := [("1", 100)] }],
    .interconnectors [{ inter := "I", link := "I", fromR := "NSW", toR := "VIC", min := -100, max := 100 }],
    .losses regLoss regPoints, .demand regDemand none]
  sol := [305/2, 5/2, 50, 5, 0, 1/2, 1/2]

/-- instances of C13, C19, C20 and C21 -/
example : ∃ m lp, InForceKeeping [.inters] (.losses regLoss regPoints) m ∧ InForceKeeping [] (.demand regDemand none) m ∧
    m.assemble = .ok lp ∧ Feasible lp regCase.x ∧
    (decide (m.properLinks regLoss ∧ m.hasSupply "NSW" .energy ∧ m.hasLink "VIC" ∧ m.flow regCase.x "I" "I" = 50 ∧
      m.chargedLoss regCase.x regLoss "VIC" = 5/2 ∧ pointsOf regPoints "I" "I" ≠ [])) = true := by
  exact Case.witness2 (s := regCase) (i := 2) (j := 3) rfl rfl (by decide +kernel)

example : Increasing (pointsOf regPoints "I" "I") := by
  simp only [Increasing, pointsOf, regPoints]
  decide +kernel

def mktLinks : List InterDef := [{ inter := "M", link := "M1", fromR := "NSW", toR := "VIC", min := 0, max := 100, toLf := 19/20 },
  { inter := "M", link := "M2", fromR := "VIC", toR := "NSW", min := 0, max := 100, gcf := -1, toLf := 49/50 }]
def reqRows : List FcasReq := [{ set := "R", service := .raiseReg, region := "NSW", volume := 10, ctype := .ge },
  { set := "R", service := .raiseReg, region := "VIC", volume := 10, ctype := .ge }]
def genRows : List GenericRow := [{ set := "G", ctype := .le, rhs := 174 }]

/-- a market interconnector, FCAS requirements and a generic constraint, without losses -/
def mktCase : Case where
  regions := ["NSW", "VIC"]
  units := regUnits
  hist := [.volumeBids [{ unit := "A", bands := [("1", 200)] }, { unit := "A", service := .raiseReg, bands := [("1", 20)] },
      { unit := "V", bands := [("1", 100)] }],
    .interconnectors mktLinks, .demand regDemand none, .fcasReq reqRows none, .linkUnits [{ set := "G", unit := "V", service := .energy, coef := 1 }],
    .linkRegions [{ set := "G", region := "NSW", service := .raiseReg, coef := 2 }], .linkInters [{ set := "G", inter := "M", coef := -1 }],
    .generic genRows none]
  sol := [51, 12, 100, 0, 50]

theorem mktCase_noLosses {m : Market} (h : mktCase.final = some m) : LossFunctions [] m := by
  left
  refine ⟨rfl, ?_⟩
  unfold Case.final at h
  cases hm : Market.init mktCase.regions mktCase.units mktCase.di with
  | error e => rw [hm] at h; cases h
  | ok m0 =>
    rw [hm] at h
    simp only at h
    split at h
    · rename_i hb
      injection h with h
      exact ⟨_, _, _, m0, mktCase.hist, hm, benignB_iff.1 hb, by decide, h.symm⟩
    · cases h

/-- instances of C14, C22 and C42: the second link carries 50 MW and counts as -50 MW in the generic constraint -/
example : ∃ m lp, LossFunctions [] m ∧ InForce (.fcasReq reqRows none) m ∧ InForce (.interconnectors mktLinks) m ∧
    InForce (.generic genRows none) m ∧ m.assemble = .ok lp ∧ Feasible lp mktCase.x ∧
    (m.flow mktCase.x "M" "M2" = 50 ∧ m.interTotal mktCase.x "M" = -50 ∧ m.linked mktCase.x "G" = 174) := by
  have hw : mktCase.ok (fun m => decide (m.flow mktCase.x "M" "M2" = 50 ∧ m.interTotal mktCase.x "M" = -50 ∧
      m.linked mktCase.x "G" = 174)) = true := by decide +kernel
  obtain ⟨m, lp, h0, h1, h2, h3⟩ := Case.witness hw
  have h3 := of_decide_eq_true h3
  refine ⟨m, lp, mktCase_noLosses h0, ?_, ?_, ?_, h1, h2, h3⟩
  · exact Case.inForce (i := 3) (keep := []) h0 rfl (by decide +kernel)
  · exact Case.inForce (i := 1) (keep := []) h0 rfl (by decide +kernel)
  · exact Case.inForce (i := 7) (keep := []) h0 rfl (by decide +kernel)

end Verif
