import Verif.Spec.Interconnectors
import Verif.Proofs.BidScaling
import Verif.Proofs.Outputs

/-!
# Interconnectors of historical dispatch (C63, C64, C76)
-/

namespace Verif.Inter

open Units (filter_present filter_absent)

/-! ### C63: loss functions -/

theorem sum_flatMap' {α : Type} (l : List α) (f : α → List ℚ) : (l.flatMap f).sum = (l.map (fun a => (f a).sum)).sum := by
  induction l with
  | nil => rfl
  | cons a l ih => rw [List.flatMap_cons, List.sum_append, ih, List.map_cons, List.sum_cons]

/-- the sum of the demand terms of an interconnector -/
theorem offset_sum (ds : List DemandCoef) (rs : List RegionSum) (id : String) :
    (((ds.flatMap (fun d => ((lossFunctionDemand rs).filter (fun r => decide (r.1 = d.region))).map
      (fun r => (d.id, r.2 * d.coef)))).filter (fun r => decide (r.1 = id))).map Prod.snd).sum =
    ((ds.filter (fun d => decide (d.id = id))).map (fun d => d.coef * regionDemand rs d.region)).sum := by
  induction ds with
  | nil => rfl
  | cons d ds ih =>
    rw [List.flatMap_cons, List.filter_append, List.map_append, List.sum_append, ih, List.filter_cons]
    have hd : ((((lossFunctionDemand rs).filter (fun r => decide (r.1 = d.region))).map (fun r => (d.id, r.2 * d.coef))).filter
        (fun r => decide (r.1 = id))).map Prod.snd =
        if d.id = id then ((rs.filter (fun r => decide (r.region = d.region))).map
          (fun r => (r.initialSupply + r.demandForecast) * d.coef)) else [] := by
      by_cases h : d.id = id
      · rw [if_pos h]
        have : ∀ x ∈ ((lossFunctionDemand rs).filter (fun r => decide (r.1 = d.region))).map (fun r => (d.id, r.2 * d.coef)),
            (fun r : String × ℚ => decide (r.1 = id)) x = true := by
          intro x hx
          obtain ⟨r, _, rfl⟩ := List.mem_map.1 hx
          simpa using h
        rw [List.filter_eq_self.2 this, List.map_map]
        unfold lossFunctionDemand
        rw [List.filter_map, List.map_map]
        rfl
      · rw [if_neg h]
        have : (((lossFunctionDemand rs).filter (fun r => decide (r.1 = d.region))).map (fun r => (d.id, r.2 * d.coef))).filter
            (fun r => decide (r.1 = id)) = [] := by
          rw [List.filter_eq_nil_iff]
          intro x hx
          obtain ⟨r, _, rfl⟩ := List.mem_map.1 hx
          simpa using h
        rw [this]
        rfl
    rw [hd]
    by_cases h : d.id = id
    · rw [if_pos h, if_pos (by simpa using h), List.map_cons, List.sum_cons]
      congr 1
      unfold regionDemand
      generalize rs.filter (fun r => decide (r.region = d.region)) = L
      induction L with
      | nil => simp
      | cons r L ihL => rw [List.map_cons, List.sum_cons, ihL, List.map_cons, List.sum_cons]; ring
    · rw [if_neg h, if_neg (by simpa using h)]
      simp

theorem isLoss_create (c k : ℚ) (mlf : ℚ → ℚ) (h : ∀ x, mlf x = c + k * x) : IsLoss mlf (createFunction c k) := by
  unfold createFunction
  refine ⟨by ring, fun a b => ?_⟩
  rw [h a, h b]
  ring

/-- `create_loss_functions` returns one loss function for each interconnector, with its loss share, no loss at zero flow,
and the marginal loss factor equation with the demand terms summed over the regions. -/
theorem C63_loss_functions (cs : List ConstraintRow) (ds : List DemandCoef) (rs : List RegionSum) :
    List.Forall₂ (fun c r => r.inter = c.id ∧ r.share = c.fromShare ∧ IsLoss (marginalLoss c ds rs) r.fn) cs
      (createLossFunctions cs ds (lossFunctionDemand rs)) := by
  unfold createLossFunctions
  induction cs with
  | nil => exact List.Forall₂.nil
  | cons c cs ih =>
    rw [List.flatMap_cons]
    have hrow : ∃ r : LossRow, lossRowsOf c ((demandOffsets ds (lossFunctionDemand rs)).filter (fun o => decide (o.1 = c.id))) =
        [r] ∧
        r.inter = c.id ∧ r.share = c.fromShare ∧ IsLoss (marginalLoss c ds rs) r.fn := by
      have hn : ((demandOffsets ds (lossFunctionDemand rs)).map Prod.fst).Nodup := by
        unfold demandOffsets
        dsimp only
        rw [List.map_map]
        exact dropDup_nodup (key := Prod.fst) _
      have hs := offset_sum ds rs c.id
      by_cases hk : c.id ∈ (demandOffsets ds (lossFunctionDemand rs)).map Prod.fst
      · obtain ⟨o, ho, e⟩ := List.mem_map.1 hk
        have hf := filter_present hn ho
        rw [e] at hf
        rw [hf]
        refine ⟨_, rfl, rfl, rfl, isLoss_create _ _ _ (fun x => ?_)⟩
        unfold demandOffsets at ho
        obtain ⟨k, _, rfl⟩ := List.mem_map.1 ho
        dsimp only at e ⊢
        unfold marginalLoss
        rw [e, hs]
        ring
      · rw [filter_absent hk]
        refine ⟨_, rfl, rfl, rfl, isLoss_create _ _ _ (fun x => ?_)⟩
        have hnil : (ds.flatMap (fun d => ((lossFunctionDemand rs).filter (fun r => decide (r.1 = d.region))).map
            (fun r => (d.id, r.2 * d.coef)))).filter (fun r => decide (r.1 = c.id)) = [] := by
          rw [List.filter_eq_nil_iff]
          intro x hx hc
          rw [decide_eq_true_eq] at hc
          refine hk ?_
          unfold demandOffsets
          dsimp only
          rw [List.map_map]
          obtain ⟨y, hy, hyx⟩ := exists_dropDup (key := Prod.fst) hx
          exact List.mem_map.2 ⟨y, hy, hyx.trans hc⟩
        rw [hnil] at hs
        unfold marginalLoss
        rw [← hs]
        simp
    obtain ⟨r, hr, h1⟩ := hrow
    rw [hr]
    exact List.Forall₂.cons h1 ih

/-- The same as a statement on slopes: for a small change of flow the loss changes by the marginal loss factor minus one per
MW, up to a term in the square of the change. -/
theorem C63_slope {mlf fn : ℚ → ℚ} {k : ℚ} (h : IsLoss mlf fn) (hk : ∀ x y, mlf y - mlf x = k * (y - x)) (a d : ℚ) :
    fn (a + d) - fn a = (mlf a - 1) * d + k / 2 * d ^ 2 := by
  have h1 := h.2 a (a + d)
  have h2 := hk a (a + d)
  have : mlf (a + d) = mlf a + k * d := by linarith [h2, show k * (a + d - a) = k * d by ring]
  rw [h1, this]
  ring

/-! ### C76: definitions -/

/-- With one row per interconnector in the table of parameters: `get_interconnector_definitions` returns the regulated
interconnectors and the links of market interconnectors and nothing else. -/
theorem C76_definitions {t : Tables} (hc : (t.constraints.map ConstraintRow.id).Nodup) (r : InterDef) :
    r ∈ t.definitions ↔ Regulated t r ∨ MarketLink t r := by
  unfold Tables.definitions Tables.regulated Tables.market Tables.mnspLinks Tables.cons formatDefinitions Regulated MarketLink
  simp only [List.mem_map, List.mem_append, List.mem_filter, List.mem_flatMap, decide_eq_true_eq]
  constructor
  · rintro ⟨d, hd, rfl⟩
    rcases hd with ⟨b, ⟨⟨d, hd, c, ⟨⟨c0, hc0, rfl⟩, e⟩, rfl⟩, c', ⟨⟨c1, hc1, rfl⟩, e1⟩, e2⟩, rfl⟩ |
      ⟨d', ⟨m, hm, c, ⟨⟨⟨c0, hc0, rfl⟩, e⟩, e1⟩, rfl⟩, b, ⟨hb, e2, e3⟩, rfl⟩
    · left
      have e : c0.id = d.id := e
      have e1 : c1.icType = "REGULATED" := e1
      have e2 : c1.id = d.id := e2
      have : c0 = c1 := List.inj_on_of_nodup_map hc hc0 hc1 (e.trans e2.symm)
      subst this
      refine ⟨d, hd, c0, hc0, e, e1, ?_⟩
      have h1 : (-1 : ℚ) * (fixShare c0).importLimit = -c0.importLimit := by
        rw [neg_one_mul]; rfl
      have h2 : ((truncate 1 : Int) : ℚ) = 1 := by decide +kernel
      rw [h1, h2]
      rfl
    · right
      exact ⟨m, hm, c0, hc0, b, hb, e1, e, e2, e3, rfl⟩
  · rintro (⟨d, hd, c, hc', e, e1, rfl⟩ | ⟨m, hm, c, hc', b, hb, e, e1, e2, e3, rfl⟩)
    · refine ⟨{ inter := d.id, link := d.id, toR := d.toR, fromR := d.fromR, max := c.exportLimit,
                min := -1 * c.importLimit, gcf := 1, fromLf := 1, toLf := 1 },
        Or.inl ⟨⟨d.id, d.fromR, d.toR, -1 * c.importLimit, c.exportLimit⟩,
          ⟨⟨d, hd, fixShare c, ⟨⟨c, hc', rfl⟩, e⟩, rfl⟩, fixShare c, ⟨⟨c, hc', rfl⟩, e1⟩, e⟩, rfl⟩, ?_⟩
      have h2 : ((truncate 1 : Int) : ℚ) = 1 := by decide +kernel
      rw [h2, neg_one_mul]
    · exact ⟨_, Or.inr ⟨_, ⟨m, hm, fixShare c, ⟨⟨⟨c, hc', rfl⟩, e1⟩, e⟩, rfl⟩, b, ⟨hb, e2, e3⟩, rfl⟩, rfl⟩

/-- The loss share of Basslink is one, other loss shares are those of the table. -/
theorem C76_loss_share {t : Tables} {f : LossFn} (hf : f ∈ t.lossFunctions) :
    (f.inter = "T-V-MNSP1" → f.share = 1) ∧
    (f.inter ≠ "T-V-MNSP1" → ∃ c ∈ t.constraints, c.id = f.inter ∧ f.share = c.fromShare) := by
  unfold Tables.lossFunctions at hf
  simp only [List.mem_flatMap, List.mem_map, List.mem_filter, decide_eq_true_eq] at hf
  obtain ⟨d, _, r, ⟨hr, e⟩, rfl⟩ := hf
  have hall := C63_loss_functions t.cons t.demandCoefs t.regions
  obtain ⟨c, hc, h1, h2, _⟩ : ∃ c ∈ t.cons, r.inter = c.id ∧ r.share = c.fromShare ∧ True := by
    clear e
    generalize t.cons = cs at hall hr ⊢
    generalize createLossFunctions cs t.demandCoefs (lossFunctionDemand t.regions) = rows at hall hr
    induction hall with
    | nil => simp at hr
    | cons h _ ih =>
      rcases List.mem_cons.1 hr with rfl | hr
      · exact ⟨_, List.mem_cons_self, h.1, h.2.1, trivial⟩
      · obtain ⟨c, hc, h⟩ := ih hr
        exact ⟨c, List.mem_cons_of_mem _ hc, h⟩
  obtain ⟨c0, hc0, rfl⟩ := List.mem_map.1 hc
  have h1 : r.inter = c0.id := h1
  have h2 : r.share = if c0.id = "T-V-MNSP1" then 1 else c0.fromShare := h2
  dsimp only
  constructor
  · intro he
    rw [h2, if_pos (by rw [← h1, e, he])]
  · intro he
    exact ⟨c0, hc0, by rw [← h1, e], by rw [h2, if_neg (by rw [← h1, e]; exact he)]⟩

/-! ### C64: loss models of links -/

/-- Loss functions and break points of a link: the loss at a flow is the loss of the interconnector at the flow times the
factor of the link, break points are those of the interconnector times the factor. -/
theorem C64_links (t : Tables) :
    (∀ f, f ∈ t.lossFunctions ↔ ∃ d ∈ t.definitions,
      ∃ r ∈ createLossFunctions t.cons t.demandCoefs (lossFunctionDemand t.regions), r.inter = d.inter ∧
        f = ⟨d.inter, d.link, fun x => r.fn (x * d.gcf), r.share⟩) ∧
    (∀ b, b ∈ t.breakPoints ↔ ∃ d ∈ t.definitions, ∃ s ∈ t.segments, s.id = d.inter ∧ b.inter = d.inter ∧
      b.link = d.link ∧ b.bp = s.bp * d.gcf ∧ (b.seg : ℚ) = s.seg * d.gcf) := by
  constructor
  · intro f
    unfold Tables.lossFunctions
    simp only [List.mem_flatMap, List.mem_map, List.mem_filter, decide_eq_true_eq]
    constructor
    · rintro ⟨d, hd, r, ⟨hr, e⟩, rfl⟩
      exact ⟨d, hd, r, hr, e, rfl⟩
    · rintro ⟨d, hd, r, hr, e, rfl⟩
      exact ⟨d, hd, r, ⟨hr, e⟩, rfl⟩
  · intro b
    have hint : ∀ d ∈ t.definitions, ((truncate d.gcf : Int) : ℚ) = d.gcf := by
      intro d hd
      unfold Tables.definitions at hd
      obtain ⟨d0, _, rfl⟩ := List.mem_map.1 hd
      show ((truncate ((truncate d0.gcf : Int) : ℚ) : Int) : ℚ) = (truncate d0.gcf : Int)
      generalize truncate d0.gcf = n
      unfold truncate
      split
      · rw [Rat.floor_intCast]
      · rw [← Int.cast_neg, Rat.floor_intCast, neg_neg]
    unfold Tables.breakPoints
    simp only [List.mem_flatMap, List.mem_map, List.mem_filter, decide_eq_true_eq]
    constructor
    · rintro ⟨d, hd, s, ⟨hs, e⟩, rfl⟩
      refine ⟨d, hd, s, hs, e, rfl, rfl, rfl, ?_⟩
      push_cast
      rw [hint d hd]
    · rintro ⟨d, hd, s, hs, e, h1, h2, h3, h4⟩
      refine ⟨d, hd, s, ⟨hs, e⟩, ?_⟩
      have : s.seg * truncate d.gcf = b.seg := by
        have : ((s.seg * truncate d.gcf : Int) : ℚ) = (b.seg : Int) := by
          push_cast
          rw [hint d hd, h4]
        exact_mod_cast this
      cases b
      simp only at h1 h2 h3 this
      rw [this, ← h3, ← h1, ← h2]

/-- For a link with the factor minus one, the loss at a flow is the loss of the interconnector at the negated flow, and at
each of its break points the loss is the one at the break point of the interconnector. -/
theorem C64_mirrored {t : Tables} {d : InterDef} (hd : d ∈ t.definitions) (hg : d.gcf = -1) {r : LossRow}
    (hr : r ∈ createLossFunctions t.cons t.demandCoefs (lossFunctionDemand t.regions)) (e : r.inter = d.inter) :
    ∃ f ∈ t.lossFunctions, f.inter = d.inter ∧ f.link = d.link ∧ f.share = r.share ∧ (∀ x, f.fn x = r.fn (-x)) ∧
      ∀ s ∈ t.segments, s.id = d.inter →
        ∃ b ∈ t.breakPoints, b.inter = d.inter ∧ b.link = d.link ∧ b.bp = -s.bp ∧ b.seg = -s.seg ∧ f.fn b.bp = r.fn s.bp := by
  obtain ⟨h1, h2⟩ := C64_links t
  refine ⟨_, (h1 _).2 ⟨d, hd, r, hr, e, rfl⟩, rfl, rfl, rfl, ?_, ?_⟩
  · intro x
    dsimp only
    rw [hg, mul_neg_one]
  · intro s hs es
    refine ⟨⟨d.inter, d.link, -s.seg, -s.bp⟩, (h2 _).2 ⟨d, hd, s, hs, es, rfl, rfl, ?_, ?_⟩, rfl, rfl, rfl, rfl, ?_⟩
    · rw [hg, mul_neg_one]
    · rw [hg]; push_cast; ring
    · dsimp only
      rw [hg, mul_neg_one, neg_neg]

/-! A regulated interconnector and the two links of Basslink -/

def demoTables : Tables where
  constraints := [⟨"V-SA", "REGULATED", 850, 950, 1, 1 / 5000, 7 / 10⟩, ⟨"T-V-MNSP1", "MNSP", 478, 594, 99 / 100, 1 / 10000, 1 / 2⟩]
  directions := [⟨"V-SA", "VIC", "SA"⟩, ⟨"T-V-MNSP1", "TAS", "VIC"⟩]
  mnsp := [⟨"T-V-MNSP1", "BLNKTAS", 1, 98 / 100, "TAS", "VIC", 1, 594⟩, ⟨"T-V-MNSP1", "BLNKVIC", 99 / 100, 1, "VIC", "TAS", -1, 478⟩]
  linkBids := [⟨"T-V-MNSP1", "VIC", some 500⟩, ⟨"T-V-MNSP1", "TAS", none⟩]
  regions := [⟨"VIC", 5000, 4900, 50⟩, ⟨"SA", 1500, 1450, -20⟩, ⟨"TAS", 1000, 1000, 0⟩]
  demandCoefs := [⟨"V-SA", "VIC", 1 / 100000⟩, ⟨"V-SA", "SA", -1 / 50000⟩]
  segments := [⟨"V-SA", -1, -400⟩, ⟨"V-SA", 1, 400⟩, ⟨"T-V-MNSP1", -1, -478⟩, ⟨"T-V-MNSP1", 2, 594⟩]

example : (demoTables.constraints.map ConstraintRow.id).Nodup ∧
    demoTables.definitions =
      [⟨"V-SA", "V-SA", "SA", "VIC", 950, -850, 1, 1, 1⟩,
       ⟨"T-V-MNSP1", "BLNKTAS", "VIC", "TAS", 500, 0, 1, 1, 98 / 100⟩,
       ⟨"T-V-MNSP1", "BLNKVIC", "TAS", "VIC", 478, 0, -1, 99 / 100, 1⟩] ∧
    demoTables.breakPoints =
      [⟨"V-SA", "V-SA", -1, -400⟩, ⟨"V-SA", "V-SA", 1, 400⟩, ⟨"T-V-MNSP1", "BLNKTAS", -1, -478⟩,
       ⟨"T-V-MNSP1", "BLNKTAS", 2, 594⟩, ⟨"T-V-MNSP1", "BLNKVIC", 1, 478⟩, ⟨"T-V-MNSP1", "BLNKVIC", -2, -594⟩] ∧
    demoTables.lossFunctions.map (fun f => (f.link, f.fn 0, f.fn 100, f.share)) =
      [("V-SA", 0, 309 / 100, 7 / 10), ("BLNKTAS", 0, -1 / 2, 1), ("BLNKVIC", 0, 3 / 2, 1)] := by
  decide +kernel

example : marginalLoss ⟨"V-SA", "REGULATED", 850, 950, 1, 1 / 5000, 7 / 10⟩ demoTables.demandCoefs demoTables.regions 100 =
    1 + 100 / 5000 + 4950 / 100000 - 1430 / 50000 := by decide +kernel

end Verif.Inter
