import Verif.Spec.XmlInputs
import Verif.Proofs.Tables

/-!
# Tables read from a NEMDE file

* **C73** missing attributes of volume bids.
* **C79** price bids.
* **C80** initial conditions, fast start parameters and forecasts.
* **C81** violations and right hand sides are those of the run without intervention.
* **C82** terms of generic constraints and offers of market links.
-/

namespace Verif.Xml

open Verif

theorem bind_ok {α β : Type} {x : Except XErr α} {f : α → Except XErr β} {b : β} :
    (x >>= f) = .ok b ↔ ∃ a, x = .ok a ∧ f a = .ok b := by
  cases x with
  | error e => simp [bind, Except.bind]
  | ok a => simp [bind, Except.bind]

theorem pure_ok {α : Type} {a b : α} : (pure a : Except XErr α) = .ok b ↔ a = b := by
  constructor
  · intro h
    injection h
  · rintro rfl
    rfl

theorem mapM_ok {α β : Type} {f : α → Except XErr β} {l : List α} {m : List β} :
    l.mapM f = .ok m ↔ List.Forall₂ (fun a b => f a = .ok b) l m := by
  induction l generalizing m with
  | nil =>
    rw [List.mapM_nil]
    constructor
    · intro h
      injection h with h
      subst h
      exact .nil
    · intro h
      cases h
      rfl
  | cons a l ih =>
    rw [List.mapM_cons, bind_ok]
    constructor
    · rintro ⟨b, hb, h⟩
      rw [bind_ok] at h
      obtain ⟨bs, hbs, h⟩ := h
      injection h with h
      subst h
      exact .cons hb (ih.1 hbs)
    · intro h
      cases h with
      | cons hb hbs => exact ⟨_, hb, bind_ok.2 ⟨_, ih.2 hbs, rfl⟩⟩

theorem attr_ok {a : Attrs} {n v : String} : attr a n = .ok v ↔ a.get? n = some v := by
  unfold attr
  cases a.get? n <;> simp

theorem number_ok {ν : Type} {read : String → Option ν} {t : String} {q : ν} : number read t = .ok q ↔ read t = some q := by
  unfold number
  cases read t <;> simp

theorem numAttr_ok {ν β : Type} {read : String → Option ν} {a : Attrs} {n : String} {f : ν → Except XErr β} {b : β} :
    (attr a n >>= fun v => number read v >>= f) = .ok b ↔ ∃ q, IsNumber read a n q ∧ f q = .ok b := by
  simp only [bind_ok, attr_ok, number_ok, IsNumber]
  constructor
  · rintro ⟨v, h1, q, h2, h3⟩
    exact ⟨q, ⟨v, h1, h2⟩, h3⟩
  · rintro ⟨q, ⟨v, h1, h2⟩, h3⟩
    exact ⟨v, h1, q, h2, h3⟩

/-! ### Volume bids -/

/-- Values of an append, and where stale ones come from -/
theorem appendValues_ok {float : String → Option ℚ} {trade : Attrs} {names : List String} {value : Cell} {cells : List Cell}
    (h : appendValues float trade names value = .ok cells) :
    List.Forall₂ (Reads float trade) names cells ∧
    ∀ (i : ℕ) (name : String), names[i]? = some name → trade.get? name = none → cells[i]? = (value :: cells)[i]? := by
  induction names generalizing value cells with
  | nil =>
    rw [appendValues] at h
    injection h with h
    subst h
    exact ⟨.nil, by simp⟩
  | cons n names ih =>
    rw [appendValues] at h
    cases hg : trade.get? n with
    | none =>
      rw [hg] at h
      dsimp only at h
      cases hr : appendValues float trade names value with
      | error e => rw [hr] at h; cases h
      | ok cs =>
        rw [hr] at h
        injection h with h
        subst h
        obtain ⟨i1, i2⟩ := ih hr
        refine ⟨.cons (fun v hv => by rw [hg] at hv; cases hv) i1, ?_⟩
        intro i name h1 h2
        cases i with
        | zero => rfl
        | succ i =>
          rw [List.getElem?_cons_succ] at h1 ⊢
          rw [List.getElem?_cons_succ]
          exact i2 i name h1 h2
    | some v =>
      rw [hg] at h
      dsimp only at h
      cases hf : float v with
      | none => rw [hf] at h; cases h
      | some q =>
        rw [hf] at h
        dsimp only at h
        cases hr : appendValues float trade names (.num q) with
        | error e => rw [hr] at h; cases h
        | ok cs =>
          rw [hr] at h
          injection h with h
          subst h
          obtain ⟨i1, i2⟩ := ih hr
          refine ⟨.cons (fun v' hv => ?_) i1, ?_⟩
          · rw [hg] at hv
            injection hv with hv
            subst hv
            exact ⟨q, hf, rfl⟩
          · intro i name h1 h2
            cases i with
            | zero =>
              rw [List.getElem?_cons_zero] at h1
              injection h1 with h1
              rw [h1, h2] at hg
              cases hg
            | succ i =>
              rw [List.getElem?_cons_succ] at h1 ⊢
              rw [List.getElem?_cons_succ]
              exact i2 i name h1 h2

theorem volumeDirection_ok {dir : String} {d : Option String} (h : volumeDirection dir = .ok d) :
    (dir = "GEN" ∧ d = some "GENERATOR") ∨ (dir = "LOAD" ∧ d = some "LOAD") ∨ (dir = "missing" ∧ d = none) := by
  unfold volumeDirection at h
  split at h
  · injection h with h
    exact Or.inl ⟨rfl, h.symm⟩
  · injection h with h
    exact Or.inr (Or.inl ⟨rfl, h.symm⟩)
  · injection h with h
    exact Or.inr (Or.inr ⟨rfl, h.symm⟩)
  · cases h

theorem volumeColumns_eq : volumeColumns = volumeAttributes := by decide +kernel
theorem priceColumns_eq : priceColumns = bands "@PriceBand" := by decide +kernel
theorem violationNames_eq : violationNames = violationAttributes := by decide +kernel

theorem items_eq {α : Type} (c : Coll α) : c.items = c.listed := by cases c <;> rfl
theorem termsOf_eq (c : Option (Coll Attrs)) : termsOf c = listedTerms c := by
  cases c with
  | none => rfl
  | some c => cases c <;> rfl

theorem hasService {a : Attrs} {service : String}
    (h : ∃ tt, a.get? "@TradeType" = some tt ∧ bidTypeMap.get? tt = some service) : HasService a service := by
  obtain ⟨tt, h1, h2⟩ := h
  refine ⟨tt, h1, ?_⟩
  have all : ∀ e ∈ bidTypeMap, ∃ f ∈ tradeServices, f.1 = e.2 ∧ e.1 ∈ f.2 := by decide +kernel
  exact all _ (Dict.mem_of_get? h2)

theorem volumeRow_ok {float : String → Option ℚ} {p : Trader × Attrs} {row : BidRow} (h : volumeRow float p = .ok row) :
    p.1.attrs.get? "@TraderID" = some row.duid ∧
    (∃ tt, p.2.get? "@TradeType" = some tt ∧ bidTypeMap.get? tt = some row.service) ∧
    appendValues float p.2 volumeColumns (.text ((p.2.get? "@Direction").getD "missing")) = .ok row.cells ∧
    volumeDirection ((p.2.get? "@Direction").getD "missing") = .ok row.direction := by
  unfold volumeRow at h
  simp only [bind_ok, pure_ok, attr_ok] at h
  obtain ⟨duid, h1, tt, h2, cells, h3, service, h4, dir, h5, rfl⟩ := h
  exact ⟨h1, ⟨tt, h2, h4⟩, h3, h5⟩

/-- **C73, in part** Every trade in the file gives one row, in order, of its unit and service.  The direction is that of the file and
missing if it is missing there, and every attribute that is in the file is read exactly.  What is missing in the property are
attributes absent from the file, see `C73_negation`. -/
theorem C73_present_partial (float : String → Option ℚ) (traders : List Trader) (rows : List BidRow)
    (h : volumeBids float traders = .ok rows) :
    List.Forall₂ (fun p row =>
      p.1.attrs.get? "@TraderID" = some row.duid ∧
      HasService p.2 row.service ∧
      (p.2.get? "@Direction" = none → row.direction = none) ∧
      (p.2.get? "@Direction" = some "GEN" → row.direction = some "GENERATOR") ∧
      (p.2.get? "@Direction" = some "LOAD" → row.direction = some "LOAD") ∧
      List.Forall₂ (Reads float p.2) volumeAttributes row.cells)
      (traders.flatMap fun t => t.trades.listed.map fun trade => (t, trade)) rows := by
  rw [← volumeColumns_eq]
  simp only [← items_eq]
  refine (mapM_ok.1 h).imp ?_
  intro p row hr
  obtain ⟨h1, h2, h3, h4⟩ := volumeRow_ok hr
  refine ⟨h1, hasService h2, ?_, ?_, ?_, (appendValues_ok h3).1⟩
  · intro hd
    rw [hd] at h4
    rcases volumeDirection_ok h4 with ⟨a, b⟩ | ⟨a, b⟩ | ⟨a, b⟩
    · exact absurd a (by decide)
    · exact absurd a (by decide)
    · exact b
  · intro hd
    rw [hd] at h4
    rcases volumeDirection_ok h4 with ⟨a, b⟩ | ⟨a, b⟩ | ⟨a, b⟩
    · exact b
    · exact absurd a (by decide)
    · exact absurd a (by decide)
  · intro hd
    rw [hd] at h4
    rcases volumeDirection_ok h4 with ⟨a, b⟩ | ⟨a, b⟩ | ⟨a, b⟩
    · exact absurd a (by decide)
    · exact b
    · exact absurd a (by decide)

/-- **C73** An attribute that is not in the file is reported with the value of the column before; the first one with the text of
the direction. -/
theorem C73_stale (float : String → Option ℚ) (traders : List Trader) (rows : List BidRow) (h : volumeBids float traders = .ok rows) :
    List.Forall₂ (fun p row => ∀ (i : ℕ) (name : String), volumeAttributes[i]? = some name → p.2.get? name = none →
      row.cells[i]? = if i = 0 then some (.text ((p.2.get? "@Direction").getD "missing")) else row.cells[i - 1]?)
      (traders.flatMap fun t => t.trades.listed.map fun trade => (t, trade)) rows := by
  rw [← volumeColumns_eq]
  simp only [← items_eq]
  refine (mapM_ok.1 h).imp ?_
  intro p row hr i name h1 h2
  obtain ⟨-, -, h3, -⟩ := volumeRow_ok hr
  rw [(appendValues_ok h3).2 i name h1 h2]
  cases i with
  | zero => rfl
  | succ i =>
    rw [List.getElem?_cons_succ, if_neg (Nat.succ_ne_zero i)]
    rfl

/-- numbers for the examples -/
def demoFloat : String → Option ℚ
  | "0" => some 0
  | "5" => some 5
  | "10" => some 10
  | "120" => some 120
  | _ => none

/-- A raise bid: the file has no ramp rates for FCAS. -/
def demoRaise : Attrs :=
  [("@TradeType", "R60S"), ("@MaxAvail", "10"), ("@EnablementMin", "0"), ("@EnablementMax", "120"), ("@LowBreakpoint", "5"),
   ("@HighBreakpoint", "10"), ("@BandAvail1", "5"), ("@BandAvail2", "5"), ("@BandAvail3", "0"), ("@BandAvail4", "0"),
   ("@BandAvail5", "0"), ("@BandAvail6", "0"), ("@BandAvail7", "0"), ("@BandAvail8", "0"), ("@BandAvail9", "0"),
   ("@BandAvail10", "10")]

def demoTrader : Trader := ⟨[("@TraderID", "YWPS4"), ("@TraderType", "GENERATOR")], [], .one demoRaise, .one []⟩

/-- **C73** does not hold: a bid without ramp rates is reported with ramp rates of 10, the volume of its last band. -/
theorem C73_negation : ∃ rows row, volumeBids demoFloat [demoTrader] = .ok rows ∧ row ∈ rows ∧
    demoRaise.get? "@RampDnRate" = none ∧ volumeAttributes[15]? = some "@RampDnRate" ∧ row.cells[15]? = some (.num 10) := by
  refine ⟨[⟨"YWPS4", "RAISE60SEC", none, [.num 10, .num 0, .num 120, .num 5, .num 10, .num 5, .num 5, .num 0, .num 0, .num 0, .num 0,
    .num 0, .num 0, .num 0, .num 10, .num 10, .num 10]⟩], _, rfl, List.mem_singleton_self _, ?_⟩
  decide +kernel

/-! ### Price bids -/

theorem priceDirection_ok {c : Cell} {d : Option String} (h : priceDirection c = .ok d) :
    (c = .text "GEN" ∧ d = some "GENERATOR") ∨ (c = .text "LOAD" ∧ d = some "LOAD") := by
  unfold priceDirection at h
  split at h
  · injection h with h
    exact Or.inl ⟨rfl, h.symm⟩
  · injection h with h
    exact Or.inr ⟨rfl, h.symm⟩
  · cases h

theorem priceRow_ok {float : String → Option ℚ} {p : Trader × Attrs} {row : BidRow} (h : priceRow float p = .ok row) :
    p.1.attrs.get? "@TraderID" = some row.duid ∧
    (∃ tt, p.2.get? "@TradeType" = some tt ∧ bidTypeMap.get? tt = some row.service) ∧
    (∃ c, priceDirectionCell p.1 p.2 = .ok c ∧ priceDirection c = .ok row.direction) ∧
    List.Forall₂ (fun name c => priceCell float p.1 p.2 name = .ok c) priceColumns row.cells := by
  unfold priceRow at h
  simp only [bind_ok, pure_ok, attr_ok] at h
  obtain ⟨duid, h1, tt, h2, dir, h3, cells, h4, service, h5, direction, h6, rfl⟩ := h
  exact ⟨h1, ⟨tt, h2, h5⟩, ⟨dir, h3, h6⟩, mapM_ok.1 h4⟩

/-- **C79, in part** (see `C79_text_negation`) Every trade in the price structures gives one row, in order, of its unit and service, with the prices in the file.  The
direction is that of the file; if it is missing there, loads have `LOAD` and the other types `GENERATOR`. -/
theorem C79_prices_partial (float : String → Option ℚ) (traders : List Trader) (rows : List BidRow) (h : priceBids float traders = .ok rows) :
    List.Forall₂ (fun p row =>
      p.1.attrs.get? "@TraderID" = some row.duid ∧
      HasService p.2 row.service ∧
      (p.2.get? "@Direction" = some "GEN" → row.direction = some "GENERATOR") ∧
      (p.2.get? "@Direction" = some "LOAD" → row.direction = some "LOAD") ∧
      (p.2.get? "@Direction" = none →
        (p.1.attrs.get? "@TraderType" = some "LOAD" ∧ row.direction = some "LOAD") ∨
        ((∃ ty ∈ ["GENERATOR", "NORMALLY_ON_LOAD", "WDR", "BIDIRECTIONAL"], p.1.attrs.get? "@TraderType" = some ty) ∧
          row.direction = some "GENERATOR")) ∧
      List.Forall₂ (Reads float p.2) (bands "@PriceBand") row.cells ∧
      (p.2.has "@Direction" = true → List.Forall₂ (fun name c => p.2.get? name = none → c = .none) (bands "@PriceBand") row.cells))
      (traders.flatMap fun t => t.priceTrades.listed.map fun trade => (t, trade)) rows := by
  rw [← priceColumns_eq]
  simp only [← items_eq]
  refine (mapM_ok.1 h).imp ?_
  intro p row hr
  obtain ⟨h1, h2, ⟨c, h3, h4⟩, h5⟩ := priceRow_ok hr
  unfold priceDirectionCell at h3
  have hdir : ∀ v, p.2.get? "@Direction" = some v → c = .text v := by
    intro v hv
    rw [hv] at h3
    injection h3 with h3
    exact h3.symm
  refine ⟨h1, hasService h2, ?_, ?_, ?_, h5.imp ?_, fun hd => h5.imp ?_⟩
  · intro hv
    rcases priceDirection_ok h4 with ⟨a, b⟩ | ⟨a, b⟩
    · exact b
    · rw [hdir _ hv] at a
      exact absurd a (by decide)
  · intro hv
    rcases priceDirection_ok h4 with ⟨a, b⟩ | ⟨a, b⟩
    · rw [hdir _ hv] at a
      exact absurd a (by decide)
    · exact b
  · intro hv
    rw [hv] at h3
    dsimp only at h3
    cases ht : p.1.attrs.get? "@TraderType" with
    | none => rw [ht] at h3; cases h3
    | some ty =>
      rw [ht] at h3
      injection h3 with h3
      subst h3
      unfold typeDirection at h4
      split at h4
      · rename_i hm
        rcases priceDirection_ok h4 with ⟨a, b⟩ | ⟨a, b⟩
        · exact Or.inr ⟨⟨ty, hm, rfl⟩, b⟩
        · exact absurd a (by decide)
      · split at h4
        · rename_i hl
          rcases priceDirection_ok h4 with ⟨a, b⟩ | ⟨a, b⟩
          · exact absurd a (by decide)
          · exact Or.inl ⟨by rw [hl], b⟩
        · cases h4
  · intro name cell hc v hv
    unfold priceCell at hc
    rw [hv] at hc
    dsimp only at hc
    cases hf : float v with
    | none => rw [hf] at hc; cases hc
    | some q =>
      rw [hf] at hc
      injection hc with hc
      exact ⟨q, rfl, hc.symm⟩
  · intro name cell hc hv
    unfold priceCell at hc
    rw [hv] at hc
    dsimp only at hc
    rw [if_pos hd] at hc
    injection hc with hc
    exact hc.symm

/-- A price structure with a band missing -/
def demoPrices : Attrs :=
  [("@TradeType", "ENOF"), ("@PriceBand1", "5"), ("@PriceBand2", "10")]

/-- **C79** does not hold for missing prices in a structure without direction: a text is reported as the price. -/
theorem C79_text_negation : ∃ rows row,
    priceBids demoFloat [⟨[("@TraderID", "A"), ("@TraderType", "GENERATOR")], [], .one [], .many [demoPrices]⟩] = .ok rows ∧ row ∈ rows ∧
    demoPrices.get? "@PriceBand3" = none ∧ (bands "@PriceBand")[2]? = some "@PriceBand3" ∧ row.cells[2]? = some (.text "GEN") := by
  refine ⟨[⟨"A", "ENERGY", some "GENERATOR", [.num 5, .num 10, .text "GEN", .text "GEN", .text "GEN", .text "GEN", .text "GEN",
    .text "GEN", .text "GEN", .text "GEN"]⟩], _, rfl, List.mem_singleton_self _, ?_⟩
  decide +kernel

/-! ### Initial conditions -/

theorem conditionValue_ok {float : String → Option ℚ} {name : String} {cs : List Attrs} {v : Option ℚ}
    (h : conditionValue float name cs = .ok v) : FirstCondition float cs name v := by
  induction cs with
  | nil =>
    rw [conditionValue] at h
    injection h with h
    subst h
    exact fun c hc => by simp at hc
  | cons c cs ih =>
    rw [conditionValue] at h
    simp only [bind_ok, attr_ok] at h
    obtain ⟨id, hid, h⟩ := h
    split at h
    · rename_i he
      rw [numAttr_ok] at h
      obtain ⟨q, hq, h⟩ := h
      rw [pure_ok] at h
      subst h
      exact ⟨[], c, cs, rfl, by simp, by rw [hid, he], hq⟩
    · rename_i he
      have hne : c.get? "@InitialConditionID" ≠ some name := by
        rw [hid]
        intro e
        injection e with e
        exact he e
      have := ih h
      cases v with
      | none =>
        intro d hd
        rcases List.mem_cons.1 hd with rfl | hd
        · exact hne
        · exact this d hd
      | some q =>
        obtain ⟨bef, d, aft, e1, e2, e3⟩ := this
        refine ⟨c :: bef, d, aft, by rw [e1]; rfl, ?_, e3⟩
        intro b hb
        rcases List.mem_cons.1 hb with rfl | hb
        · exact hne
        · exact e2 b hb

/-- **C80** Every unit of the file has one row of initial conditions, each value that of its first condition of the name, or NaN; in
an intervention the output is that of the run without intervention. -/
theorem C80_initial_conditions (float : String → Option ℚ) (intervention : Bool) (traders : List Trader) (rows : List CondRow)
    (h : initialConditions float intervention traders = .ok rows) :
    List.Forall₂ (fun t row => t.attrs.get? "@TraderID" = some row.duid ∧ t.attrs.get? "@TraderType" = some row.traderType ∧
      FirstCondition float t.conditions (if intervention then "WhatIfInitialMW" else "InitialMW") row.initialMW ∧
      FirstCondition float t.conditions "SCADARampUpRate" row.rampUp ∧
      FirstCondition float t.conditions "SCADARampDnRate" row.rampDown ∧
      FirstCondition float t.conditions "AGCStatus" row.agc) traders rows := by
  refine (mapM_ok.1 h).imp ?_
  intro t row hr
  unfold condRow at hr
  simp only [bind_ok, pure_ok, attr_ok] at hr
  obtain ⟨duid, h1, ty, h2, mw, h3, up, h4, down, h5, agc, h6, rfl⟩ := hr
  exact ⟨h1, h2, conditionValue_ok h3, conditionValue_ok h4, conditionValue_ok h5, conditionValue_ok h6⟩

def demoUnit : Trader :=
  ⟨[("@TraderID", "AGLSOM"), ("@TraderType", "GENERATOR"), ("@CurrentMode", "5"), ("@CurrentModeTime", "0"), ("@MinLoadingMW", "10"),
    ("@T1", "5"), ("@T2", "5"), ("@T3", "10"), ("@T4", "0"), ("@WhatIfCurrentMode", "0")],
   [[("@InitialConditionID", "InitialMW"), ("@Value", "120")], [("@InitialConditionID", "WhatIfInitialMW"), ("@Value", "10")],
    [("@InitialConditionID", "AGCStatus"), ("@Value", "0")]], .one [], .one []⟩

example : (initialConditions demoFloat true [demoUnit]).toOption = some [⟨"AGLSOM", "GENERATOR", some 10, none, none, some 0⟩] := by
  decide +kernel

theorem intAttr_ok {int : String → Option ℤ} {a : Attrs} {n : String} {q : ℤ} : intAttr int a n = .ok q ↔ IsNumber int a n q := by
  unfold intAttr
  simp only [bind_ok, attr_ok, number_ok, IsNumber]

/-- The value used: of the hypothetical run if it is given -/
def WhatIf (int : String → Option ℤ) (a : Attrs) (name other : String) (q : ℤ) : Prop :=
  (a.get? other ≠ none → IsNumber int a other q) ∧ (a.get? other = none → IsNumber int a name q)

theorem whatIf_ok {int : String → Option ℤ} {a : Attrs} {n o : String} {q : ℤ} (h : whatIf int a n o = .ok q) : WhatIf int a n o q := by
  unfold whatIf at h
  simp only [bind_ok] at h
  obtain ⟨v, hv, h⟩ := h
  unfold Dict.has at h
  cases ho : a.get? o with
  | none =>
    rw [ho] at h
    simp only [Option.isSome_none, Bool.false_eq_true, if_false, pure_ok] at h
    subst h
    exact ⟨fun hn => absurd ho hn, fun _ => intAttr_ok.1 hv⟩
  | some x =>
    rw [ho] at h
    simp only [Option.isSome_some, if_true] at h
    exact ⟨fun _ => intAttr_ok.1 h, fun hn => by rw [ho] at hn; cases hn⟩

/-- **C80** Fast start parameters: a row for each unit with a current mode, in the order of the file, with its parameters; mode and
time in it are those of the run without intervention where given. -/
theorem C80_fast_start (int : String → Option ℤ) (traders : List Trader) (rows : List FastRow) (h : fastStart int traders = .ok rows) :
    List.Forall₂ (fun t row => t.attrs.get? "@TraderID" = some row.duid ∧ IsNumber int t.attrs "@MinLoadingMW" row.minLoading ∧
      WhatIf int t.attrs "@CurrentMode" "@WhatIfCurrentMode" row.mode ∧
      WhatIf int t.attrs "@CurrentModeTime" "@WhatIfCurrentModeTime" row.modeTime ∧
      IsNumber int t.attrs "@T1" row.t1 ∧ IsNumber int t.attrs "@T2" row.t2 ∧ IsNumber int t.attrs "@T3" row.t3 ∧
      IsNumber int t.attrs "@T4" row.t4) (traders.filter fun t => decide (t.attrs.get? "@CurrentMode" ≠ none)) rows := by
  have hf : (traders.filter fun t => decide (t.attrs.get? "@CurrentMode" ≠ none)) = traders.filter fun t => t.attrs.has "@CurrentMode" := by
    refine List.filter_congr ?_
    intro t _
    unfold Dict.has
    cases t.attrs.get? "@CurrentMode" <;> simp
  rw [hf]
  refine (mapM_ok.1 h).imp ?_
  intro t row hr
  unfold fastRow at hr
  simp only [bind_ok, pure_ok, attr_ok, intAttr_ok] at hr
  obtain ⟨m, h1, mode, h2, time, h3, t1, h4, t2, h5, t3, h6, t4, h7, duid, h8, rfl⟩ := hr
  exact ⟨h8, h1, whatIf_ok h2, whatIf_ok h3, h4, h5, h6, h7⟩

def demoInt : String → Option ℤ
  | "0" => some 0
  | "5" => some 5
  | "10" => some 10
  | _ => none

example : (fastStart demoInt [demoTrader, demoUnit]).toOption = some [⟨"AGLSOM", 10, 0, 0, 5, 5, 10, 0⟩] := by decide +kernel

/-- **C80** Forecasts: a row for each unit with one. -/
theorem C80_forecasts (float : String → Option ℚ) (traders : List Trader) (rows : List (String × ℚ)) (h : uigf float traders = .ok rows) :
    List.Forall₂ (fun t row => t.attrs.get? "@TraderID" = some row.1 ∧ IsNumber float t.attrs "@UIGF" row.2)
      (traders.filter fun t => decide (t.attrs.get? "@UIGF" ≠ none)) rows := by
  have hf : (traders.filter fun t => decide (t.attrs.get? "@UIGF" ≠ none)) = traders.filter fun t => t.attrs.has "@UIGF" := by
    refine List.filter_congr ?_
    intro t _
    unfold Dict.has
    cases t.attrs.get? "@UIGF" <;> simp
  rw [hf]
  refine (mapM_ok.1 h).imp ?_
  intro t row hr
  unfold uigfRow at hr
  simp only [bind_ok, attr_ok, number_ok] at hr
  obtain ⟨duid, h1, v, h2, q, h3, h4⟩ := hr
  rw [pure_ok] at h4
  subst h4
  exact ⟨h1, v, h2, h3⟩

example : (uigf demoFloat [demoTrader, ⟨[("@TraderID", "W"), ("@UIGF", "5")], [], .one [], .one []⟩]).toOption = some [("W", 5)] := by
  decide +kernel

/-! ### Violations and right hand sides -/

theorem physical_cons (s : Attrs) (ss : List Attrs) :
    physical (s :: ss) = if s.get? "@Intervention" = some "0" then s :: physical ss else physical ss := by
  unfold physical
  rw [List.filter_cons]
  simp

theorem periodViolation_ok {float : String → Option ℚ} {name : String} {ss : List Attrs} {acc v : Option ℚ}
    (h : periodViolation float name ss acc = .ok v) :
    (physical ss = [] → v = acc) ∧
    ∀ s, physical ss = [s] → (s.get? name = none → v = acc) ∧ (s.get? name ≠ none → ∃ q, v = some q ∧ IsNumber float s name q) := by
  induction ss generalizing acc with
  | nil =>
    rw [periodViolation] at h
    injection h with h
    exact ⟨fun _ => h.symm, fun s hs => by simp [physical] at hs⟩
  | cons s ss ih =>
    rw [periodViolation] at h
    simp only [bind_ok, attr_ok] at h
    obtain ⟨i, hi, h⟩ := h
    rw [physical_cons, hi]
    by_cases h0 : i = "0"
    · rw [if_pos h0] at h
      rw [if_pos (by rw [h0])]
      refine ⟨fun hn => by simp at hn, ?_⟩
      intro s' hs'
      injection hs' with e1 e2
      subst e1
      cases hg : s.get? name with
      | none =>
        rw [hg] at h
        dsimp only at h
        exact ⟨fun _ => (ih h).1 e2, fun hn => absurd rfl hn⟩
      | some x =>
        rw [hg] at h
        dsimp only at h
        rw [bind_ok] at h
        obtain ⟨q, hq, h⟩ := h
        exact ⟨fun hn => by simp at hn, fun _ => ⟨q, (ih h).1 e2, x, hg, number_ok.1 hq⟩⟩
    · rw [if_neg h0] at h
      rw [if_neg (fun e => h0 (Option.some.inj e))]
      exact ih h

theorem caseViolation_ok {float : String → Option ℚ} {name : String} {ss : List Attrs} {acc v : Option ℚ}
    (h : caseViolation float name ss acc = .ok v) :
    (physical ss = [] → v = acc) ∧ (∀ q, acc = some q → v = some q) ∧
    ∀ s, physical ss = [s] → acc = none → ∃ q, v = some q ∧ IsNumber float s name q := by
  induction ss generalizing acc with
  | nil =>
    rw [caseViolation] at h
    injection h with h
    subst h
    exact ⟨fun _ => rfl, fun _ h => h, fun s hs => by simp [physical] at hs⟩
  | cons s ss ih =>
    rw [caseViolation] at h
    simp only [bind_ok, attr_ok] at h
    obtain ⟨i, hi, h⟩ := h
    rw [physical_cons, hi]
    by_cases h0 : i = "0"
    · rw [if_pos h0] at h
      rw [if_pos (by rw [h0])]
      refine ⟨fun hn => by simp at hn, ?_, ?_⟩
      · rintro q rfl
        rw [bind_ok] at h
        obtain ⟨a, ha, h⟩ := h
        injection ha with ha
        subst ha
        exact (ih h).2.1 q rfl
      · intro s' hs' hacc
        injection hs' with e1 e2
        subst e1
        subst hacc
        rw [bind_ok] at h
        obtain ⟨a, ha, h⟩ := h
        unfold caseValue at ha
        simp only [bind_ok, attr_ok, number_ok, pure_ok] at ha
        obtain ⟨x, hx, q, hq, rfl⟩ := ha
        exact ⟨q, (ih h).1 e2, x, hx, hq⟩
    · rw [if_neg h0] at h
      rw [if_neg (fun e => h0 (Option.some.inj e))]
      exact ih h

theorem getViolations_ok {float : String → Option ℚ} {o : SpdOutputs} {vs : List (String × ℚ)} (h : getViolations float o = .ok vs)
    {period case : Attrs} (hv : ∀ name v, violationOf float o name = .ok v → ∃ q, v = some q ∧ ReportedValue float period case name q) :
    List.Forall₂ (fun n e => e.1 = n.1 ∧ ReportedValue float period case n.2 e.2) violationNames vs := by
  unfold getViolations at h
  rw [bind_ok] at h
  obtain ⟨l, hl, h⟩ := h
  rw [pure_ok] at h
  subst h
  have := mapM_ok.1 hl
  clear hl
  generalize violationNames = names at this ⊢
  induction this with
  | nil => exact .nil
  | cons hab _ ih =>
    rw [List.flatten_cons]
    unfold violationEntry at hab
    rw [bind_ok] at hab
    obtain ⟨v, h1, h2⟩ := hab
    obtain ⟨q, rfl, hq⟩ := hv _ _ h1
    rw [pure_ok] at h2
    subst h2
    exact .cons ⟨rfl, hq⟩ ih

/-- **C81** In an interval without intervention each kind of violation has the value reported for the period, or else for the
case. -/
theorem C81_violations (float : String → Option ℚ) (o : SpdOutputs) (vs : List (String × ℚ)) (h : getViolations float o = .ok vs)
    (period case : Attrs) (hp : o.period = .one period) (hc : o.case = .one case) :
    List.Forall₂ (fun n e => e.1 = n.1 ∧ ReportedValue float period case n.2 e.2) violationAttributes vs := by
  rw [← violationNames_eq]
  refine getViolations_ok h ?_
  intro name v hv
  unfold violationOf at hv
  rw [hp, hc] at hv
  dsimp only at hv
  cases hg : period.get? name with
  | some x =>
    rw [hg] at hv
    dsimp only at hv
    simp only [bind_ok, number_ok, pure_ok] at hv
    obtain ⟨q, hq, rfl⟩ := hv
    exact ⟨q, rfl, Or.inl ⟨x, hg, hq⟩⟩
  | none =>
    rw [hg] at hv
    dsimp only at hv
    simp only [bind_ok, attr_ok, number_ok, pure_ok] at hv
    obtain ⟨x, hx, q, hq, rfl⟩ := hv
    exact ⟨q, rfl, Or.inr ⟨hg, x, hx, hq⟩⟩

/-- **C81** In an interval with an intervention they are those of the run without intervention: whatever other solutions there
are, before or after it. -/
theorem C81_violations_intervention (float : String → Option ℚ) (o : SpdOutputs) (vs : List (String × ℚ))
    (h : getViolations float o = .ok vs) (ps cs : List Attrs) (period case : Attrs) (hp : o.period = .many ps) (hc : o.case = .many cs)
    (hp1 : physical ps = [period]) (hc1 : physical cs = [case]) :
    List.Forall₂ (fun n e => e.1 = n.1 ∧ ReportedValue float period case n.2 e.2) violationAttributes vs := by
  rw [← violationNames_eq]
  refine getViolations_ok h ?_
  intro name v hv
  unfold violationOf at hv
  rw [hp, hc] at hv
  dsimp only at hv
  rw [bind_ok] at hv
  obtain ⟨p, h1, h2⟩ := hv
  have hpv := (periodViolation_ok h1).2 period hp1
  have hcv := (caseViolation_ok h2).2
  cases hg : period.get? name with
  | some x =>
    obtain ⟨q, rfl, hq⟩ := hpv.2 (by rw [hg]; simp)
    exact ⟨q, hcv.1 q rfl, Or.inl hq⟩
  | none =>
    obtain rfl := hpv.1 hg
    obtain ⟨q, rfl, hq⟩ := hcv.2 case hc1 rfl
    exact ⟨q, rfl, Or.inr ⟨hg, hq⟩⟩

/-- all attributes but the ramp rates for the period, those for the case -/
def demoSolution (i ramp : String) : Attrs :=
  ("@Intervention", i) :: ((violationNames.map Prod.snd).filter (fun n => decide (n ≠ "@TotalRampRateViolation"))).map (fun n => (n, "0")) ++
    [("@TotalRampRateViolation", ramp)]

def demoOutputs : SpdOutputs :=
  ⟨.many [demoSolution "1" "10", [("@Intervention", "0"), ("@TotalRampRateViolation", "5")]],
   .many [demoSolution "0" "120", demoSolution "1" "120"],
   [[("@Intervention", "1"), ("@ConstraintID", "A"), ("@RHS", "0")], [("@Intervention", "0"), ("@ConstraintID", "A"), ("@RHS", "10")]]⟩

example : (getViolations demoFloat demoOutputs).toOption.map (fun vs => vs.filter (fun v => decide (v.2 ≠ 0))) = some [("ramp_rate", 5)] := by
  decide +kernel
example : physical [demoSolution "1" "10", [("@Intervention", "0"), ("@TotalRampRateViolation", "5")]] =
    [[("@Intervention", "0"), ("@TotalRampRateViolation", "5")]] := by decide +kernel

/-- **C81** Right hand sides: one row for each constraint of the run without intervention, in the order of the file. -/
theorem C81_rhs (float : String → Option ℚ) (o : SpdOutputs) (rows : List (String × ℚ)) (h : constraintRhs float o = .ok rows) :
    List.Forall₂ (fun c row => c.get? "@ConstraintID" = some row.1 ∧ IsNumber float c "@RHS" row.2) (physical o.constraints) rows := by
  unfold constraintRhs at h
  rw [bind_ok] at h
  obtain ⟨l, hl, h⟩ := h
  rw [pure_ok] at h
  subst h
  have := mapM_ok.1 hl
  clear hl
  generalize o.constraints = cs at this ⊢
  induction this with
  | nil => exact .nil
  | cons hab hr ih =>
    rw [List.flatten_cons, physical_cons]
    unfold rhsRow at hab
    simp only [bind_ok, attr_ok] at hab
    obtain ⟨i, hi, hab⟩ := hab
    rw [hi]
    by_cases h0 : i = "0"
    · rw [if_pos h0] at hab
      rw [if_pos (by rw [h0])]
      simp only [bind_ok, attr_ok, number_ok, pure_ok] at hab
      obtain ⟨set, h1, x, h2, q, h3, rfl⟩ := hab
      exact .cons ⟨h1, x, h2, h3⟩ ih
    · rw [if_neg h0, pure_ok] at hab
      rw [if_neg (fun e => h0 (Option.some.inj e))]
      subst hab
      exact ih

example : (constraintRhs demoFloat demoOutputs).toOption = some [("A", 10)] := by decide +kernel

/-! ### Terms -/

/-- The terms of one constraint in a table -/
theorem termsOf_ok {f : GenericConstraint × Attrs → Except XErr LhsRow} {part : GenericConstraint → Option (Coll Attrs)}
    {cs : List GenericConstraint} {rows : List LhsRow} (h : (allTerms part cs).mapM f = .ok rows)
    (hf : ∀ p row, f p = .ok row → p.1.attrs.get? "@ConstraintID" = some row.set) (set : String) :
    List.Forall₂ (fun p row => f p = .ok row)
      ((cs.filter fun c => decide (c.attrs.get? "@ConstraintID" = some set)).flatMap fun c => (termsOf (part c)).map fun term => (c, term))
      (rows.filter fun r => decide (r.set = set)) := by
  replace h := mapM_ok.1 h
  have key : ∀ {l : List (GenericConstraint × Attrs)} {rows : List LhsRow}, List.Forall₂ (fun p row => f p = .ok row) l rows →
      List.Forall₂ (fun p row => f p = .ok row) (l.filter fun p => decide (p.1.attrs.get? "@ConstraintID" = some set))
        (rows.filter fun r => decide (r.set = set)) := by
    intro l rows h
    induction h with
    | nil => exact .nil
    | @cons p r _ _ hab _ ih =>
      rw [List.filter_cons, List.filter_cons]
      have hs := hf _ _ hab
      by_cases he : r.set = set
      · rw [if_pos (decide_eq_true (by rw [hs, he])), if_pos (decide_eq_true he)]
        exact .cons hab ih
      · rw [if_neg (fun e => he (Option.some.inj (hs.symm.trans (of_decide_eq_true e)))), if_neg (fun e => he (of_decide_eq_true e))]
        exact ih
  have := key h
  have e : (allTerms part cs).filter (fun p => decide (p.1.attrs.get? "@ConstraintID" = some set)) =
      (cs.filter fun c => decide (c.attrs.get? "@ConstraintID" = some set)).flatMap fun c => (termsOf (part c)).map fun term => (c, term) := by
    unfold allTerms
    clear this key h
    induction cs with
    | nil => rfl
    | cons c cs ih =>
      rw [List.flatMap_cons, List.filter_append, ih, List.filter_cons]
      by_cases hc : c.attrs.get? "@ConstraintID" = some set
      · rw [if_pos (decide_eq_true hc), List.flatMap_cons]
        congr 1
        rw [List.filter_eq_self]
        intro p hp
        obtain ⟨t, -, rfl⟩ := List.mem_map.1 hp
        exact decide_eq_true hc
      · rw [if_neg (fun e => hc (of_decide_eq_true e))]
        have : ((termsOf (part c)).map fun term => (c, term)).filter (fun p => decide (p.1.attrs.get? "@ConstraintID" = some set)) = [] := by
          rw [List.filter_eq_nil_iff]
          intro p hp
          obtain ⟨t, -, rfl⟩ := List.mem_map.1 hp
          exact fun e => hc (of_decide_eq_true e)
        rw [this, List.nil_append]
  rw [e] at this
  exact this

/-- **C82** The rows of a constraint set in the table of unit coefficients are the terms of the constraint in the file, each once,
whether there are none, one or many. -/
theorem C82_unit_terms (float : String → Option ℚ) (cs : List GenericConstraint) (rows : List LhsRow) (h : unitLhs float cs = .ok rows)
    (set : String) :
    List.Forall₂ (fun p row => p.2.get? "@TraderID" = some row.subject ∧ p.2.get? "@TradeType" = some row.service ∧
        IsNumber float p.2 "@Factor" row.coefficient)
      ((cs.filter fun c => decide (c.attrs.get? "@ConstraintID" = some set)).flatMap fun c => (listedTerms c.trader).map fun term => (c, term))
      (rows.filter fun r => decide (r.set = set)) := by
  simp only [← termsOf_eq]
  have hok : ∀ p row, tradeTerm float "@TraderID" p = .ok row → p.1.attrs.get? "@ConstraintID" = some row.set ∧
      p.2.get? "@TraderID" = some row.subject ∧ p.2.get? "@TradeType" = some row.service ∧ IsNumber float p.2 "@Factor" row.coefficient := by
    intro p row hr
    unfold tradeTerm at hr
    simp only [bind_ok, attr_ok, number_ok, pure_ok] at hr
    obtain ⟨s, h1, u, h2, sv, h3, v, h4, q, h5, rfl⟩ := hr
    exact ⟨h1, h2, h3, v, h4, h5⟩
  exact (termsOf_ok h (fun p row hr => (hok p row hr).1) set).imp fun p row hr => (hok p row hr).2

/-- **C82** The same for regions. -/
theorem C82_region_terms (float : String → Option ℚ) (cs : List GenericConstraint) (rows : List LhsRow) (h : regionLhs float cs = .ok rows)
    (set : String) :
    List.Forall₂ (fun p row => p.2.get? "@RegionID" = some row.subject ∧ p.2.get? "@TradeType" = some row.service ∧
        IsNumber float p.2 "@Factor" row.coefficient)
      ((cs.filter fun c => decide (c.attrs.get? "@ConstraintID" = some set)).flatMap fun c => (listedTerms c.region).map fun term => (c, term))
      (rows.filter fun r => decide (r.set = set)) := by
  simp only [← termsOf_eq]
  have hok : ∀ p row, tradeTerm float "@RegionID" p = .ok row → p.1.attrs.get? "@ConstraintID" = some row.set ∧
      p.2.get? "@RegionID" = some row.subject ∧ p.2.get? "@TradeType" = some row.service ∧ IsNumber float p.2 "@Factor" row.coefficient := by
    intro p row hr
    unfold tradeTerm at hr
    simp only [bind_ok, attr_ok, number_ok, pure_ok] at hr
    obtain ⟨s, h1, u, h2, sv, h3, v, h4, q, h5, rfl⟩ := hr
    exact ⟨h1, h2, h3, v, h4, h5⟩
  exact (termsOf_ok h (fun p row hr => (hok p row hr).1) set).imp fun p row hr => (hok p row hr).2

/-- **C82** The same for interconnectors. -/
theorem C82_interconnector_terms (float : String → Option ℚ) (cs : List GenericConstraint) (rows : List LhsRow)
    (h : interLhs float cs = .ok rows) (set : String) :
    List.Forall₂ (fun p row => p.2.get? "@InterconnectorID" = some row.subject ∧ IsNumber float p.2 "@Factor" row.coefficient)
      ((cs.filter fun c => decide (c.attrs.get? "@ConstraintID" = some set)).flatMap fun c =>
        (listedTerms c.interconnector).map fun term => (c, term))
      (rows.filter fun r => decide (r.set = set)) := by
  simp only [← termsOf_eq]
  have hok : ∀ p row, interTerm float p = .ok row → p.1.attrs.get? "@ConstraintID" = some row.set ∧
      p.2.get? "@InterconnectorID" = some row.subject ∧ IsNumber float p.2 "@Factor" row.coefficient := by
    intro p row hr
    unfold interTerm at hr
    simp only [bind_ok, attr_ok, number_ok, pure_ok] at hr
    obtain ⟨s, h1, u, h2, v, h4, q, h5, rfl⟩ := hr
    exact ⟨h1, h2, v, h4, h5⟩
  exact (termsOf_ok h (fun p row hr => (hok p row hr).1) set).imp fun p row hr => (hok p row hr).2

def demoConstraint : GenericConstraint :=
  ⟨[("@ConstraintID", "N>>X")], none, some (.many [[("@TraderID", "A"), ("@TradeType", "ENOF"), ("@Factor", "5")],
    [("@TraderID", "B"), ("@TradeType", "ENOF"), ("@Factor", "10")]]), some (.one [("@InterconnectorID", "V-SA"), ("@Factor", "10")])⟩

example : (unitLhs demoFloat [demoConstraint]).toOption = some [⟨"N>>X", "A", "ENOF", 5⟩, ⟨"N>>X", "B", "ENOF", 10⟩] ∧
    (interLhs demoFloat [demoConstraint]).toOption = some [⟨"N>>X", "V-SA", "", 10⟩] ∧
    (regionLhs demoFloat [demoConstraint]).toOption = some [] := by decide +kernel

/-- **C82** Offers are those of market interconnectors only, each once with the region and the availability of the file. -/
theorem C82_links (float : String → Option ℚ) (inters : List InterPeriod) (rows : List (String × String × ℚ))
    (h : linkAvailability float inters = .ok rows) :
    List.Forall₂ (fun p row => p.1.attrs.get? "@InterconnectorID" = some row.1 ∧ p.2.get? "@RegionID" = some row.2.1 ∧
        IsNumber float p.2 "@MaxAvail" row.2.2)
      ((inters.filter fun i => decide (i.attrs.get? "@MNSP" = some "1")).flatMap fun i => i.offers.map fun o => (i, o)) rows := by
  unfold linkAvailability at h
  rw [bind_ok] at h
  obtain ⟨l, hl, h⟩ := h
  rw [pure_ok] at h
  subst h
  have := mapM_ok.1 hl
  clear hl
  induction this with
  | nil => exact .nil
  | @cons i bs _ _ hab _ ih =>
    rw [List.flatten_cons, List.filter_cons]
    unfold linkOffers at hab
    simp only [bind_ok, attr_ok] at hab
    obtain ⟨v, hv, hab⟩ := hab
    by_cases h1 : v = "1"
    · rw [if_pos h1] at hab
      rw [if_pos (decide_eq_true (by rw [hv, h1])), List.flatMap_cons]
      refine List.rel_append ?_ ih
      have := mapM_ok.1 hab
      rw [List.forall₂_map_left_iff]
      refine this.imp ?_
      intro o row hr
      unfold linkOffer at hr
      simp only [bind_ok, attr_ok, number_ok, pure_ok] at hr
      obtain ⟨id, h1, r, h2, x, h3, q, h4, rfl⟩ := hr
      exact ⟨h1, h2, x, h3, h4⟩
    · rw [if_neg h1, pure_ok] at hab
      subst hab
      rw [if_neg (fun e => h1 (Option.some.inj (hv.symm.trans (of_decide_eq_true e)))), List.nil_append]
      exact ih

example : (linkAvailability demoFloat [⟨[("@InterconnectorID", "V-SA"), ("@MNSP", "0")], [[("@RegionID", "SA1"), ("@MaxAvail", "5")]]⟩,
    ⟨[("@InterconnectorID", "T-V-MNSP1"), ("@MNSP", "1")], [[("@RegionID", "TAS1"), ("@MaxAvail", "5")], [("@RegionID", "VIC1"), ("@MaxAvail", "10")]]⟩]).toOption =
    some [("T-V-MNSP1", "TAS1", 5), ("T-V-MNSP1", "VIC1", 10)] := by decide +kernel

end Verif.Xml
