import Verif.Props.Signals
import Verif.Spec.Bands
import Verif.Lemmas.Fails
/-
C43 - C46: average true range, Supertrend, Heikin-Ashi candles.
-/
namespace TS
open PyVal

/-- series of candles for ATR and Supertrend -/
abbrev candles {α : Type} (l : List (CLH α)) : Val α := .tup [vSBuf (l.map CLH.close), vSBuf (l.map CLH.low), vSBuf (l.map CLH.high)]

theorem candles_ok {α : Type} (l : List (CLH α)) : (candles l).WF ∧ flatten (candles l) ≠ [] ∧ IsSeries (candles l) (l.map encCLH) := by
  refine ⟨by simp [WF_tup, vSBuf], by simp [flatten, flattens, vSBuf, PyVal.tup], ?_⟩
  exact isSeries_tup_map (A := CLH α) (es := [fun x => vS x.close, fun x => vS x.low, fun x => vS x.high])
    (.cons (numSeries_map _ l) (.cons (numSeries_map _ l) (.cons (numSeries_map _ l) .nil)))

/-! ### C43 -/

/-- **C43, every arithmetic**: the rolling moving average of the true ranges. -/
theorem C43_atr_streams {α : Type} [TFNum α] {p : Nat} (hp : 0 < p) :
    StreamsAs (ATR (p : Int) : Operator α) candles vSBuf (fun h => rollAvg p (trueRanges h)) :=
  (atr_tracks hp).streams candles_ok isSeries_vSBuf fun _ => rfl
example := C43_atr_streams (α := XR ℚ) (p := 2) (by norm_num)

section
variable {K : Type} [Field K] [LinearOrder K] [IsStrictOrderedRing K] [Transc K] [FloorRing K]

/-- series of candles of finite numbers -/
abbrev finCandles (l : List (CLH K)) : Val (XR K) := candles (l.map (CLH.map XR.fin))

theorem trueRangeOf_fin (prev low high : K) : trueRangeOf (XR.fin prev) (XR.fin low) (XR.fin high) = XR.fin (trueRangeK prev low high) := by
  unfold trueRangeOf trueRangeK
  by_cases h : prev = 0
  · simp [h, XR.redMax_cons, show (Arith.redMax [] : XR K) = .ninf from rfl, XR.max_ninf]
  · simp [h, XR.redMax_cons, show (Arith.redMax [] : XR K) = .ninf from rfl, XR.max_ninf]

theorem trueRangeK_nonneg (prev low high : K) : 0 ≤ trueRangeK prev low high := by
  unfold trueRangeK
  split
  · exact le_max_right _ _
  · exact le_trans (abs_nonneg _) (le_trans (le_max_left _ _) (le_max_right _ _))

/-- the true ranges of a series of candles -/
def trueRangesK (l : List (CLH K)) : List K := List.zipWith (fun prev c => trueRangeK prev c.low c.high) (0 :: l.map CLH.close) l

theorem trueRanges_fin (l : List (CLH K)) : trueRanges (l.map (CLH.map XR.fin)) = (trueRangesK l).map XR.fin := by
  simp only [trueRanges, trueRangesK, List.map_zipWith, List.map_map, Function.comp_def, CLH.map]
  rw [XR.zero_eq, show (XR.fin (0 : K)) :: l.map (fun x => XR.fin x.close) = (0 :: l.map CLH.close).map XR.fin by simp [Function.comp_def],
    List.zipWith_map]
  simp only [CLH.map, trueRangeOf_fin]

@[simp] theorem trueRangesK_length (l : List (CLH K)) : (trueRangesK l).length = l.length := by simp [trueRangesK]

theorem trueRangesK_getElem (l : List (CLH K)) (i : Nat) (hi : i < l.length) :
    (trueRangesK l)[i]'(by simpa using hi) = trueRangeK (closeBefore l i) l[i].low l[i].high := by
  simp only [trueRangesK, List.getElem_zipWith, closeBefore]
  cases i with
  | zero => simp
  | succ i => simp [List.getElem?_eq_getElem (show i < l.length by omega)]

theorem trueRangesK_take (l : List (CLH K)) (n : Nat) : trueRangesK (l.take n) = (trueRangesK l).take n := by
  apply List.ext_getElem (by simp)
  intro i h1 h2
  have hi : i < l.length := by simp at h1; omega
  rw [trueRangesK_getElem _ _ (by simpa using h1), List.getElem_take, List.getElem_take, trueRangesK_getElem _ _ hi]
  congr 1
  unfold closeBefore
  split
  · rfl
  · rw [List.getElem?_take, if_pos (by simp at h1; omega)]

theorem recursiveAvgK_nonneg {p : Nat} (hp : 0 < p) {w : K} (hw : 0 ≤ w ∧ w ≤ 1) {l : List K} (h : ∀ x ∈ l, 0 ≤ x) :
    0 ≤ recursiveAvgK p (fun m x => m + w * (x - m)) l := by
  by_cases hl : p ≤ l.length
  · exact (recursiveAvgK_bounds hp hw.1 hw.2 hl (b := l.sum) fun x hx => ⟨h x hx, List.single_le_sum h x hx⟩).1
  · rw [recursiveAvgK, List.drop_eq_nil_of_le (by omega), List.foldl_nil, movingAvgK, if_pos (by rw [List.length_take]; omega)]

/-- average true range on numbers -/
def atrK (p : Nat) (l : List (CLH K)) : K := recursiveAvgK p (fun m x => m + 1 / (p : K) * (x - m)) (trueRangesK l)

theorem atr_fin {p : Nat} (hp : 0 < p) (l : List (CLH K)) : atrOf p (l.map (CLH.map XR.fin)) = XR.fin (atrK p l) := by
  rw [atrOf, trueRanges_fin, rollAvg_fin hp, atrK]

theorem atrK_nonneg {p : Nat} (hp : 0 < p) (l : List (CLH K)) : 0 ≤ atrK p l := by
  refine recursiveAvgK_nonneg hp (rma_weight hp) fun x hx => ?_
  obtain ⟨i, hi, rfl⟩ := List.mem_iff_getElem.1 hx
  rw [trueRangesK_getElem _ _ (by simpa using hi)]
  exact trueRangeK_nonneg _ _ _

theorem atr_reals {p : Nat} (hp : 0 < p) : StreamsAs (ATR (p : Int) : Operator (XR K)) finCandles finSeries (atrK p) :=
  (C43_atr_streams hp).comap (CLH.map XR.fin) XR.fin fun l _ => atr_fin hp l

theorem rma_reals {p : Nat} (hp : 0 < p) : StreamsAs (RMA (p : Int) : Operator (XR K)) finSeries finSeries (recursiveAvgK p (fun m x => m + 1 / (p : K) * (x - m))) :=
  ((C27_rma (α := XR K) hp []).scalar (y' := rollAvg p) fun l _ => rollAvg_pt p l).fin fun l _ => rollAvg_fin hp l

/-- **C43 Average true range**, exact arithmetic: what `RollingMovingAverage(p)` outputs on the true ranges; never negative. -/
theorem C43_atr {p : Nat} (hp : 0 < p) {xs : List (CLH K)} (hx : xs ≠ []) :
    ∃ os trs : List K, (∃ sf s0, call (ATR (p : Int)) (finCandles xs) none = .ok (finSeries os, sf, s0)) ∧
      (∃ sf s0, call (RMA (p : Int)) (finSeries trs) none = .ok (finSeries os, sf, s0)) ∧
      (∃ hl : trs.length = xs.length, ∀ i (hi : i < xs.length), trs[i] = trueRangeK (closeBefore xs i) xs[i].low xs[i].high) ∧
      ∀ o ∈ os, 0 ≤ o := by
  obtain ⟨sf, s0, h⟩ := (atr_reals hp).at' hx
  obtain ⟨sf', s0', h'⟩ := (rma_reals (K := K) hp).at' (xs := trueRangesK xs) (by rw [← List.length_pos_iff] at hx ⊢; simpa using hx)
  refine ⟨_, trueRangesK xs, ⟨sf, s0, h⟩, ⟨sf', s0', ?_⟩, ⟨by simp, fun i hi => trueRangesK_getElem xs i hi⟩, ?_⟩
  · rw [h']
    have : scan (recursiveAvgK p fun m x => m + 1 / (p : K) * (x - m)) [] (trueRangesK xs) = scan (atrK p) [] xs := by
      apply List.ext_getElem (by simp)
      intro i h1 h2
      simp only [scan_getElem, List.nil_append, atrK, trueRangesK_take]
    rw [this]
  · intro o ho
    obtain ⟨k, -, -, rfl⟩ := mem_scan ho
    exact atrK_nonneg hp _
example := C43_atr (K := ℚ) (p := 2) (by norm_num) (xs := [⟨9, 8, 10⟩, ⟨8, 7, 9⟩, ⟨10, 9, 11⟩]) (by simp)

/-- With `low ≤ high` the true range of a candle without a previous close is `high - low`. -/
theorem C43_first_range {low high : K} (h : low ≤ high) : trueRangeK 0 low high = high - low := by
  simp [trueRangeK, h]

end

/-- candles of rational numbers -/
abbrev qCandles (l : List (ℚ × ℚ × ℚ)) : Val (XR ℚ) := finCandles (l.map fun z => ⟨z.1, z.2.1, z.2.2⟩)

example : output (call (ATR 2) (qCandles [(10, 9, 11), (20, 19, 21), (15, 14, 16)]) none) = .ok (series [0, 13 / 2, 25 / 4]) := by decide +kernel

/-! ### C44, C45 -/

theorem supertrendCond_none {α : Type} [TFNum α] {factor : ℚ} (b : Bands α) (prev atr : α) (x : CLH α) (h : bandsStep factor b prev atr x = none) (r) :
    supertrendCond factor x.close x.low x.high atr prev b.upper b.lower b.trend ≠ .ok r := by
  unfold bandsStep at h
  unfold supertrendCond
  by_cases h0 : TFNum.eq atr (Arith.ofRat 0) = true
  · simp [h0] at h
  · simp only [h0] at h ⊢
    simp only [supertrendDefault]
    cases h1 : TFNum.lt b.upper x.close <;> cases h2 : TFNum.lt x.close b.lower <;> simp [h1, h2] at h
    simp [tfCaseExclusive]

theorem supertrend_fails {α : Type} [TFNum α] {p : Nat} {factor : ℚ} (hp : 0 < p) (h : List (CLH α)) (x : CLH α) (hh : h = [] ∨ Trending p factor h)
    (hn : ¬ Trending p factor (h ++ [x])) (r) : (Supertrend (p : Int) factor).forwardStep (encCLH x) (some (superState p factor h)) ≠ .ok r := by
  have h1 := (atr_tracks (α := α) hp).step_next (h := h) (x := x) trivial
  have hb : bandsOf p factor h = some (bandsD p factor h) := by
    rcases hh with rfl | hh
    · rfl
    · obtain ⟨b, hb⟩ := Option.isSome_iff_exists.1 hh
      rw [bandsD, hb, Option.getD_some]
  have h2 : bandsStep factor (bandsD p factor h) (lastClose h) (atrOf p (h ++ [x])) x = none := by
    rw [Trending, bandsOf_snoc, hb, Option.bind_some] at hn
    simpa using hn
  have h3 := supertrendCond_none _ _ _ _ h2
  simp only [encCLH] at h1
  simp only [Supertrend, streamable, unpackArgs, arity, encCLH, PyVal.tup, superState]
  simp only [PyVal.tup] at h1
  simp [h1]
  cases hc : supertrendCond factor x.close x.low x.high (atrOf p (h ++ [x])) (lastClose h) (bandsD p factor h).upper (bandsD p factor h).lower
    (bandsD p factor h).trend with
  | error e => simp
  | ok z => exact absurd hc (h3 z)

theorem trending_first {α : Type} [TFNum α] {p : Nat} {factor : ℚ} (hp : 0 < p) (x : CLH α) (hn : ¬ Trending p factor [x]) (r) :
    (Supertrend (p : Int) factor).forwardStep (encCLH x) none ≠ .ok r := by
  have h1 := (atr_tracks (α := α) hp).step_fresh (x := x) trivial
  have h2 : bandsStep factor (noBands : Bands α) (lastClose []) (atrOf p [x]) x = none := by
    have := bandsOf_snoc (p := p) (factor := factor) [] x
    rw [List.nil_append] at this
    rw [Trending, this] at hn
    simpa [bandsOf, bandsRev] using hn
  have h3 := supertrendCond_none _ _ _ _ h2
  have hl : lastClose ([] : List (CLH α)) = Arith.ofRat 0 := rfl
  rw [hl] at h3
  simp only [encCLH] at h1
  simp only [Supertrend, streamable, unpackArgs, arity, encCLH, PyVal.tup]
  simp only [PyVal.tup] at h1
  simp [h1]
  simp [noBands] at h3
  cases hc : supertrendCond factor x.close x.low x.high (atrOf p [x]) (Arith.ofRat 0) (Arith.ofRat 0) (Arith.ofRat 0) 0 with
  | error e => simp
  | ok z => exact absurd hc (h3 _ _ _ _)

/-- **C45, every arithmetic**: a call of Supertrend succeeds exactly when no step has its close at once above the upper and below the
lower of the previous bands; its outputs are then the lines of the bands. -/
theorem C45_supertrend_streams {α : Type} [TFNum α] {p : Nat} (hp : 0 < p) (factor : ℚ) {xs : List (CLH α)} (hx : xs ≠ []) :
    ((∃ r, call (Supertrend (p : Int) factor) (candles xs) none = .ok r) ↔ ∀ k, 0 < k → k ≤ xs.length → (bandsOf p factor (xs.take k)).isSome) ∧
    ∀ r, call (Supertrend (p : Int) factor) (candles xs) none = .ok r → r.1 = vSBuf (scan (fun h => ((bandsOf p factor h).getD noBands).line) [] xs) := by
  have h1 : ∀ r, call (Supertrend (p : Int) factor) (candles xs) none = .ok r → ∀ k, 0 < k → k ≤ xs.length → Trending p factor (xs.take k) := fun r hr =>
    (supertrend_tracks (factor := factor) hp).sound (Regular.libOK (Supertrend_regular _ _)) (fun x hv => trending_first hp x hv)
      (fun h x hh hv => supertrend_fails hp h x hh hv) hx (candles_ok xs).1 (candles_ok xs).2.1 (candles_ok xs).2.2 hr
  have h2 : (∀ k, 0 < k → k ≤ xs.length → Trending p factor (xs.take k)) → call (Supertrend (p : Int) factor) (candles xs) none =
      .ok (vSBuf (scan (fun h => (bandsD p factor h).line) [] xs), superState p factor xs, superState p factor []) := fun hv => by
    refine (supertrend_tracks hp).eval hx hv (candles_ok xs).1 (candles_ok xs).2.1 (candles_ok xs).2.2 ?_
    have := isSeries_vSBuf (scan (fun h => (bandsD p factor h).line) [] xs)
    rwa [scan_map] at this
  refine ⟨⟨fun ⟨r, hr⟩ => h1 r hr, fun hv => ⟨_, h2 hv⟩⟩, fun r hr => ?_⟩
  have := h2 (h1 r hr)
  rw [hr] at this
  cases this
  rfl
example := C45_supertrend_streams (α := XR ℚ) (p := 2) (by norm_num) 2 (xs := [⟨.fin 9, .fin 8, .fin 10⟩, ⟨.fin 8, .fin 7, .fin 9⟩]) (by simp)

/-- **Supertrend can fail**: period 1, factor 1/4, three well-formed candles (close, low, high).  The first two steps go through; the third close,
15, is above the upper band 10.5 and below the lower band 17.25. -/
theorem C44_supertrend_fails :
    output (call (Supertrend 1 (1 / 4)) (qCandles [(10, 9, 11), (20, 19, 21)]) none) = .ok (series [19 / 2, 69 / 4]) ∧
    output (call (Supertrend 1 (1 / 4)) (qCandles [(10, 9, 11), (20, 19, 21), (15, 14, 16)]) none) = .error .exclusive :=
  ⟨by decide +kernel, by decide +kernel⟩
example := C44_supertrend_fails

section
variable {K : Type} [Field K] [LinearOrder K] [IsStrictOrderedRing K] [Transc K] [FloorRing K]

/-- one step of Supertrend on numbers -/
def bandsStepK (factor : K) (b : Bands K) (prevClose atr : K) (x : CLH K) : Option (Bands K) :=
  if atr = 0 then some ⟨0, 0, 0, 0⟩
  else
    let lo := (x.high + x.low) / 2 - factor * atr
    let up := (x.high + x.low) / 2 + factor * atr
    let lower := if b.lower < prevClose then max lo b.lower else lo
    let upper := if prevClose < b.upper then min up b.upper else up
    let trend := if b.upper < x.close then 1 else if x.close < b.lower then -1 else if b.trend = 0 then 1 else b.trend
    if b.upper < x.close ∧ x.close < b.lower then none
    else some ⟨upper, lower, trend, if trend = 1 then lower else upper⟩

theorem bandsStep_fin (factor : ℚ) (b : Bands K) (prev atr : K) (x : CLH K) :
    bandsStep factor (b.map XR.fin) (XR.fin prev) (XR.fin atr) (x.map XR.fin) = (bandsStepK (factor : K) b prev atr x).map (Bands.map XR.fin) := by
  have h2 : ((2 : ℚ) : K) ≠ 0 := by norm_num
  unfold bandsStep bandsStepK
  simp only [Bands.map, CLH.map, XR.ofRat_eq, XR.eq_fin, XR.lt_fin, XR.fin_add, XR.fin_div _ _ h2, XR.fin_mul, XR.fin_sub, XR.max_fin, XR.min_fin,
    Rat.cast_zero, decide_eq_true_eq]
  by_cases h0 : atr = 0
  · simp [h0, noBands, Bands.map]
  · simp only [h0, if_false, Rat.cast_ofNat]
    by_cases h3 : b.upper < x.close <;> by_cases h4 : x.close < b.lower <;> simp only [h3, h4, decide_true, decide_false, and_self, and_false, false_and, if_true, if_false,
      Option.map_none, Option.map_some, Option.some.injEq] <;> (try rfl)
    all_goals
      by_cases h5 : b.lower < prev <;> by_cases h6 : prev < b.upper <;> simp only [h5, h6, if_true, if_false] <;> (try rfl)
    all_goals
      by_cases h7 : b.trend = 0
      · simp [h7, Bands.map]
      · by_cases h8 : b.trend = 1 <;> simp [h7, h8, Bands.map]

/-- the close before the next candle -/
def lastCloseK (h : List (CLH K)) : K := (h.map CLH.close).getLastD 0

def bandsRevK (p : Nat) (factor : K) : List (CLH K) → Option (Bands K)
  | [] => some ⟨0, 0, 0, 0⟩
  | x :: older => (bandsRevK p factor older).bind fun b => bandsStepK factor b (lastCloseK older.reverse) (atrK p (x :: older).reverse) x

/-- Supertrend after a history -/
def bandsOfK (p : Nat) (factor : K) (h : List (CLH K)) : Option (Bands K) := bandsRevK p factor h.reverse

theorem bandsOfK_snoc (p : Nat) (factor : K) (h : List (CLH K)) (x : CLH K) : bandsOfK p factor (h ++ [x]) =
    (bandsOfK p factor h).bind fun b => bandsStepK factor b (lastCloseK h) (atrK p (h ++ [x])) x := by
  simp [bandsOfK, bandsRevK]

theorem lastClose_fin (l : List (CLH K)) : lastClose (l.map (CLH.map XR.fin)) = XR.fin (lastCloseK l) := by
  induction l using List.reverseRecOn with
  | nil => simp [lastClose, lastCloseK]
  | append_singleton l x _ => simp [lastClose, lastCloseK, CLH.map]

theorem bandsOf_fin {p : Nat} (hp : 0 < p) (factor : ℚ) (l : List (CLH K)) :
    bandsOf p factor (l.map (CLH.map XR.fin)) = (bandsOfK p (factor : K) l).map (Bands.map XR.fin) := by
  induction l using List.reverseRecOn with
  | nil => simp [bandsOf, bandsRev, bandsOfK, bandsRevK, Bands.map, noBands]
  | append_singleton l x ih =>
    have ha := atr_fin hp (l ++ [x])
    rw [List.map_append, List.map_cons, List.map_nil] at ha ⊢
    rw [bandsOf_snoc, bandsOfK_snoc, ih, ha, lastClose_fin]
    cases bandsOfK p (factor : K) l with
    | none => rfl
    | some b => simp only [Option.map_some, Option.bind_some, bandsStep_fin]

theorem lastCloseK_take {xs : List (CLH K)} {i : Nat} (hi : i ≤ xs.length) : lastCloseK (xs.take i) = closeBefore xs i := by
  cases i with
  | zero => simp [lastCloseK, closeBefore]
  | succ i =>
    rw [List.take_succ_eq_append_getElem (by omega)]
    rw [lastCloseK, List.map_append, List.map_cons, List.map_nil, getLastD_snoc, closeBefore, if_neg (by omega), Nat.add_sub_cancel,
      List.getElem?_eq_getElem (by omega)]
    rfl

theorem bandsStepK_some {factor : K} {b b' : Bands K} {prev atr : K} {x : CLH K} (h : bandsStepK factor b prev atr x = some b') :
    SuperStep factor b prev atr x b' ∧ (atr ≠ 0 → ¬ Clash b x) := by
  unfold bandsStepK at h
  unfold SuperStep Clash
  split at h
  · rename_i h0
    cases h
    exact ⟨⟨fun _ => rfl, fun hn => absurd h0 hn⟩, fun hn => absurd h0 hn⟩
  · rename_i h0
    dsimp only at h
    split at h
    · exact absurd h (by simp)
    · rename_i hc
      cases h
      exact ⟨⟨fun h => absurd h h0, fun _ => ⟨rfl, rfl, rfl, rfl⟩⟩, fun _ => hc⟩

/-- What one step says about the output, the trend and the movement of the bands. -/
theorem SuperStep.spec {factor : K} {b b' : Bands K} {prev atr : K} {x : CLH K} (h : SuperStep factor b prev atr x b')
    (ht : b.trend = 0 ∨ b.trend = 1 ∨ b.trend = -1) :
    (atr = 0 → b'.line = 0) ∧
    (atr ≠ 0 → (b'.trend = 1 ∧ b'.line = b'.lower ∨ b'.trend = -1 ∧ b'.line = b'.upper) ∧
      (b.lower < prev → b.lower ≤ b'.lower) ∧ (prev < b.upper → b'.upper ≤ b.upper)) ∧
    (b'.trend = 0 ∨ b'.trend = 1 ∨ b'.trend = -1) := by
  obtain ⟨h0, h1⟩ := h
  refine ⟨fun ha => by rw [h0 ha], fun ha => ?_, ?_⟩
  · obtain ⟨e1, e2, e3, e4⟩ := h1 ha
    refine ⟨?_, fun hb => ?_, fun hb => ?_⟩
    · have : b'.trend = 1 ∨ b'.trend = -1 := by
        rw [e3]; split <;> [skip; split <;> [skip; split]] <;> omega
      rcases this with h | h
      · exact .inl ⟨h, by rw [e4, if_pos h]⟩
      · exact .inr ⟨h, by rw [e4, if_neg (by rw [h]; decide)]⟩
    · rw [e1, if_pos hb]; exact le_max_right _ _
    · rw [e2, if_pos hb]; exact min_le_right _ _
  · by_cases ha : atr = 0
    · rw [h0 ha]; exact .inl rfl
    · obtain ⟨-, -, e3, -⟩ := h1 ha
      rw [e3]; split <;> [skip; split <;> [skip; split]] <;> omega

/-- **C45 Supertrend bands**, exact arithmetic: whenever the call succeeds, there are bands `bs i` before and `bs (i + 1)` after every candle `i`
which follow the rule `SuperStep` from zero bands, with the average true range that `ATR(p)` outputs, and
* the output is zero where the average true range is zero;
* elsewhere the trend is +1 and the output the lower band, or the trend is -1 and the output the upper band;
* elsewhere, if the previous close is above the lower band, the lower band does not decrease; if it is below the upper band,
  the upper band does not increase. -/
theorem C45_supertrend {p : Nat} (hp : 0 < p) (factor : ℚ) {xs : List (CLH K)} (hx : xs ≠ []) {r : Step (XR K)}
    (hr : call (Supertrend (p : Int) factor) (finCandles xs) none = .ok r) :
    ∃ (os as : List K) (bs : Nat → Bands K), r.1 = finSeries os ∧ (∃ sf s0, call (ATR (p : Int)) (finCandles xs) none = .ok (finSeries as, sf, s0)) ∧
      ∃ (l1 : os.length = xs.length) (l2 : as.length = xs.length), bs 0 = ⟨0, 0, 0, 0⟩ ∧ ∀ i (hi : i < xs.length),
        SuperStep (factor : K) (bs i) (closeBefore xs i) as[i] xs[i] (bs (i + 1)) ∧ os[i] = (bs (i + 1)).line ∧
        (as[i] = 0 → os[i] = 0) ∧
        (as[i] ≠ 0 → ((bs (i + 1)).trend = 1 ∧ os[i] = (bs (i + 1)).lower ∨ (bs (i + 1)).trend = -1 ∧ os[i] = (bs (i + 1)).upper) ∧
          ((bs i).lower < closeBefore xs i → (bs i).lower ≤ (bs (i + 1)).lower) ∧
          (closeBefore xs i < (bs i).upper → (bs (i + 1)).upper ≤ (bs i).upper)) := by
  obtain ⟨h1, h2⟩ := C45_supertrend_streams (α := XR K) hp factor (xs := xs.map (CLH.map XR.fin)) (by simpa using hx)
  have hok := h1.1 ⟨r, hr⟩
  have hout := h2 r hr
  obtain ⟨sf, s0, ha⟩ := (atr_reals (K := K) hp).at' hx
  have hsome : ∀ k, k ≤ xs.length → (bandsOfK p (factor : K) (xs.take k)).isSome := by
    intro k hk
    cases k with
    | zero => rfl
    | succ k =>
      have := hok (k + 1) (by omega) (by simpa using hk)
      rw [← List.map_take, bandsOf_fin hp] at this
      simpa using this
  let bs : Nat → Bands K := fun k => (bandsOfK p (factor : K) (xs.take k)).getD ⟨0, 0, 0, 0⟩
  have hbs : ∀ k, k ≤ xs.length → bandsOfK p (factor : K) (xs.take k) = some (bs k) := fun k hk => by
    obtain ⟨b, hb⟩ := Option.isSome_iff_exists.1 (hsome k hk)
    simp only [bs, hb, Option.getD_some]
  have hstep : ∀ i (hi : i < xs.length), bandsStepK (factor : K) (bs i) (closeBefore xs i) (atrK p (xs.take (i + 1))) xs[i] = some (bs (i + 1)) := by
    intro i hi
    have := hbs (i + 1) (by omega)
    rw [List.take_succ_eq_append_getElem hi, bandsOfK_snoc, hbs i (by omega), Option.bind_some, lastCloseK_take (by omega),
      ← List.take_succ_eq_append_getElem hi] at this
    exact this
  have htrend : ∀ i, i ≤ xs.length → (bs i).trend = 0 ∨ (bs i).trend = 1 ∨ (bs i).trend = -1 := by
    intro i
    induction i with
    | zero => intro _; exact .inl rfl
    | succ i ih => intro hi; exact ((bandsStepK_some (hstep i (by omega))).1.spec (ih (by omega))).2.2
  have e := scan_comap (y := fun h => ((bandsOf p factor h).getD noBands).line) (f := CLH.map XR.fin) (g := XR.fin)
    (y' := fun h => ((bandsOfK p (factor : K) h).getD ⟨0, 0, 0, 0⟩).line) (fun l _ => by
      simp only [bandsOf_fin hp]
      cases bandsOfK p (factor : K) l <;> simp [Bands.map, noBands]) [] xs
  rw [List.map_nil] at e
  refine ⟨_, _, bs, hout.trans (by rw [e]), ⟨sf, s0, ha⟩, by simp, by simp, rfl, fun i hi => ?_⟩
  have hs := (bandsStepK_some (hstep i hi)).1
  have hsp := hs.spec (htrend i (by omega))
  have hline : (scan (fun h => ((bandsOfK p (factor : K) h).getD ⟨0, 0, 0, 0⟩).line) [] xs)[i]'(by simpa using hi) = (bs (i + 1)).line := by
    rw [scan_getElem, List.nil_append]
  have hatr : (scan (atrK p) [] xs)[i]'(by simpa using hi) = atrK p (xs.take (i + 1)) := by rw [scan_getElem, List.nil_append]
  rw [hline, hatr]
  exact ⟨hs, rfl, hsp.1, hsp.2.1⟩
example (r) (hr : call (Supertrend (1 : Nat) 1) (finCandles [(⟨10, 9, 11⟩ : CLH ℚ), ⟨20, 19, 21⟩, ⟨15, 14, 16⟩, ⟨5, 4, 6⟩]) none = .ok r) := C45_supertrend (by norm_num) 1 (by simp) hr
example : output (call (Supertrend (1 : Nat) 1) (finCandles [(⟨10, 9, 11⟩ : CLH ℚ), ⟨20, 19, 21⟩, ⟨15, 14, 16⟩, ⟨5, 4, 6⟩]) none) = .ok (series [8, 9, 9, 16]) := by decide +kernel

theorem finSeries_inj {xs ys : List K} (h : (finSeries xs : Val (XR K)) = finSeries ys) : xs = ys := by
  have h1 := isSeries_vSBuf (xs.map XR.fin)
  have h2 := isSeries_vSBuf (ys.map XR.fin)
  rw [← show finSeries xs = vSBuf (xs.map XR.fin) from rfl] at h1
  rw [← show finSeries ys = vSBuf (ys.map XR.fin) from rfl, ← h] at h2
  have := h1.det (by simp [flatten, vSBuf]) h2
  simp only [List.map_map] at this
  refine List.map_injective_iff.2 (fun a b hab => ?_) this
  simpa using congrFun (show (fun _ : Idx [] => (XR.fin a : XR K)) = fun _ => XR.fin b by simpa using hab) ()

/-- **C44, small gaps**: with a non-negative factor, if from the second candle on the previous close is within `factor * ATR` of the middle of the candle
(where the ATR is not zero), Supertrend streams without error. -/
theorem C44_small_gaps {p : Nat} (hp : 0 < p) {factor : ℚ} (hf : 0 ≤ factor) {xs : List (CLH K)} (hx : xs ≠ []) {as : List K} {sf s0 : Val (XR K)}
    (ha : call (ATR (p : Int)) (finCandles xs) none = .ok (finSeries as, sf, s0))
    (hgap : ∀ i (_ : 0 < i) (hi : i < xs.length), ∀ a, as[i]? = some a → a ≠ 0 → |(xs[i].high + xs[i].low) / 2 - closeBefore xs i| ≤ (factor : K) * a) :
    ∃ r, call (Supertrend (p : Int) factor) (finCandles xs) none = .ok r := by
  obtain ⟨sf', s0', ha'⟩ := (atr_reals (K := K) hp).at' hx
  rw [ha] at ha'
  have has : as = scan (atrK p) [] xs := by
    simp only [Except.ok.injEq, Prod.mk.injEq] at ha'
    exact finSeries_inj ha'.1
  refine (C45_supertrend_streams (α := XR K) hp factor (xs := xs.map (CLH.map XR.fin)) (by simpa using hx)).1.2 fun k _ hk => ?_
  rw [← List.map_take, bandsOf_fin hp, Option.isSome_map]
  have key : ∀ k, k ≤ xs.length → ∃ b, bandsOfK p (factor : K) (xs.take k) = some b ∧ b.lower ≤ b.upper ∧ (k = 0 → b = ⟨0, 0, 0, 0⟩) := by
    intro k
    induction k with
    | zero => intro _; exact ⟨_, rfl, le_refl _, fun _ => rfl⟩
    | succ i ih =>
      intro hi
      obtain ⟨b, hb, hle, hz⟩ := ih (by omega)
      have hi' : i < xs.length := by omega
      have e : bandsOfK p (factor : K) (xs.take (i + 1)) = bandsStepK (factor : K) b (closeBefore xs i) (atrK p (xs.take (i + 1))) xs[i] := by
        rw [List.take_succ_eq_append_getElem hi', bandsOfK_snoc, hb, Option.bind_some, lastCloseK_take (by omega)]
      have hnn := mul_nonneg (show (0 : K) ≤ factor by exact_mod_cast hf) (atrK_nonneg hp (xs.take (i + 1)))
      rw [e]
      unfold bandsStepK
      by_cases h0 : atrK p (xs.take (i + 1)) = 0
      · exact ⟨_, if_pos h0, le_refl _, by omega⟩
      · rw [if_neg h0]
        dsimp only
        rw [if_neg (fun h => absurd (h.1.trans h.2) (not_lt.2 hle))]
        refine ⟨_, rfl, ?_, by omega⟩
        dsimp only
        by_cases hi0 : i = 0
        · subst hi0
          rw [hz rfl]
          simp only [closeBefore, if_true, lt_irrefl, if_false]
          linarith
        · have hg := hgap i (by omega) hi' (atrK p (xs.take (i + 1))) (by
            rw [has, List.getElem?_eq_getElem (by simpa using hi'), scan_getElem, List.nil_append]) h0
          rw [abs_le] at hg
          split <;> split <;> (try simp only [max_le_iff, le_min_iff]) <;> (try constructor) <;> (try constructor) <;> linarith
  obtain ⟨b, hb, -⟩ := key k (by simpa using hk)
  rw [hb]; rfl

end

example : output (call (Supertrend 1 1) (qCandles [(10, 9, 11), (20, 19, 21), (15, 14, 16), (5, 4, 6)]) none) = .ok (series [8, 9, 9, 16]) := by decide +kernel

/-! ### C46 -/

/-- series of candles for Heikin-Ashi -/
abbrev candles4 {α : Type} (l : List (OHLC α)) : Val α :=
  .tup [vSBuf (l.map OHLC.opn), vSBuf (l.map OHLC.high), vSBuf (l.map OHLC.low), vSBuf (l.map OHLC.close)]

theorem candles4_ok {α : Type} (l : List (OHLC α)) : (candles4 l).WF ∧ flatten (candles4 l) ≠ [] ∧ IsSeries (candles4 l) (l.map encOHLC) := by
  refine ⟨by simp [WF_tup, vSBuf], by simp [flatten, flattens, vSBuf, PyVal.tup], ?_⟩
  exact isSeries_tup_map (A := OHLC α) (es := [fun x => vS x.opn, fun x => vS x.high, fun x => vS x.low, fun x => vS x.close])
    (.cons (numSeries_map _ l) (.cons (numSeries_map _ l) (.cons (numSeries_map _ l) (.cons (numSeries_map _ l) .nil))))

/-- **C46, every arithmetic.** -/
theorem C46_heikinAshi_streams {α : Type} [TFNum α] :
    StreamsAs (HeikinAshi : Operator α) candles4 candles4 (fun h => haCandle (h.dropLast.getLastD noCandle) (h.getLastD noCandle)) :=
  ha_tracks.streams candles4_ok (fun l => (candles4_ok l).2.2) fun _ => rfl
example := C46_heikinAshi_streams (α := XR ℚ)

section
variable {K : Type} [Field K] [LinearOrder K] [IsStrictOrderedRing K] [Transc K] [FloorRing K]

abbrev finCandles4 (l : List (OHLC K)) : Val (XR K) := candles4 (l.map (OHLC.map XR.fin))

/-- Heikin-Ashi candle on numbers -/
def haK (prev x : OHLC K) : OHLC K :=
  if prev.opn = 0 then x
  else
    let c := (x.opn + x.high + x.low + x.close) / 4
    let o := (prev.opn + prev.close) / 2
    ⟨o, max x.high (max c o), min x.low (min c o), c⟩

theorem ha_fin (prev x : OHLC K) : haCandle (prev.map XR.fin) (x.map XR.fin) = (haK prev x).map XR.fin := by
  have h2 : ((2 : ℚ) : K) ≠ 0 := by norm_num
  have h4 : ((4 : ℚ) : K) ≠ 0 := by norm_num
  have hs : (Arith.sum [XR.fin x.close, XR.fin x.low, XR.fin x.high, XR.fin x.opn] : XR K) = XR.fin (x.opn + x.high + x.low + x.close) := by
    have := XR.sum_fin [x.close, x.low, x.high, x.opn]
    simp only [List.map_cons, List.map_nil, List.sum_cons, List.sum_nil] at this
    rw [this]
    congr 1
    ring
  unfold haCandle haK
  simp only [OHLC.map, XR.ofRat_eq, XR.eq_fin, Rat.cast_zero, decide_eq_true_eq, hs, XR.fin_add, XR.fin_div _ _ h2, XR.fin_div _ _ h4]
  by_cases h : prev.opn = 0
  · simp [h]
  · simp [h, XR.redMax_cons, XR.redMin_cons, show (Arith.redMax [] : XR K) = .ninf from rfl, show (Arith.redMin [] : XR K) = .pinf from rfl,
      XR.max_ninf, XR.min_pinf]

/-- **C46 Heikin-Ashi**, exact arithmetic: the first candle is copied; a later one whose previous open is not zero has the midpoint of the previous
*raw* open and close as open, the mean of its four prices as close, and the extrema of the raw high and low and these two as
high and low; so open and close are between low and high. -/
theorem C46_heikinAshi {xs : List (OHLC K)} (hx : xs ≠ []) :
    ∃ (ys : List (OHLC K)) (sf s0 : Val (XR K)), call HeikinAshi (finCandles4 xs) none = .ok (finCandles4 ys, sf, s0) ∧ ∃ hl : ys.length = xs.length,
      (∀ h : 0 < xs.length, ys[0] = xs[0]) ∧
      ∀ i (hi : i + 1 < xs.length), xs[i].opn ≠ 0 →
        ys[i + 1].opn = (xs[i].opn + xs[i].close) / 2 ∧
        ys[i + 1].close = (xs[i + 1].opn + xs[i + 1].high + xs[i + 1].low + xs[i + 1].close) / 4 ∧
        ys[i + 1].high = max xs[i + 1].high (max ys[i + 1].close ys[i + 1].opn) ∧
        ys[i + 1].low = min xs[i + 1].low (min ys[i + 1].close ys[i + 1].opn) ∧
        (ys[i + 1].low ≤ ys[i + 1].opn ∧ ys[i + 1].opn ≤ ys[i + 1].high) ∧
        (ys[i + 1].low ≤ ys[i + 1].close ∧ ys[i + 1].close ≤ ys[i + 1].high) := by
  let none : OHLC K := ⟨0, 0, 0, 0⟩
  have hg : ∀ l : List (OHLC K), (l.map (OHLC.map XR.fin)).getLastD noCandle = (l.getLastD none).map XR.fin := by
    intro l
    induction l using List.reverseRecOn with
    | nil => simp [noCandle, none, OHLC.map]
    | append_singleton l x _ => simp
  obtain ⟨ys, sf, s0, h1, hl, h2⟩ := ((C46_heikinAshi_streams (α := XR K)).comap (OHLC.map XR.fin) (OHLC.map XR.fin)
    (y' := fun h => haK (h.dropLast.getLastD none) (h.getLastD none)) fun l _ => by
      rw [← List.map_dropLast, hg, hg, ha_fin]).at hx
  refine ⟨ys, sf, s0, h1, hl, fun h => ?_, fun i hi hne => ?_⟩
  · rw [h2 0 h, List.take_succ_eq_append_getElem h]
    simp [haK, none]
  · have e : ys[i + 1] = haK xs[i] xs[i + 1] := by
      rw [h2 (i + 1) hi, List.take_succ_eq_append_getElem hi, List.dropLast_concat, List.take_succ_eq_append_getElem (by omega), getLastD_snoc,
        getLastD_snoc]
    rw [e, haK, if_neg hne]
    exact ⟨rfl, rfl, rfl, rfl, ⟨le_trans (min_le_right _ _) (min_le_right _ _), le_trans (le_max_right _ _) (le_max_right _ _)⟩,
      le_trans (min_le_right _ _) (min_le_left _ _), le_trans (le_max_left _ _) (le_max_right _ _)⟩

end

example : output (call (HeikinAshi (α := XR ℚ)) (finCandles4 [⟨4, 8, 2, 6⟩, ⟨6, 9, 5, 8⟩]) none) =
    .ok (finCandles4 [⟨4, 8, 2, 6⟩, ⟨5, 9, 5, 7⟩]) := by decide +kernel

end TS
