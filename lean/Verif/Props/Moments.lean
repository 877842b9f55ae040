import Verif.Props.Returns
/-
C39, C40: Sharpe ratio and skewness.
-/
namespace TS
open PyVal

/-- the last `p` (or fewer) samples at index `i`, oldest first -/
abbrev recent {A : Type} (p : Nat) (xs : List A) (i : Nat) : List A := (xs.take (i + 1)).drop (i + 1 - p)

theorem window_recent {A : Type} {p i : Nat} {xs : List A} (hi : i < xs.length) : window p (xs.take (i + 1)) = (recent p xs i).reverse := by
  rw [window, List.take_reverse, List.length_take, Nat.min_eq_left (by omega)]

theorem recent_ne_nil {A : Type} {p i : Nat} (hp : 0 < p) {xs : List A} (hi : i < xs.length) : recent p xs i ≠ [] := by
  rw [← List.length_pos_iff]; simp; omega

theorem avg_reverse {K : Type} [Field K] (l : List K) : avg l.reverse = avg l := by simp [avg]
theorem variance_reverse {K : Type} [Field K] (l : List K) : variance l.reverse = variance l := by simp [variance, avg_reverse]
theorem thirdMoment_reverse {K : Type} [Field K] (l : List K) : thirdMoment l.reverse = thirdMoment l := by
  simp [thirdMoment, avg_reverse]
theorem stdDev_reverse (l : List ℝ) : stdDev l.reverse = stdDev l := by rw [stdDev, variance_reverse, stdDev]

/-! ### C39 -/

/-- **C39, every arithmetic.** -/
theorem C39_sharpe_streams {α : Type} [TFNum α] {p : Nat} (hp : 0 < p) :
    StreamsAs (SharpeRatio (p : Int)) vSBuf2 vSBuf (fun h => sharpe (α := α) (window p (h.map fun z => z.1 - z.2))) :=
  (sharpe_tracks hp).streams numPairs_ok isSeries_vSBuf fun _ => rfl
example := C39_sharpe_streams (α := XR ℚ) (p := 2) (by norm_num)

theorem sharpe_fin {l : List ℝ} (hl : l ≠ []) : sharpe (l.map XR.fin) = XR.fin (if stdDev l = 0 then 0 else avg l / stdDev l) := by
  rw [sharpe, XR.std_fin hl, XR.mean_fin hl, XR.ofRat_eq, XR.eq_fin, Rat.cast_zero]
  by_cases h : stdDev l = 0
  · simp [h]
  · simp only [h, decide_false, Bool.false_eq_true, if_false]
    rw [XR.fin_div _ _ h]

/-- **C39 Sharpe ratio**, real numbers: mean over population standard deviation of the return minus the risk-free rate over the last
`min (i + 1) p` steps, zero when that deviation is zero. -/
theorem C39_sharpe {p : Nat} (hp : 0 < p) {zs : List (ℝ × ℝ)} (hz : zs ≠ []) :
    ∃ os sf s0, call (SharpeRatio (p : Int)) (finPairs zs) none = .ok (finSeries os, sf, s0) ∧ ∃ hl : os.length = zs.length,
      ∀ i (hi : i < zs.length), os[i] =
        if stdDev ((recent p zs i).map fun z => z.1 - z.2) = 0 then 0
        else avg ((recent p zs i).map fun z => z.1 - z.2) / stdDev ((recent p zs i).map fun z => z.1 - z.2) := by
  let y : List (ℝ × ℝ) → ℝ := fun l => let w := window p (l.map fun z => z.1 - z.2); if stdDev w = 0 then 0 else avg w / stdDev w
  obtain ⟨os, sf, s0, h1, hl, h2⟩ := ((C39_sharpe_streams (α := XR ℝ) hp).comap (y' := y) (Prod.map XR.fin XR.fin) XR.fin (fun l hl => by
    have e : (l.map (Prod.map XR.fin XR.fin)).map (fun z : XR ℝ × XR ℝ => z.1 - z.2) = (l.map fun z => z.1 - z.2).map XR.fin := by
      simp [Function.comp_def]
    rw [e, window_fin, sharpe_fin (window_ne_nil hp (by simpa using hl))])).at hz
  refine ⟨os, sf, s0, by rw [finPairs_eq]; exact h1, hl, fun i hi => ?_⟩
  rw [h2 i hi]
  simp only [y, window_map, window_recent hi, List.map_reverse, stdDev_reverse, avg_reverse]

example : output (call (SharpeRatio 2) (.tup [series [3, 5, 9, 1], series [1, 1, 1, -7]]) none) = .ok (series [0, 3, 3, 0]) := by decide +kernel

/-! ### C40 -/

/-- The statistic of the window, every arithmetic. -/
theorem skewness_streams {α : Type} [TFNum α] {p : Nat} (hp : 0 < p) :
    StreamsAs (Skewness (p : Int)) vSBuf vSBuf (fun h => computeSkewness (α := α) (window p h)) :=
  (skewness_tracks hp).streams nums_ok isSeries_vSBuf fun _ => rfl

theorem sum_map_add' {A : Type} (f g : A → ℝ) (l : List A) : (l.map fun x => f x + g x).sum = (l.map f).sum + (l.map g).sum := by
  induction l with
  | nil => simp
  | cons a l ih => simp only [List.map_cons, List.sum_cons, ih]; ring

theorem avg_add {A : Type} (f g : A → ℝ) (l : List A) : avg (l.map fun x => f x + g x) = avg (l.map f) + avg (l.map g) := by
  simp only [avg, sum_map_add', List.length_map, add_div]

theorem avg_const_map {A : Type} {l : List A} (hl : l ≠ []) (c : ℝ) : avg (l.map fun _ => c) = c :=
  avg_const (by simpa using hl) (by simp)

/-- The third central moment in terms of the raw moments. -/
theorem thirdMoment_eq {l : List ℝ} (hl : l ≠ []) :
    thirdMoment l = avg (l.map fun x => x ^ 3) - 3 * avg l * variance l - avg l ^ 3 := by
  have e1 : avg (l.map fun x => x) = avg l := by simp
  have hv : variance l = avg (l.map fun x => x ^ 2) - avg l ^ 2 := by
    unfold variance
    rw [show (l.map fun x => (x - avg l) ^ 2) = l.map fun x => x ^ 2 + (-2 * avg l * x + avg l ^ 2) from List.map_congr_left fun x _ => by ring,
      avg_add, avg_add, avg_map_smul, avg_const_map hl, e1]
    ring
  unfold thirdMoment
  rw [show (l.map fun x => (x - avg l) ^ 3) = l.map fun x => x ^ 3 + (-3 * avg l * x ^ 2 + (3 * avg l ^ 2 * x + - avg l ^ 3)) from
    List.map_congr_left fun x _ => by ring, avg_add, avg_add, avg_add, avg_map_smul, avg_map_smul, avg_const_map hl, e1, hv]
  ring

theorem skewness_fin {l : List ℝ} (hl : l ≠ []) : computeSkewness (l.map XR.fin) = XR.fin (if stdDev l = 0 then 0 else skew l) := by
  have hs : stdDev l ^ 2 = variance l := Real.sq_sqrt (variance_nonneg l)
  have hsd : (Arith.sqrt (XR.fin (variance l)) : XR ℝ) = XR.fin (stdDev l) := XR.sqrt_fin _ (variance_nonneg l)
  have h3 : (Arith.mean ((l.map XR.fin).map fun x => Arith.pow x 3) : XR ℝ) = XR.fin (avg (l.map fun x => x ^ 3)) := by
    rw [← XR.mean_fin (l := l.map fun x => x ^ 3) (by simpa using hl)]
    simp [Function.comp_def]
  simp only [computeSkewness, XR.moments_fin hl, hsd, h3, XR.ofRat_eq, XR.eq_fin, Rat.cast_zero]
  by_cases h : stdDev l = 0
  · simp [h]
  · simp only [h, decide_false, Bool.false_eq_true, if_false, XR.pow_fin, XR.fin_mul, XR.fin_sub]
    rw [XR.fin_div _ _ (pow_ne_zero 3 h), skew, thirdMoment_eq hl, hs]
    norm_num

/-- skewness of a window of real numbers -/
noncomputable def skewOf (l : List ℝ) : ℝ := if stdDev l = 0 then 0 else skew l

theorem skew_reals {p : Nat} (hp : 0 < p) : StreamsAs (Skewness (p : Int) : Operator (XR ℝ)) finSeries finSeries (fun l => skewOf (window p l)) :=
  (skewness_streams hp).fin fun l hl => by rw [window_fin, skewness_fin (window_ne_nil hp hl), skewOf]

/-- **C40 Skewness**, real numbers: the standardised third central moment of the last `min (i + 1) p` inputs, zero when their standard
deviation is zero. -/
theorem C40_skewness {p : Nat} (hp : 0 < p) {xs : List ℝ} (hx : xs ≠ []) :
    ∃ os sf s0, call (Skewness (p : Int)) (finSeries xs) none = .ok (finSeries os, sf, s0) ∧ ∃ hl : os.length = xs.length,
      ∀ i (hi : i < xs.length), os[i] = if stdDev (recent p xs i) = 0 then 0 else thirdMoment (recent p xs i) / stdDev (recent p xs i) ^ 3 := by
  obtain ⟨os, sf, s0, h1, hl, h2⟩ := (skew_reals hp).at hx
  refine ⟨os, sf, s0, h1, hl, fun i hi => ?_⟩
  rw [h2 i hi, skewOf, window_recent hi, stdDev_reverse, skew, thirdMoment_reverse, stdDev_reverse]
example := C40_skewness (p := 2) (by norm_num) (xs := [3, 1, 4]) (by simp)

theorem skewOf_affine (l : List ℝ) {a : ℝ} (ha : 0 < a) (b : ℝ) : skewOf (l.map fun x => a * x + b) = skewOf l := by
  have e : (l.map fun x => a * x + b) = (l.map (a * ·)).map (· + b) := by simp [Function.comp_def]
  simp only [skewOf, skew, e, stdDev_shift, stdDev_smul, thirdMoment_shift, thirdMoment_smul, abs_of_pos ha, mul_eq_zero, ha.ne', false_or]
  split
  · rfl
  · rename_i h
    field_simp

/-- **C40**: shifting the series and scaling it by a positive factor changes nothing. -/
theorem C40_skewness_affine {p : Nat} (hp : 0 < p) {xs : List ℝ} (hx : xs ≠ []) {a : ℝ} (ha : 0 < a) (b : ℝ) :
    ∃ os sf s0 sf' s0', call (Skewness (p : Int)) (finSeries xs) none = .ok (finSeries os, sf, s0) ∧
      call (Skewness (p : Int)) (finSeries (xs.map fun x => a * x + b)) none = .ok (finSeries os, sf', s0') := by
  obtain ⟨sf, s0, h⟩ := (skew_reals hp).at' hx
  obtain ⟨sf', s0', h'⟩ := (skew_reals hp).at' (xs := xs.map fun x => a * x + b) (by simpa using hx)
  refine ⟨_, _, _, sf', s0', h, ?_⟩
  rw [h', scan_of_map]
  intro l
  rw [window_map, skewOf_affine _ ha]

example : output (call (Skewness 5) (series [0, 0, 0, 0, 5]) none) = .ok (series [0, 0, 0, 0, 3 / 2]) := by decide +kernel

end TS
