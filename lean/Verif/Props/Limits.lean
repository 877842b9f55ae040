import Verif.Props.Reals
import Verif.Spec.Limits
import Mathlib.Analysis.SpecificLimits.Basic
import Mathlib.Analysis.SpecialFunctions.Log.Basic
/-
C75: the outputs in the long run.
-/
namespace TS
open PyVal XR Filter Topology

/-- An average of the last samples of some kind, or one of them. -/
theorem tendsto_between {x o : Nat → ℝ} {L : ℝ} (hx : Tendsto x atTop (𝓝 L)) (p : Nat)
    (h : ∀ n, p ≤ n + 1 → ∀ a b, (∀ j < p, a ≤ x (n - j) ∧ x (n - j) ≤ b) → a ≤ o n ∧ o n ≤ b) : Tendsto o atTop (𝓝 L) := by
  rw [Metric.tendsto_atTop] at hx ⊢
  intro ε hε
  obtain ⟨N, hN⟩ := hx (ε / 2) (by linarith)
  refine ⟨N + p, fun n hn => ?_⟩
  have := h n (by omega) (L - ε / 2) (L + ε / 2) fun j hj => by
    have := hN (n - j) (by omega)
    rw [Real.dist_eq, abs_lt] at this
    exact ⟨by linarith [this.1], by linarith [this.2]⟩
  rw [Real.dist_eq, abs_lt]
  exact ⟨by linarith [this.1], by linarith [this.2]⟩

/-- A measure of the spread of the last samples. -/
theorem tendsto_spread {x o : Nat → ℝ} {L : ℝ} (hx : Tendsto x atTop (𝓝 L)) (p : Nat)
    (h : ∀ n, p ≤ n + 1 → ∀ a b, a ≤ b → (∀ j < p, a ≤ x (n - j) ∧ x (n - j) ≤ b) → |o n| ≤ b - a) : Tendsto o atTop (𝓝 0) := by
  rw [Metric.tendsto_atTop] at hx ⊢
  intro ε hε
  obtain ⟨N, hN⟩ := hx (ε / 3) (by linarith)
  refine ⟨N + p, fun n hn => ?_⟩
  have := h n (by omega) (L - ε / 3) (L + ε / 3) (by linarith) fun j hj => by
    have := hN (n - j) (by omega)
    rw [Real.dist_eq, abs_lt] at this
    exact ⟨by linarith [this.1], by linarith [this.2]⟩
  rw [Real.dist_eq, sub_zero]
  linarith

theorem avg_between {l : List ℝ} (hl : l ≠ []) {a b : ℝ} (h : ∀ x ∈ l, a ≤ x ∧ x ≤ b) : a ≤ avg l ∧ avg l ≤ b := by
  have hlen : (0 : ℝ) < l.length := by exact_mod_cast List.length_pos_of_ne_nil hl
  have h1 := List.card_nsmul_le_sum l a fun x hx => (h x hx).1
  have h2 := List.sum_le_card_nsmul l b fun x hx => (h x hx).2
  rw [nsmul_eq_mul] at h1 h2
  rw [avg, le_div_iff₀ hlen, div_le_iff₀ hlen]
  exact ⟨by linarith, by linarith⟩

theorem movingAvgK_upTo {p n : Nat} (x : Nat → ℝ) (h : p ≤ n + 1) : movingAvgK p (upTo x n) = avg ((List.range p).map fun j => x (n - j)) := by
  rw [movingAvgK, if_neg (by simpa using h), window_upTo x h]

theorem tendsto_movingAvg {x : Nat → ℝ} {L : ℝ} (hx : Tendsto x atTop (𝓝 L)) {p : Nat} (hp : 0 < p) : Tendsto (fun n => movingAvgK p (upTo x n)) atTop (𝓝 L) :=
  tendsto_between hx p fun n hn a b h => by
    rw [movingAvgK_upTo x hn]
    refine avg_between (by simp; omega) fun y hy => ?_
    obtain ⟨j, hj, rfl⟩ := List.mem_map.1 hy
    exact h j (List.mem_range.1 hj)

theorem recursiveAvgK_upTo {p n : Nat} {f : ℝ → ℝ → ℝ} (x : Nat → ℝ) (h : p ≤ n + 1) : recursiveAvgK p f (upTo x (n + 1)) = f (recursiveAvgK p f (upTo x n)) (x (n + 1)) := by
  rw [upTo_succ, recursiveAvgK_append (by simpa using h)]
  rfl

/-- A sequence that goes a fixed part of the way to the next sample every time. -/
theorem tendsto_recursive {x e : Nat → ℝ} {L w : ℝ} (hw : 0 < w) (hw1 : w ≤ 1) {p : Nat} (he : ∀ n, p ≤ n + 1 → e (n + 1) = e n + w * (x (n + 1) - e n)) (hx : Tendsto x atTop (𝓝 L)) :
    Tendsto e atTop (𝓝 L) := by
  rw [Metric.tendsto_atTop] at hx ⊢
  intro ε hε
  obtain ⟨N, hN⟩ := hx (ε / 2) (by linarith)
  have key : ∀ k, |e (N + p + k) - L| ≤ (1 - w) ^ k * |e (N + p) - L| + ε / 2 := by
    intro k
    induction k with
    | zero => simp; linarith
    | succ k ih =>
      have h1 := hN (N + p + k + 1) (by omega)
      rw [Real.dist_eq] at h1
      have h2 : e (N + p + (k + 1)) - L = (1 - w) * (e (N + p + k) - L) + w * (x (N + p + k + 1) - L) := by
        rw [← Nat.add_assoc, he _ (by omega)]; ring
      rw [h2, pow_succ]
      refine (abs_add_le _ _).trans ?_
      rw [abs_mul, abs_mul, abs_of_nonneg (by linarith : (0 : ℝ) ≤ 1 - w), abs_of_pos hw]
      nlinarith [mul_le_mul_of_nonneg_left ih (by linarith : (0 : ℝ) ≤ 1 - w)]
  have hz : Tendsto (fun k => (1 - w) ^ k * |e (N + p) - L|) atTop (𝓝 0) := by
    have := (tendsto_pow_atTop_nhds_zero_of_lt_one (by linarith : (0 : ℝ) ≤ 1 - w) (by linarith)).mul_const |e (N + p) - L|
    simpa using this
  obtain ⟨k0, hk0⟩ := (Metric.tendsto_atTop.1 hz) (ε / 2) (by linarith)
  refine ⟨N + p + k0, fun n hn => ?_⟩
  obtain ⟨k, rfl⟩ : ∃ k, n = N + p + k := ⟨n - (N + p), by omega⟩
  have h1 := hk0 k (by omega)
  rw [Real.dist_eq, sub_zero] at h1
  rw [Real.dist_eq]
  linarith [key k, le_abs_self ((1 - w) ^ k * |e (N + p) - L|)]

theorem tendsto_ema {x : Nat → ℝ} {L : ℝ} (hx : Tendsto x atTop (𝓝 L)) {p : Nat} (hp : 0 < p) :
    Tendsto (fun n => recursiveAvgK p (fun m x => m + 2 / ((p : ℝ) + 1) * (x - m)) (upTo x n)) atTop (𝓝 L) :=
  tendsto_recursive (p := p) (by positivity) (by
    have : (1 : ℝ) ≤ p := by exact_mod_cast hp
    rw [div_le_one (by positivity)]; linarith) (fun n hn => recursiveAvgK_upTo x hn) hx

theorem tendsto_rma {x : Nat → ℝ} {L : ℝ} (hx : Tendsto x atTop (𝓝 L)) {p : Nat} (hp : 0 < p) :
    Tendsto (fun n => recursiveAvgK p (fun m x => m + 1 / (p : ℝ) * (x - m)) (upTo x n)) atTop (𝓝 L) :=
  tendsto_recursive (p := p) (by positivity) (by
    have : (1 : ℝ) ≤ p := by exact_mod_cast hp
    rw [div_le_one (by positivity)]; linarith) (fun n hn => recursiveAvgK_upTo x hn) hx

theorem tendsto_back {x : Nat → ℝ} {L : ℝ} (hx : Tendsto x atTop (𝓝 L)) (p : Nat) : Tendsto (fun n => x (n - p)) atTop (𝓝 L) :=
  hx.comp (tendsto_sub_atTop_nat p)

theorem tendsto_lagged {x : Nat → ℝ} {L : ℝ} (hx : Tendsto x atTop (𝓝 L)) (p : Nat) : Tendsto (fun n => lagged 0 p (upTo x n)) atTop (𝓝 L) :=
  (tendsto_back hx p).congr' (by
    filter_upwards [eventually_ge_atTop p] with n hn
    rw [lagged_upTo, if_pos hn])

theorem StreamsAs.settles {B : Type} [TopologicalSpace B] {op : Operator (XR ℝ)} {outs : List B → Val (XR ℝ)} {y : List ℝ → B} (h : StreamsAs op finSeries outs y) {L : ℝ} {L' : B}
    (e : ∀ x : Nat → ℝ, Tendsto x atTop (𝓝 L) → Tendsto (fun n => y (upTo x n)) atTop (𝓝 L')) : Settles op outs L L' :=
  fun x hx => ⟨_, h.yields x, e x hx⟩

/-- **C75 Convergence.**  If the samples tend to `L`, so do the moving averages of all kinds, -/
theorem C75_averages {p : Nat} (hp : 0 < p) (L : ℝ) : Settles (SMA (p : Int)) finSeries L L ∧ Settles (EMA (p : Int)) finSeries L L ∧ Settles (RMA (p : Int)) finSeries L L :=
  ⟨(sma_reals hp).settles fun _ hx => tendsto_movingAvg hx hp, (ema_reals hp).settles fun _ hx => tendsto_ema hx hp, (rma_reals hp).settles fun _ hx => tendsto_rma hx hp⟩
example := C75_averages (p := 3) (by norm_num) 1

/-- the delayed samples and the minima and maxima of the last samples; -/
theorem C75_lag_extrema {p : Nat} (hp : 0 < p) (L : ℝ) :
    Settles (Lag (p : Int)) finSeries L L ∧ Settles (LocalMinimum (p : Int)) finSeries L L ∧ Settles (LocalMaximum (p : Int)) finSeries L L := by
  refine ⟨(lag_reals hp).settles fun _ hx => tendsto_lagged hx p, (localMin_reals hp).settles fun x hx => tendsto_between hx p fun n hn a b h => ?_,
    (localMax_reals hp).settles fun x hx => tendsto_between hx p fun n hn a b h => ?_⟩
  · obtain ⟨j, hj, e⟩ := List.mem_map.1 ((leastK_least (l := (List.range p).map fun j => x (n - j)) (by simp; omega)).1)
    rw [window_upTo x hn, ← e]
    exact h j (List.mem_range.1 hj)
  · obtain ⟨j, hj, e⟩ := List.mem_map.1 ((greatestK_greatest (l := (List.range p).map fun j => x (n - j)) (by simp; omega)).1)
    rw [window_upTo x hn, ← e]
    exact h j (List.mem_range.1 hj)
example := C75_lag_extrema (p := 3) (by norm_num) 1

theorem stdDev_le {l : List ℝ} (hl : l ≠ []) {a b : ℝ} (hab : a ≤ b) (h : ∀ x ∈ l, a ≤ x ∧ x ≤ b) : stdDev l ≤ b - a := by
  rw [stdDev, Real.sqrt_le_left (by linarith)]
  have hm := avg_between hl h
  refine (avg_between (l := l.map fun x => (x - avg l) ^ 2) (by simpa using hl) (a := 0) fun y hy => ?_).2
  obtain ⟨x, hx, rfl⟩ := List.mem_map.1 hy
  have := h x hx
  exact ⟨sq_nonneg _, sq_le_sq' (by linarith) (by linarith)⟩

theorem tendsto_std {x : Nat → ℝ} {L : ℝ} (hx : Tendsto x atTop (𝓝 L)) {p : Nat} (hp : 0 < p) : Tendsto (fun n => movingStdR p (upTo x n)) atTop (𝓝 0) :=
  tendsto_spread hx p fun n hn a b hab h => by
    rw [movingStdR, if_neg (by simpa using hn), window_upTo x hn, abs_of_nonneg (show 0 ≤ stdDev _ from Real.sqrt_nonneg _)]
    refine stdDev_le (by simp; omega) hab fun y hy => ?_
    obtain ⟨j, hj, rfl⟩ := List.mem_map.1 hy
    exact h j (List.mem_range.1 hj)

/-- standard deviations tend to zero and all three Bollinger bands to `L`; -/
theorem C75_deviation {p : Nat} (hp : 0 < p) (k : ℚ) (L : ℝ) : Settles (MSD (p : Int)) finSeries L 0 ∧ Settles (BollingerBands (p : Int) k) finSeries3 L (L, L, L) := by
  refine ⟨(msd_reals hp).settles fun _ hx => tendsto_std hx hp, (bollinger_reals hp k).settles fun x hx => ?_⟩
  have h1 := tendsto_movingAvg hx hp
  have h2 := (tendsto_std hx hp).mul_const (k : ℝ)
  rw [zero_mul] at h2
  have h3 := h1.sub h2
  have h4 := h1.add h2
  rw [sub_zero] at h3
  rw [add_zero] at h4
  exact h3.prodMk_nhds (h1.prodMk_nhds h4)
example := C75_deviation (p := 3) (by norm_num) 2 1

theorem tendsto_macdLine {x : Nat → ℝ} {L : ℝ} (hx : Tendsto x atTop (𝓝 L)) {slow fast : Nat} (hs : 0 < slow) (hf : 0 < fast) :
    Tendsto (fun n => macdLineK slow fast (upTo x n)) atTop (𝓝 0) := by
  have := (tendsto_ema hx hf).sub (tendsto_ema hx hs)
  rw [sub_self] at this
  refine this.congr' ?_
  filter_upwards [eventually_ge_atTop slow] with n hn
  rw [macdLineK, if_neg (by simp; omega)]

theorem scan_upTo {A B : Type} (y : List A → B) (x : Nat → A) (n : Nat) : scan y [] (upTo x n) = upTo (fun i => y (upTo x i)) n := by
  refine List.ext_getElem (by simp) fun i h1 h2 => ?_
  simp at h1
  rw [scan_getElem]
  simp [upTo, ← List.map_take, List.take_range, Nat.min_eq_left (show i + 1 ≤ n + 1 by omega)]

theorem drop_upTo {A : Type} (x : Nat → A) {d n : Nat} (h : d ≤ n) : (upTo x n).drop d = upTo (fun i => x (i + d)) (n - d) := by
  refine List.ext_getElem (by simp; omega) fun i h1 h2 => ?_
  simp [Nat.add_comm]

theorem macdSignalK_upTo (x : Nat → ℝ) {slow fast m n : Nat} (hn : slow ≤ n + 1) : macdSignalK slow fast m (upTo x n) =
    recursiveAvgK m (fun e x => e + 2 / ((m : ℝ) + 1) * (x - e)) (upTo (fun i => macdLineK slow fast (upTo x (i + (slow - 1)))) (n - (slow - 1))) := by
  rw [macdSignalK, if_neg (by simpa using hn), scan_upTo, drop_upTo _ (by omega)]

theorem tendsto_macdSignal {x : Nat → ℝ} {L : ℝ} (hx : Tendsto x atTop (𝓝 L)) {slow fast m : Nat} (hs : 0 < slow) (hf : 0 < fast) (hm : 0 < m) :
    Tendsto (fun n => macdSignalK slow fast m (upTo x n)) atTop (𝓝 0) := by
  have h1 := tendsto_ema ((tendsto_macdLine hx hs hf).comp (tendsto_add_atTop_nat (slow - 1))) hm
  refine (h1.comp (tendsto_sub_atTop_nat (slow - 1))).congr' ?_
  filter_upwards [eventually_ge_atTop slow] with n hn
  rw [macdSignalK_upTo x (by omega)]
  rfl

theorem macdHistK_eq {K : Type} [Field K] {slow fast m : Nat} {l : List K} (h : slow + m ≤ l.length + 1) : macdHistK slow fast m l = macdLineK slow fast l - macdSignalK slow fast m l := by
  rw [macdHistK, if_neg (by omega)]
  rfl

theorem tendsto_macdHist {x : Nat → ℝ} {L : ℝ} (hx : Tendsto x atTop (𝓝 L)) {slow fast m : Nat} (hs : 0 < slow) (hf : 0 < fast) (hm : 0 < m) :
    Tendsto (fun n => macdHistK slow fast m (upTo x n)) atTop (𝓝 0) := by
  have := (tendsto_macdLine hx hs hf).sub (tendsto_macdSignal hx hs hf hm)
  rw [sub_self] at this
  refine this.congr' ?_
  filter_upwards [eventually_ge_atTop (slow + m)] with n hn
  rw [macdHistK_eq (by simp; omega)]

/-- of the outputs of MACD the two averages tend to `L`, the line, the signal and the histogram to zero; -/
theorem C75_macd {slow fast m : Nat} (hs : 0 < slow) (hf : 0 < fast) (hm : 0 < m) (L : ℝ) : Settles (MACD (slow : Int) fast m) finSeries5 L (L, L, 0, 0, 0) :=
  (macd_reals hs hf hm).settles fun _ hx => (tendsto_ema hx hs).prodMk_nhds ((tendsto_ema hx hf).prodMk_nhds
    ((tendsto_macdLine hx hs hf).prodMk_nhds ((tendsto_macdSignal hx hs hf hm).prodMk_nhds (tendsto_macdHist hx hs hf hm))))
example := C75_macd (slow := 5) (fast := 3) (m := 2) (by norm_num) (by norm_num) (by norm_num) 1

/-- the difference of the averages of an SMA crossover and the momentum tend to zero, -/
theorem C75_differences {slow fast p : Nat} (hs : 0 < slow) (hf : 0 < fast) (hp : 0 < p) (L : ℝ) :
    Settles (SMACrossover (slow : Int) fast) finSeries L 0 ∧ Settles (Momentum (p : Int)) finSeries L 0 := by
  refine ⟨(crossover_reals hs hf).settles fun x hx => ?_, (momentum_reals hp).settles fun x hx => ?_⟩
  · have := (tendsto_movingAvg hx hf).sub (tendsto_movingAvg hx hs)
    rw [sub_self] at this
    refine this.congr' ?_
    filter_upwards [eventually_ge_atTop slow] with n hn
    rw [smaDiffK, if_neg (by simp; omega)]
  · have := hx.sub (tendsto_lagged hx p)
    rw [sub_self] at this
    refine this.congr' ?_
    filter_upwards [eventually_ge_atTop p] with n hn
    rw [momentumK, if_neg (by simp; omega), getLastD_upTo]
example := C75_differences (slow := 5) (fast := 3) (p := 2) (by norm_num) (by norm_num) (by norm_num) 1

/-- and so do the returns, unless `L` is zero. -/
theorem C75_return {p : Nat} (hp : 0 < p) {L : ℝ} (hL : L ≠ 0) : Settles (Return (p : Int)) finSeries L 0 :=
  (return_reals hp).settles fun x hx => by
    have h1 := tendsto_lagged hx p
    have := (hx.div h1 hL).sub_const 1
    rw [div_self hL, sub_self] at this
    refine this.congr' ?_
    filter_upwards [eventually_ge_atTop p, h1.eventually_ne hL] with n hn h0
    rw [returnK, if_neg (by simp [h0]; omega), getLastD_upTo]
    rfl
example := C75_return (p := 2) (by norm_num) (L := 1) (by norm_num)

theorem logGrowth_upTo (x : Nat → ℝ) {p n : Nat} (h : p ≤ n) : logGrowth p (upTo x n) = Real.log (x n / x (n - p)) := by
  rw [logGrowth, dif_pos (by simp; omega)]
  simp

theorem tendsto_logGrowth {x : Nat → ℝ} {L : ℝ} (hL : L ≠ 0) (hx : Tendsto x atTop (𝓝 L)) (p : Nat) : Tendsto (fun n => logGrowth p (upTo x n)) atTop (𝓝 0) := by
  have := ((hx.div (tendsto_back hx p) hL).log (by rw [div_self hL]; norm_num))
  rw [div_self hL, Real.log_one] at this
  refine this.congr' ?_
  filter_upwards [eventually_ge_atTop p] with n hn
  exact (logGrowth_upTo x hn).symm

theorem scan_eq_map {A B : Type} (y : List A → B) (x : Nat → A) (n : Nat) : scan y [] ((List.range n).map x) = (List.range n).map fun i => y (upTo x i) := by
  cases n with
  | zero => rfl
  | succ n => exact scan_upTo y x n

theorem logReturn_on (r : Nat) {l : List ℝ} (hl : ∀ x ∈ l, 0 < x) :
    growth (fun now before => Arith.log (now / before)) r (l.map XR.fin) = XR.fin (logGrowth r l) :=
  growth_fin (g := fun a b => Real.log (a / b)) (fun a b ha hb => log_fin ha hb) hl

theorem volatility_on {m r : Nat} (hm : 0 < m) {l : List ℝ} (hl : ∀ x ∈ l, 0 < x) :
    volatility m r (l.map XR.fin) = XR.fin (if l.length ≤ max m r then 0 else movingStdR m (scan (logGrowth r) [] l)) := by
  simp only [volatility, List.length_map]
  split
  · simp
  · rw [← movingStd_fin hm]
    congr 1
    simp only [scan, List.length_map, List.map_map, List.nil_append, ← List.map_take]
    exact List.map_congr_left fun i _ => logReturn_on r fun x hx => hl x (List.mem_of_mem_take hx)

theorem logReturn_yields {r : Nat} (hr : 0 < r) {x : Nat → ℝ} (hpos : ∀ n, 0 < x n) :
    Yields (LogReturn (r : Int)) finSeries finSeries x (fun n => logGrowth r (upTo x n)) := by
  intro n hn
  obtain ⟨sf, s0, h⟩ := (C37_logReturn_streams (α := XR ℝ) XR.zero_eq_zero hr).on (y' := logGrowth r) XR.fin XR.fin (P := fun x => 0 < x) (fun l _ hl => logReturn_on r hl)
    (xs := (List.range n).map x) (by simp; omega) (by simp [hpos])
  exact ⟨sf, s0, by rw [h, scan_eq_map]⟩

theorem volatility_yields {m r : Nat} (hm : 0 < m) (hr : 0 < r) {x : Nat → ℝ} (hpos : ∀ n, 0 < x n) :
    Yields (Volatility (m : Int) r) finSeries finSeries x (fun n => if n + 1 ≤ max m r then 0 else movingStdR m (upTo (fun i => logGrowth r (upTo x i)) n)) := by
  intro n hn
  obtain ⟨sf, s0, h⟩ := (C38_volatility_streams (α := XR ℝ) XR.zero_eq_zero hm hr).on (y' := fun l => if l.length ≤ max m r then 0 else movingStdR m (scan (logGrowth r) [] l)) XR.fin XR.fin
    (P := fun x => 0 < x) (fun l _ hl => volatility_on hm hl) (xs := (List.range n).map x) (by simp; omega) (by simp [hpos])
  refine ⟨sf, s0, ?_⟩
  rw [h, scan_eq_map]
  simp only [List.length_map, List.length_range, scan_upTo]

/-- logarithmic returns and the volatility of positive samples tend to zero too, if the limit is positive. -/
theorem C75_volatility {m r : Nat} (hm : 0 < m) (hr : 0 < r) {L : ℝ} (hL : 0 < L) {x : Nat → ℝ} (hpos : ∀ n, 0 < x n) (hx : Tendsto x atTop (𝓝 L)) :
    (∃ o, Yields (LogReturn (r : Int)) finSeries finSeries x o ∧ Tendsto o atTop (𝓝 0)) ∧
    (∃ o, Yields (Volatility (m : Int) r) finSeries finSeries x o ∧ Tendsto o atTop (𝓝 0)) := by
  refine ⟨⟨_, logReturn_yields hr hpos, tendsto_logGrowth hL.ne' hx r⟩, _, volatility_yields hm hr hpos, ?_⟩
  refine (tendsto_std (tendsto_logGrowth hL.ne' hx r) hm).congr' ?_
  filter_upwards [eventually_ge_atTop (max m r)] with n hn
  rw [if_neg (by omega)]
example := C75_volatility (m := 3) (r := 2) (by norm_num) (by norm_num) (L := 1) one_pos (x := fun n => 1 + 1 / ((n : ℝ) + 1)) (fun n => by positivity)
  (by simpa using tendsto_one_div_add_atTop_nhds_zero_nat.const_add (1 : ℝ))

/-- **C75 Pipelines**: the limits of a pipeline are found stage by stage. -/
theorem C75_compose {f g : Operator (XR ℝ)} {D : PyVal Unit → Prop} (lg : Lib g (IsArgs 1) (· = .leaf ())) (lf : Lib f (IsArgs 1) D) {B : Type} [TopologicalSpace B] {outs : List B → Val (XR ℝ)}
    {L L' : ℝ} {L'' : B} (hg : Settles g finSeries L L') (hf : Settles f outs L' L'') : Settles (Compose [f, g]) outs L L'' := by
  intro x hx
  obtain ⟨o, h1, h2⟩ := hg x hx
  obtain ⟨o', h3, h4⟩ := hf o h2
  refine ⟨o', fun n hn => ?_, h4⟩
  obtain ⟨sf, s0, e1⟩ := h1 n hn
  obtain ⟨sf', s0', e2⟩ := h3 n hn
  refine ⟨_, _, C10_compose_pipeline_library (Ds := fun | 0 => IsArgs 1 | 1 => (· = .leaf ()) | _ => D) (by simp) ?_ (nums_ok _).1 rfl (.cons e1 (.cons e2 (.nil _)))⟩
  intro k hk
  match k, hk with
  | 0, _ => exact lg
  | 1, _ => exact lf.weaken (by rintro _ rfl; rfl) fun _ h => h
example := C75_compose (f := MSD (3 : Nat)) (g := EMA (2 : Nat)) (D := (· = .leaf ())) (Lib.basic (.ema 2)) (Lib.basic (.msd 3)) (outs := finSeries) (C75_averages (p := 2) (by norm_num) 1).2.1
  (C75_deviation (p := 3) (by norm_num) 1 1).1

end TS
