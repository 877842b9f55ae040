import Verif.Props.Images3
/-
C99: repeating every sample.
-/
namespace TS
open XR
variable {K : Type} [Field K] [LinearOrder K] [IsStrictOrderedRing K] [Transc K] [FloorRing K] {A B : Type}

theorem hold_cons (k : Nat) (x : A) (xs : List A) : hold k (x :: xs) = List.replicate k x ++ hold k xs := by simp [hold]

theorem hold_append (k : Nat) (xs ys : List A) : hold k (xs ++ ys) = hold k xs ++ hold k ys := by simp [hold]

@[simp] theorem hold_length (k : Nat) (xs : List A) : (hold k xs).length = k * xs.length := by
  induction xs with
  | nil => simp [hold]
  | cons x xs ih => rw [hold_cons, List.length_append, List.length_replicate, ih, List.length_cons]; ring

theorem hold_getElem? {k : Nat} (hk : 0 < k) (xs : List A) (i : Nat) : (hold k xs)[i]? = xs[i / k]? := by
  induction xs generalizing i with
  | nil => simp [hold]
  | cons x xs ih =>
    rw [hold_cons]
    by_cases h : i < k
    · rw [List.getElem?_append_left (by simpa using h), Nat.div_eq_of_lt h]
      simp [h]
    · rw [List.getElem?_append_right (by simpa using h), List.length_replicate, ih, show i / k = (i - k) / k + 1 by rw [← Nat.sub_add_cancel (not_lt.1 h), Nat.add_div_right _ hk, Nat.add_sub_cancel], List.getElem?_cons_succ]

theorem hold_getElem {k : Nat} (xs : List A) (i : Nat) (h : i < (hold k xs).length) : (hold k xs)[i] = xs[i / k]'(Nat.div_lt_of_lt_mul (by simpa using h)) := by
  have hk : 0 < k := Nat.pos_of_ne_zero fun h0 => by simp [h0] at h
  have := hold_getElem? hk xs i
  rw [List.getElem?_eq_getElem h, List.getElem?_eq_getElem (Nat.div_lt_of_lt_mul (by simpa using h))] at this
  exact Option.some.inj this

theorem hold_take {k g : Nat} (xs : List A) : (hold k xs).take (k * g) = hold k (xs.take g) := by
  induction xs generalizing g with
  | nil => simp [hold]
  | cons x xs ih =>
    rcases g with _ | g
    · simp [hold]
    · rw [List.take_succ_cons, hold_cons, hold_cons, ← ih, List.take_append, List.length_replicate, List.take_of_length_le (by simp; rw [Nat.mul_succ]; omega), Nat.mul_succ, Nat.add_sub_cancel]

theorem hold_map {f : A → B} (k : Nat) (xs : List A) : (hold k xs).map f = hold k (xs.map f) := by simp [hold, List.map_flatMap, List.flatMap_map]

theorem hold_reverse (k : Nat) (xs : List A) : (hold k xs).reverse = hold k xs.reverse := by
  induction xs with
  | nil => simp [hold]
  | cons x xs ih => rw [hold_cons, List.reverse_append, List.reverse_replicate, ih, List.reverse_cons, hold_append, hold_cons]; simp [hold]

theorem hold_window (k p : Nat) (xs : List A) : window (k * p) (hold k xs) = hold k (window p xs) := by rw [window, window, hold_reverse, hold_take]

theorem hold_ne_nil {k : Nat} (hk : 0 < k) {xs : List A} (hx : xs ≠ []) : hold k xs ≠ [] := by
  rw [← List.length_pos_iff] at hx ⊢
  rw [hold_length]
  positivity

omit [Field K] [LinearOrder K] [IsStrictOrderedRing K] [Transc K] [FloorRing K] in
theorem StreamsAs.slowed {op op' : Operator (XR K)} {ser : List A → Val (XR K)} {outs : List B → Val (XR K)} {y y' : List A → B} (h : StreamsAs op ser outs y) (h' : StreamsAs op' ser outs y') {k : Nat} (hk : 0 < k)
    (key : ∀ (xs : List A) (g r : Nat), g < xs.length → r < k → y' ((hold k xs).take (k * g + r + 1)) = y (xs.take (g + 1))) : Slowed op op' ser outs k := fun xs hx => by
  obtain ⟨st, h, -⟩ := h
  obtain ⟨st', h', -⟩ := h'
  refine ⟨_, _, _, st' (hold k xs), st' [], h xs hx, ?_⟩
  rw [h' _ (hold_ne_nil hk hx)]
  have : scan y' [] (hold k xs) = hold k (scan y [] xs) := List.ext_getElem (by simp) fun i h1 h2 => by
    have hi : i < k * xs.length := by simpa using h1
    rw [hold_getElem, scan_getElem, scan_getElem, List.nil_append, List.nil_append]
    have := key xs (i / k) (i % k) (Nat.div_lt_of_lt_mul hi) (Nat.mod_lt _ hk)
    rwa [Nat.div_add_mod] at this
  rw [this]

omit [Field K] [LinearOrder K] [IsStrictOrderedRing K] [Transc K] [FloorRing K] in
theorem StreamsAs.slowedLast {op op' : Operator (XR K)} {ser : List A → Val (XR K)} {outs : List B → Val (XR K)} {y y' : List A → B} (h : StreamsAs op ser outs y) (h' : StreamsAs op' ser outs y') {k : Nat} (hk : 0 < k)
    (key : ∀ xs : List A, xs ≠ [] → y' (hold k xs) = y xs) : SlowedLast op op' ser outs k := fun xs hx => by
  obtain ⟨st, h, -⟩ := h
  obtain ⟨st', h', -⟩ := h'
  refine ⟨_, _, _, _, _, _, h xs hx, h' _ (hold_ne_nil hk hx), by simp, fun g => ?_⟩
  by_cases hg : g < xs.length
  · have hi : k * g + (k - 1) + 1 = k * (g + 1) := by rw [Nat.mul_succ]; omega
    have hl : k * (g + 1) ≤ k * xs.length := Nat.mul_le_mul_left _ hg
    rw [List.getElem?_eq_getElem (by simp; omega), List.getElem?_eq_getElem (by simpa using hg), scan_getElem, scan_getElem, List.nil_append, List.nil_append, hi, hold_take, key _ (by rw [← List.length_pos_iff]; simp; omega)]
  · rw [List.getElem?_eq_none, List.getElem?_eq_none (by simpa using hg)]
    have : k * xs.length ≤ k * g := Nat.mul_le_mul_left _ (not_lt.1 hg)
    simp; omega

/-- indices of repeated samples -/
theorem hold_lag {k g r p : Nat} (hr : r < k) : k * p ≤ k * g + r ↔ p ≤ g := by
  constructor
  · intro h
    by_contra hc
    have : k * (g + 1) ≤ k * p := Nat.mul_le_mul_left _ (by omega)
    rw [Nat.mul_succ] at this
    omega
  · intro h
    have : k * p ≤ k * g := Nat.mul_le_mul_left _ h
    omega

theorem hold_div {k g r p : Nat} (hr : r < k) (h : p ≤ g) : (k * g + r - k * p) / k = g - p := by
  have : k * p ≤ k * g := Nat.mul_le_mul_left _ h
  rw [show k * g + r - k * p = r + k * (g - p) by rw [Nat.mul_sub]; omega, Nat.add_mul_div_left _ _ (by omega), Nat.div_eq_of_lt hr, zero_add]

theorem hold_lagged {k g r p : Nat} {z : A} (hr : r < k) {xs : List A} (hg : g < xs.length) : lagged z (k * p) ((hold k xs).take (k * g + r + 1)) = lagged z p (xs.take (g + 1)) := by
  have : k * (g + 1) ≤ k * xs.length := Nat.mul_le_mul_left _ hg
  rw [Nat.mul_succ] at this
  rw [lagged_take (by simp; omega), lagged_take hg]
  by_cases h : p ≤ g
  · rw [dif_pos h, dif_pos ((hold_lag hr).2 h), hold_getElem]
    congr 1
    exact hold_div hr h
  · rw [dif_neg h, dif_neg (mt (hold_lag hr).1 h)]

theorem hold_last {k g r : Nat} {z : A} (hr : r < k) {xs : List A} (hg : g < xs.length) : ((hold k xs).take (k * g + r + 1)).getLastD z = (xs.take (g + 1)).getLastD z := by
  have : k * (g + 1) ≤ k * xs.length := Nat.mul_le_mul_left _ hg
  rw [Nat.mul_succ] at this
  have h := hold_lagged (z := z) (p := 0) hr hg
  rw [lagged_take (by simp; omega), lagged_take hg] at h
  simp only [mul_zero, Nat.zero_le, dif_pos, Nat.sub_zero] at h
  rw [List.take_add_one, List.take_add_one, List.getElem?_eq_getElem (by simp; omega), List.getElem?_eq_getElem hg, Option.toList_some, Option.toList_some, List.getLastD_concat, List.getLastD_concat, h]

theorem hold_take_le {k g r p : Nat} (hr : r < k) {xs : List A} (hg : g < xs.length) : ((hold k xs).take (k * g + r + 1)).length ≤ k * p ↔ (xs.take (g + 1)).length ≤ p := by
  have : k * (g + 1) ≤ k * xs.length := Nat.mul_le_mul_left _ hg
  rw [Nat.mul_succ] at this
  have := hold_lag (g := g) (p := p) hr
  simp only [List.length_take, hold_length]
  omega

/-- **C99 Lag** -/
theorem C99_lag {p k : Nat} (hp : 0 < p) (hk : 0 < k) : Slowed (Lag (p : Int) : Operator (XR K)) (Lag ((k * p : Nat) : Int)) numbers numbers k :=
  (lag_reals hp).slowed (lag_reals (Nat.mul_pos hk hp)) hk fun _ _ _ hg hr => hold_lagged hr hg
example := C99_lag (K := ℚ) (p := 2) (k := 3) (by norm_num) (by norm_num) [4, 1] (by simp)

/-- **C99 Momentum** -/
theorem C99_momentum {p k : Nat} (hp : 0 < p) (hk : 0 < k) : Slowed (Momentum (p : Int) : Operator (XR K)) (Momentum ((k * p : Nat) : Int)) numbers numbers k :=
  (momentum_reals hp).slowed (momentum_reals (Nat.mul_pos hk hp)) hk fun xs g r hg hr => by
    simp only [momentumK, hold_take_le hr hg, hold_last hr hg, hold_lagged hr hg]
example := C99_momentum (K := ℚ) (p := 2) (k := 3) (by norm_num) (by norm_num) [4, 1] (by simp)

/-- **C99 Return** -/
theorem C99_return {p k : Nat} (hp : 0 < p) (hk : 0 < k) : Slowed (Return (p : Int) : Operator (XR K)) (Return ((k * p : Nat) : Int)) numbers numbers k :=
  (return_reals hp).slowed (return_reals (Nat.mul_pos hk hp)) hk fun xs g r hg hr => by
    simp only [returnK, hold_take_le hr hg, hold_last hr hg, hold_lagged hr hg]
example := C99_return (K := ℚ) (p := 2) (k := 3) (by norm_num) (by norm_num) [4, 1] (by simp)

theorem hold_window_mem {k g r p : Nat} (hr : r < k) {xs : List A} (hg : g < xs.length) {y : A} : y ∈ window (k * p + 1) ((hold k xs).take (k * g + r + 1)) ↔ y ∈ window (p + 1) (xs.take (g + 1)) := by
  have hl : k * (g + 1) ≤ k * xs.length := Nat.mul_le_mul_left _ hg
  rw [Nat.mul_succ] at hl
  rw [mem_window_take (by simp; omega), mem_window_take hg]
  constructor
  · rintro ⟨j, hj, hj', rfl⟩
    have hjk := Nat.div_add_mod j k
    have hm := Nat.mod_lt j (show 0 < k by omega)
    refine ⟨j / k, ?_, ?_, by rw [hold_getElem]⟩
    · by_contra hc
      have : k * (g + 1) ≤ k * (j / k) := Nat.mul_le_mul_left _ (by omega)
      rw [Nat.mul_succ] at this
      omega
    · by_contra hc
      have : k * (j / k + p + 1) ≤ k * g := Nat.mul_le_mul_left _ (by omega)
      rw [Nat.mul_succ, Nat.mul_add] at this
      omega
  · rintro ⟨j, hj, hj', rfl⟩
    have hj1 : k * j ≤ k * g := Nat.mul_le_mul_left _ hj
    by_cases h : j + p ≤ g
    · obtain rfl : g = j + p := by omega
      refine ⟨k * j + r, by rw [Nat.mul_add]; omega, by rw [Nat.mul_add]; omega, ?_⟩
      rw [hold_getElem]
      congr 1
      rw [Nat.mul_add_div (by omega), Nat.div_eq_of_lt hr, Nat.add_zero]
    · have : k * (g + 1) ≤ k * (j + p) := Nat.mul_le_mul_left _ (by omega)
      rw [Nat.mul_succ, Nat.mul_add] at this
      refine ⟨k * j, by omega, by omega, ?_⟩
      rw [hold_getElem]
      congr 1
      exact Nat.mul_div_cancel_left _ (by omega)

/-- **C99 Local maximum** -/
theorem C99_local_max {p k : Nat} (hk : 0 < k) : Slowed (LocalMaximum ((p + 1 : Nat) : Int) : Operator (XR K)) (LocalMaximum ((k * p + 1 : Nat) : Int)) numbers numbers k :=
  (localMax_reals p.succ_pos).slowed (localMax_reals (Nat.succ_pos _)) hk fun xs g r hg hr => by
    have ne : window (p + 1) (xs.take (g + 1)) ≠ [] := window_ne_nil p.succ_pos (by rw [← List.length_pos_iff]; simp; omega)
    have h := greatestK_greatest ne
    exact greatest_eq ⟨(hold_window_mem hr hg).2 h.1, fun y hy => h.2 y ((hold_window_mem hr hg).1 hy)⟩
example := C99_local_max (K := ℚ) (p := 2) (k := 3) (by norm_num) [4, 1] (by simp)

/-- **C99 Local minimum** -/
theorem C99_local_min {p k : Nat} (hk : 0 < k) : Slowed (LocalMinimum ((p + 1 : Nat) : Int) : Operator (XR K)) (LocalMinimum ((k * p + 1 : Nat) : Int)) numbers numbers k :=
  (localMin_reals p.succ_pos).slowed (localMin_reals (Nat.succ_pos _)) hk fun xs g r hg hr => by
    have ne : window (p + 1) (xs.take (g + 1)) ≠ [] := window_ne_nil p.succ_pos (by rw [← List.length_pos_iff]; simp; omega)
    have h := leastK_least ne
    exact least_eq ⟨(hold_window_mem hr hg).2 h.1, fun y hy => h.2 y ((hold_window_mem hr hg).1 hy)⟩
example := C99_local_min (K := ℚ) (p := 2) (k := 3) (by norm_num) [4, 1] (by simp)

theorem hold_take_mem {k g r : Nat} (hr : r < k) {xs : List A} (hg : g < xs.length) {y : A} : y ∈ (hold k xs).take (k * g + r + 1) ↔ y ∈ xs.take (g + 1) := by
  have e {l : List A} {n : Nat} (h : l.length ≤ n) : y ∈ l ↔ y ∈ window n l := by rw [window, List.take_of_length_le (by simpa using h), List.mem_reverse]
  rw [e (l := xs.take (g + 1)) (n := g + 1 + 1) (by simp), ← hold_window_mem hr hg, ← e]
  refine (List.length_take_le _ _).trans ?_
  rw [Nat.mul_succ]
  omega

/-- **C99 Global maximum** -/
theorem C99_global_max {k : Nat} (hk : 0 < k) : Slowed (GlobalMaximum : Operator (XR K)) GlobalMaximum numbers numbers k :=
  globalMax_reals.slowed globalMax_reals hk fun xs g r hg hr => by
    have h := greatestK_greatest (l := xs.take (g + 1)) (by rw [← List.length_pos_iff]; simp; omega)
    exact greatest_eq ⟨(hold_take_mem hr hg).2 h.1, fun y hy => h.2 y ((hold_take_mem hr hg).1 hy)⟩
example := C99_global_max (K := ℚ) (k := 3) (by norm_num) [4, 1] (by simp)

/-- **C99 Global minimum** -/
theorem C99_global_min {k : Nat} (hk : 0 < k) : Slowed (GlobalMinimum : Operator (XR K)) GlobalMinimum numbers numbers k :=
  globalMin_reals.slowed globalMin_reals hk fun xs g r hg hr => by
    have h := leastK_least (l := xs.take (g + 1)) (by rw [← List.length_pos_iff]; simp; omega)
    exact least_eq ⟨(hold_take_mem hr hg).2 h.1, fun y hy => h.2 y ((hold_take_mem hr hg).1 hy)⟩
example := C99_global_min (K := ℚ) (k := 3) (by norm_num) [4, 1] (by simp)

/-! ### Statistics of the window -/

omit [LinearOrder K] [IsStrictOrderedRing K] [Transc K] [FloorRing K] in
theorem hold_sum (k : Nat) (l : List K) : (hold k l).sum = k * l.sum := by
  induction l with
  | nil => simp [hold]
  | cons x l ih => rw [hold_cons, List.sum_append, ih, List.sum_cons, List.sum_replicate, nsmul_eq_mul]; ring

omit [Transc K] in
theorem avg_hold {k : Nat} (hk : 0 < k) (l : List K) : avg (hold k l) = avg l := by
  have : (k : K) ≠ 0 := by positivity
  rw [avg, avg, hold_sum, hold_length, Nat.cast_mul, mul_div_mul_left _ _ this]

theorem variance_hold {k : Nat} (hk : 0 < k) (l : List K) : variance (hold k l) = variance l := by rw [variance, hold_map, avg_hold hk, avg_hold hk, variance]

theorem stdDev_hold {k : Nat} (hk : 0 < k) (l : List ℝ) : stdDev (hold k l) = stdDev l := by rw [stdDev, variance_hold hk, stdDev]

theorem hold_lt {k p n : Nat} (hk : 0 < k) : k * n < k * p ↔ n < p := Nat.mul_lt_mul_left hk

theorem hold_movingAvg {k p : Nat} (hk : 0 < k) (xs : List K) : movingAvgK (k * p) (hold k xs) = movingAvgK p xs := by
  simp only [movingAvgK, hold_length, hold_lt hk, hold_window, avg_hold hk]

theorem hold_movingStd {k p : Nat} (hk : 0 < k) (xs : List ℝ) : movingStdR (k * p) (hold k xs) = movingStdR p xs := by
  simp only [movingStdR, hold_length, hold_lt hk, hold_window, stdDev_hold hk]

/-- **C99 SMA** -/
theorem C99_sma {p k : Nat} (hp : 0 < p) (hk : 0 < k) : SlowedLast (SMA (p : Int) : Operator (XR K)) (SMA ((k * p : Nat) : Int)) numbers numbers k :=
  (sma_reals hp).slowedLast (sma_reals (Nat.mul_pos hk hp)) hk fun xs _ => hold_movingAvg hk xs
example := C99_sma (K := ℚ) (p := 2) (k := 3) (by norm_num) (by norm_num) [4, 1] (by simp)

/-- **C99 SMA crossover** -/
theorem C99_crossover {slow fast k : Nat} (hs : 0 < slow) (hf : 0 < fast) (hk : 0 < k) : SlowedLast (SMACrossover (slow : Int) fast : Operator (XR K)) (SMACrossover ((k * slow : Nat) : Int) ((k * fast : Nat) : Int)) numbers numbers k :=
  (crossover_reals hs hf).slowedLast (crossover_reals (Nat.mul_pos hk hs) (Nat.mul_pos hk hf)) hk fun xs _ => by
    simp only [smaDiffK, hold_length, hold_lt hk, hold_movingAvg hk]
example := C99_crossover (K := ℚ) (slow := 2) (fast := 1) (k := 3) (by norm_num) (by norm_num) (by norm_num) [4, 1] (by simp)

/-- **C99 MSD** -/
theorem C99_msd {p k : Nat} (hp : 0 < p) (hk : 0 < k) : SlowedLast (MSD (p : Int) : Operator (XR ℝ)) (MSD ((k * p : Nat) : Int)) numbers numbers k :=
  (msd_reals hp).slowedLast (msd_reals (Nat.mul_pos hk hp)) hk fun xs _ => hold_movingStd hk xs
example := C99_msd (p := 2) (k := 3) (by norm_num) (by norm_num) [4, 1] (by simp)

/-- **C99 Bollinger bands** -/
theorem C99_bollinger {p k : Nat} (hp : 0 < p) (hk : 0 < k) (c : ℚ) : SlowedLast (BollingerBands (p : Int) c : Operator (XR ℝ)) (BollingerBands ((k * p : Nat) : Int) c) numbers finSeries3 k :=
  (bollinger_reals hp c).slowedLast (bollinger_reals (Nat.mul_pos hk hp) c) hk fun xs _ => by simp only [hold_movingAvg hk, hold_movingStd hk]
example := C99_bollinger (p := 2) (k := 3) (by norm_num) (by norm_num) 2 [4, 1] (by simp)

/-- **C99 Skewness** -/
theorem C99_skewness {p k : Nat} (hp : 0 < p) (hk : 0 < k) : SlowedLast (Skewness (p : Int) : Operator (XR ℝ)) (Skewness ((k * p : Nat) : Int)) numbers numbers k :=
  (skew_reals hp).slowedLast (skew_reals (Nat.mul_pos hk hp)) hk fun xs _ => by
    simp only [skewOf, skew, thirdMoment, hold_window, stdDev_hold hk, hold_map, avg_hold hk]
example := C99_skewness (p := 2) (k := 3) (by norm_num) (by norm_num) [4, 1] (by simp)

/-- **C99 Sharpe ratio** -/
theorem C99_sharpe {p k : Nat} (hp : 0 < p) (hk : 0 < k) : SlowedLast (SharpeRatio (p : Int) : Operator (XR ℝ)) (SharpeRatio ((k * p : Nat) : Int)) pairs numbers k :=
  (sharpe_reals hp).slowedLast (sharpe_reals (Nat.mul_pos hk hp)) hk fun xs _ => by
    simp only [sharpeR, hold_map, hold_window, stdDev_hold hk, avg_hold hk]
example := C99_sharpe (p := 2) (k := 3) (by norm_num) (by norm_num) [(4, 0), (1, 2)] (by simp)

/-- **C99 Correlation** -/
theorem C99_correlation {p k : Nat} (hp : 0 < p) (hk : 0 < k) : SlowedLast (Correlation (p : Int) : Operator (XR ℝ)) (Correlation ((k * p : Nat) : Int)) pairs vSBuf k :=
  (corr_pairs_reals hp).slowedLast (corr_pairs_reals (Nat.mul_pos hk hp)) hk fun xs hx => by
    have e (l : List (ℝ × ℝ)) (q : Nat) : pearson (window q ((l.map (Prod.map fin fin)).map Prod.fst)) (window q ((l.map (Prod.map fin fin)).map Prod.snd)) =
        (pearson (((window q l).map Prod.fst).map fin) (((window q l).map Prod.snd).map fin) : XR ℝ) := by
      simp only [window, List.map_map, List.map_take, List.map_reverse]
      rfl
    have h1 : window p xs ≠ [] := window_ne_nil hp hx
    simp only [corrOf, List.length_map, hold_length, e]
    rw [hold_window, pearson_fin h1, pearson_fin (hold_ne_nil hk h1)]
    simp only [covariance, hold_map, stdDev_hold hk, avg_hold hk, Nat.mul_le_mul_left_iff hk]
example := C99_correlation (p := 2) (k := 3) (by norm_num) (by norm_num) [(4, 0), (1, 2)] (by simp)

/-! ### Zero crossover -/

omit [IsStrictOrderedRing K] [Transc K] [FloorRing K] in
theorem lastSign_append_replicate {l : List K} {x : K} : ∀ r : Nat, lastSign (l ++ List.replicate (r + 1) x) = if x = 0 then lastSign l else sgn x
  | 0 => lastSign_snoc l x
  | r + 1 => by
    rw [List.replicate_succ', ← List.append_assoc, lastSign_snoc, lastSign_append_replicate r]
    split <;> rfl

omit [IsStrictOrderedRing K] [Transc K] [FloorRing K] in
theorem lastSign_hold {k : Nat} (hk : 0 < k) (xs : List K) : lastSign (hold k xs) = lastSign xs := by
  obtain ⟨r, rfl⟩ : ∃ r, k = r + 1 := ⟨k - 1, by omega⟩
  induction xs using List.reverseRecOn with
  | nil => rfl
  | append_singleton xs x ih =>
    rw [hold_append, hold_cons, show hold (r + 1) ([] : List K) = [] from rfl, List.append_nil, lastSign_append_replicate, lastSign_snoc, ih]

omit [IsStrictOrderedRing K] [Transc K] [FloorRing K] in
theorem turn_snoc (m : List K) (x : K) : turnAt (m ++ [x]) ((m ++ [x]).length - 1) = if m = [] ∨ x = 0 ∨ sgn x = lastSign m then 0 else sgn x := by
  simp [turnAt, List.length_eq_zero_iff]

omit [IsStrictOrderedRing K] [Transc K] [FloorRing K] in
theorem turns_replicate (m : List K) (x : K) : ∀ r : Nat, scan (fun l => turnAt l (l.length - 1)) [] (m ++ List.replicate (r + 1) x) =
    scan (fun l => turnAt l (l.length - 1)) [] m ++ turnAt (m ++ [x]) ((m ++ [x]).length - 1) :: List.replicate r 0
  | 0 => by simp [scan_snoc]
  | r + 1 => by
    rw [List.replicate_succ', ← List.append_assoc, scan_snoc, turns_replicate m x r, turn_snoc (m ++ _), lastSign_append_replicate, if_pos, List.append_assoc, List.replicate_succ' (n := r), List.cons_append]
    by_cases hx : x = 0 <;> simp [hx]

theorem turns_hold (r : Nat) (xs : List K) : scan (fun l => turnAt l (l.length - 1)) [] (hold (r + 1) xs) = once (r + 1) (scan (fun l => turnAt l (l.length - 1)) [] xs) := by
  induction xs using List.reverseRecOn with
  | nil => rfl
  | append_singleton xs x ih =>
    rw [hold_append, hold_cons, show hold (r + 1) ([] : List K) = [] from rfl, List.append_nil, turns_replicate, ih, scan_snoc, once, once, List.flatMap_append, turn_snoc, turn_snoc, lastSign_hold r.succ_pos]
    have : hold (r + 1) xs = [] ↔ xs = [] := by rw [← List.length_eq_zero_iff, hold_length, ← List.length_eq_zero_iff]; simp
    simp [this]

/-- **C99 Zero crossover** -/
theorem C99_zero_crossover {k : Nat} (hk : 0 < k) (xs : List K) (hx : xs ≠ []) : ∃ os sf s0 sf' s0', call (ZeroCrossoverSignal : Operator (XR K)) (numbers xs) none = .ok (vIBuf os, sf, s0) ∧
    call (ZeroCrossoverSignal : Operator (XR K)) (numbers (hold k xs)) none = .ok (vIBuf (once k os), sf', s0') := by
  obtain ⟨r, rfl⟩ : ∃ r, k = r + 1 := ⟨k - 1, by omega⟩
  obtain ⟨st, h, -⟩ := zc_reals (K := K)
  refine ⟨_, _, _, st (hold (r + 1) xs), st [], h xs hx, ?_⟩
  rw [← turns_hold]
  exact h _ (hold_ne_nil hk hx)
example := C99_zero_crossover (K := ℚ) (k := 3) (by norm_num) [4, -1] (by simp)

end TS
