import Verif.Spec.Relations
import Verif.Props.RSI
import Verif.Props.Accuracy5
import Verif.Props.Reals
/-
C94: operators in terms of each other.
-/
namespace TS
open XR

section
variable {K : Type} [Field K] [LinearOrder K] [IsStrictOrderedRing K] [Transc K] [FloorRing K] {A : Type}

omit [Field K] [LinearOrder K] [IsStrictOrderedRing K] [Transc K] [FloorRing K] in
theorem StreamsAs.outputs {op : Operator (XR K)} {ser : List A → Val (XR K)} {y : List A → K} (h : StreamsAs op ser finSeries y) {xs : List A} (hx : xs ≠ []) :
    Outputs op (ser xs) (scan y [] xs) := h.at' hx

omit [LinearOrder K] [IsStrictOrderedRing K] [Transc K] [FloorRing K] in
theorem scan_getD {y : List A → K} {xs : List A} {i : Nat} (hi : i < xs.length) : (scan y [] xs).getD i 0 = y (xs.take (i + 1)) := by
  rw [List.getD_eq_getElem?_getD, List.getElem?_eq_getElem (by simpa using hi), Option.getD_some, scan_getElem]; rfl

/-- **C94 Rolling and exponential averages**: `RollingMovingAverage(p)` and `ExponentialMovingAverage(2p - 1)` have the same weights. Once both are warm, they differ by their seeds only,
and the difference shrinks by the factor `(p - 1) / p` with every sample. -/
theorem C94_rolling_exponential {p : Nat} (hp : 0 < p) {xs : List K} (hx : xs ≠ []) :
    ∃ r e, Outputs (RMA (p : Int)) (numbers xs) r ∧ Outputs (EMA ((2 * p - 1 : Nat) : Int)) (numbers xs) e ∧ r.length = xs.length ∧ e.length = xs.length ∧
      ∀ i j, 2 * p - 2 ≤ j → j + i < xs.length → r.getD (j + i) 0 - e.getD (j + i) 0 = (((p : K) - 1) / p) ^ i * (r.getD j 0 - e.getD j 0) := by
  refine ⟨_, _, (rma_reals hp).outputs hx, (ema_reals (p := 2 * p - 1) (by omega)).outputs hx, by simp, by simp, fun i j hj hi => ?_⟩
  have hp' : (1 : K) ≤ p := by exact_mod_cast hp
  have step : ∀ k, 2 * p - 2 ≤ k → k + 1 < xs.length → ∀ (q : Nat) (w : K), q ≤ k + 1 →
      (scan (recursiveAvgK q fun m x => m + w * (x - m)) [] xs).getD (k + 1) 0 =
        (scan (recursiveAvgK q fun m x => m + w * (x - m)) [] xs).getD k 0 + w * (xs.getD (k + 1) 0 - (scan (recursiveAvgK q fun m x => m + w * (x - m)) [] xs).getD k 0) := by
    intro k _ hk q w hq
    rw [scan_getD hk, scan_getD (by omega), List.take_add_one (i := k + 1), List.getElem?_eq_getElem hk, recursiveAvgK, List.drop_append_of_le_length (by simp; omega),
      List.take_append_of_le_length (by simp; omega), List.foldl_append, recursiveAvgK, List.getD_eq_getElem?_getD, List.getElem?_eq_getElem hk]
    rfl
  induction i with
  | zero => simp
  | succ i ih =>
    have h := ih (by omega)
    have hw : 2 / (((2 * p - 1 : Nat) : K) + 1) = 1 / p := by
      rw [Nat.cast_sub (by omega)]; push_cast; field_simp; ring
    rw [← Nat.add_assoc, step (j + i) (by omega) (by omega) p (1 / p) (by omega), hw]
    rw [hw] at h
    rw [step (j + i) (by omega) (by omega) (2 * p - 1) (1 / p) (by omega), pow_succ]
    have h0 : (p : K) ≠ 0 := by linarith
    generalize (scan (recursiveAvgK p fun m x => m + 1 / (p : K) * (x - m)) [] xs).getD (j + i) 0 = a at h ⊢
    generalize (scan (recursiveAvgK (2 * p - 1) fun m x => m + 1 / (p : K) * (x - m)) [] xs).getD (j + i) 0 = b at h ⊢
    generalize (scan (recursiveAvgK p fun m x => m + 1 / (p : K) * (x - m)) [] xs).getD j 0 = c at h ⊢
    generalize (scan (recursiveAvgK (2 * p - 1) fun m x => m + 1 / (p : K) * (x - m)) [] xs).getD j 0 = d at h ⊢
    have : (((p : K) - 1) / p) ^ i * (((p : K) - 1) / p) * (c - d) = (((p : K) - 1) / p) * (a - b) := by rw [h]; ring
    rw [this]; field_simp; ring
example := C94_rolling_exponential (K := ℚ) (p := 3) (by norm_num) (xs := [1, 2, 5, 4, 3, 7]) (by simp)

end

theorem variance_raw {l : List ℝ} (hl : l ≠ []) : variance l = avg (l.map fun x => x ^ 2) - avg l ^ 2 := by
  have e1 : avg (l.map fun x => x) = avg l := by simp
  unfold variance
  rw [show (l.map fun x => (x - avg l) ^ 2) = l.map fun x => x ^ 2 + (-2 * avg l * x + avg l ^ 2) from List.map_congr_left fun x _ => by ring,
    avg_add, avg_add, avg_map_smul, avg_const_map hl, e1]
  ring

theorem covariance_raw {l : List (ℝ × ℝ)} (hl : l ≠ []) :
    covariance l = avg (l.map fun z => z.1 * z.2) - avg (l.map Prod.fst) * avg (l.map Prod.snd) := by
  have e1 (c : ℝ) : avg (l.map fun z => c * z.1) = c * avg (l.map Prod.fst) := avg_map_smul c Prod.fst l
  have e2 (c : ℝ) : avg (l.map fun z => c * z.2) = c * avg (l.map Prod.snd) := avg_map_smul c Prod.snd l
  unfold covariance
  rw [show (l.map fun z => (z.1 - avg (l.map Prod.fst)) * (z.2 - avg (l.map Prod.snd))) =
      l.map fun z => z.1 * z.2 + (-avg (l.map Prod.fst) * z.2 + (-avg (l.map Prod.snd) * z.1 + avg (l.map Prod.fst) * avg (l.map Prod.snd))) from
      List.map_congr_left fun z _ => by ring, avg_add, avg_add, avg_add, e1, e2, avg_const_map hl]
  ring

/-- **C94 Variance**: the square of `MovingStandardDeviation` is the average of the squares minus the square of the average. -/
theorem C94_variance {p : Nat} (hp : 0 < p) {xs : List ℝ} (hx : xs ≠ []) :
    ∃ d q m, Outputs (MSD (p : Int)) (numbers xs) d ∧ Outputs (SMA (p : Int)) (numbers (xs.map (· ^ 2))) q ∧ Outputs (SMA (p : Int)) (numbers xs) m ∧
      d.length = xs.length ∧ q.length = xs.length ∧ m.length = xs.length ∧ ∀ i < xs.length, d.getD i 0 ^ 2 = q.getD i 0 - m.getD i 0 ^ 2 := by
  refine ⟨_, _, _, (msd_reals hp).outputs hx, (sma_reals hp).outputs (by simpa using hx), (sma_reals hp).outputs hx, by simp, by simp, by simp, fun i hi => ?_⟩
  rw [scan_getD hi, scan_getD (by simpa using hi), scan_getD hi, movingStdR, movingAvgK, movingAvgK, ← List.map_take, List.length_map]
  split
  · simp
  · rename_i h
    rw [window_map, stdDev, Real.sq_sqrt (variance_nonneg _), variance_raw (window_ne_nil hp (by rw [← List.length_pos_iff]; omega))]
example := C94_variance (p := 2) (by norm_num) (xs := [1, 3, 2]) (by simp)

/-- **C94 Sharpe ratio**: the average of the excess returns divided by their deviation, 0 if that is 0
(as `x / 0 = 0` for real numbers). -/
theorem C94_sharpe {p : Nat} (hp : 0 < p) {zs : List (ℝ × ℝ)} (hz : zs ≠ []) :
    ∃ s m d, Outputs (SharpeRatio (p : Int)) (.tup [numbers (zs.map Prod.fst), numbers (zs.map Prod.snd)]) s ∧ Outputs (SMA (p : Int)) (numbers (zs.map fun z => z.1 - z.2)) m ∧
      Outputs (MSD (p : Int)) (numbers (zs.map fun z => z.1 - z.2)) d ∧ s.length = zs.length ∧ m.length = zs.length ∧ d.length = zs.length ∧
      ∀ i < zs.length, p ≤ i + 1 → s.getD i 0 = m.getD i 0 / d.getD i 0 := by
  refine ⟨_, _, _, (sharpe_reals hp).outputs hz, (sma_reals hp).outputs (by simpa using hz), (msd_reals hp).outputs (by simpa using hz), by simp, by simp, by simp, fun i hi hpi => ?_⟩
  have n1 : ¬ min (i + 1) zs.length < p := by omega
  simp only [scan_getD hi, scan_getD (show i < (zs.map fun z => z.1 - z.2).length by simpa using hi), movingStdR, movingAvgK, sharpeR, ← List.map_take, List.length_map,
    List.length_take, n1, if_false]
  split
  · rename_i h; rw [h, div_zero]
  · rfl
example := C94_sharpe (p := 2) (by norm_num) (zs := [(1, 0), (3, 1), (2, 1)]) (by simp)

/-- **C94 Skewness** from the averages of the samples and their cubes and the deviation, 0 if that is 0
(as `x / 0 = 0` for real numbers). -/
theorem C94_skewness {p : Nat} (hp : 0 < p) {xs : List ℝ} (hx : xs ≠ []) :
    ∃ s c m d, Outputs (Skewness (p : Int)) (numbers xs) s ∧ Outputs (SMA (p : Int)) (numbers (xs.map (· ^ 3))) c ∧ Outputs (SMA (p : Int)) (numbers xs) m ∧
      Outputs (MSD (p : Int)) (numbers xs) d ∧ s.length = xs.length ∧ c.length = xs.length ∧ m.length = xs.length ∧ d.length = xs.length ∧
      ∀ i < xs.length, p ≤ i + 1 → s.getD i 0 = (c.getD i 0 - 3 * m.getD i 0 * d.getD i 0 ^ 2 - m.getD i 0 ^ 3) / d.getD i 0 ^ 3 := by
  refine ⟨_, _, _, _, (skew_reals hp).outputs hx, (sma_reals hp).outputs (by simpa using hx), (sma_reals hp).outputs hx, (msd_reals hp).outputs hx, by simp, by simp, by simp, by simp,
    fun i hi hpi => ?_⟩
  have hw : window p (xs.take (i + 1)) ≠ [] := window_ne_nil hp (by rw [← List.length_pos_iff, List.length_take]; omega)
  have hs : stdDev (window p (xs.take (i + 1))) ^ 2 = variance (window p (xs.take (i + 1))) := Real.sq_sqrt (variance_nonneg _)
  rw [scan_getD hi, scan_getD (by simpa using hi), scan_getD hi, scan_getD hi, movingStdR, movingAvgK, movingAvgK, ← List.map_take, List.length_map, List.length_take,
    if_neg (by omega), if_neg (by omega), if_neg (by omega), window_map, skewOf, hs, ← thirdMoment_eq hw, skew]
  split
  · rename_i h; rw [h]; simp
  · rfl
example := C94_skewness (p := 2) (by norm_num) (xs := [1, 3, 2]) (by simp)

/-- **C94 Correlation**: the average product minus the product of the averages, divided by both deviations. The division
is the one of the library: 0 divided by 0 is NaN. -/
theorem C94_correlation {p : Nat} (hp : 0 < p) {zs : List (ℝ × ℝ)} (hz : zs ≠ []) :
    ∃ o c a b d e sf s0, call (Correlation (p : Int)) (.tup [numbers (zs.map Prod.fst), numbers (zs.map Prod.snd)]) none = .ok (vSBuf o, sf, s0) ∧
      Outputs (SMA (p : Int)) (numbers (zs.map fun z => z.1 * z.2)) c ∧ Outputs (SMA (p : Int)) (numbers (zs.map Prod.fst)) a ∧ Outputs (SMA (p : Int)) (numbers (zs.map Prod.snd)) b ∧
      Outputs (MSD (p : Int)) (numbers (zs.map Prod.fst)) d ∧ Outputs (MSD (p : Int)) (numbers (zs.map Prod.snd)) e ∧
      o.length = zs.length ∧ c.length = zs.length ∧ a.length = zs.length ∧ b.length = zs.length ∧ d.length = zs.length ∧ e.length = zs.length ∧
      ∀ i < zs.length, p ≤ i → o.getD i nan = fin (c.getD i 0 - a.getD i 0 * b.getD i 0) / fin (d.getD i 0 * e.getD i 0) := by
  obtain ⟨os, sf, s0, h1, hl, h2⟩ := (C41_correlation_scalar (α := XR ℝ) hp).at (xs := zs.map (Prod.map XR.fin XR.fin)) (by simpa using hz)
  rw [List.length_map] at hl
  refine ⟨os, _, _, _, _, _, sf, s0, by rw [← finPairs_eq] at h1; exact h1, (sma_reals hp).outputs (by simpa using hz), (sma_reals hp).outputs (by simpa using hz), (sma_reals hp).outputs (by simpa using hz),
    (msd_reals hp).outputs (by simpa using hz), (msd_reals hp).outputs (by simpa using hz), hl, by simp, by simp, by simp, by simp, by simp, fun i hi hpi => ?_⟩
  have hw : window p (zs.take (i + 1)) ≠ [] := window_ne_nil hp (by rw [← List.length_pos_iff, List.length_take]; omega)
  rw [List.getD_eq_getElem?_getD, List.getElem?_eq_getElem (by omega), Option.getD_some, h2 i (by simpa using hi), corr_at hi, if_neg (by omega),
    show lastOf p zs i hi = window p (zs.take (i + 1)) from (window_take hi (by omega)).symm, pearson_fin hw, covariance_raw hw]
  have n1 : ¬ min (i + 1) zs.length < p := by omega
  simp only [scan_getD (show i < (zs.map fun z => z.1 * z.2).length by simpa using hi), scan_getD (show i < (zs.map Prod.fst).length by simpa using hi),
    scan_getD (show i < (zs.map Prod.snd).length by simpa using hi), movingStdR, movingAvgK, ← List.map_take, List.length_map, List.length_take, window_map, n1, if_false]
example := C94_correlation (p := 2) (by norm_num) (zs := [(1, 0), (3, 1), (2, 1)]) (by simp)

/-- **C94 average true range**: on candles without width that never close at zero, the rolling moving average of the
absolute values of the momentum. -/
theorem C94_atr {p : Nat} (hp : 0 < p) {xs : List ℝ} (hx : xs ≠ []) (h0 : ∀ x ∈ xs, x ≠ 0) :
    ∃ m a, Outputs (Momentum 1) (numbers xs) m ∧ Outputs (RMA (p : Int)) (numbers (m.map fun v => |v|)) a ∧ Outputs (ATR (p : Int)) (flat xs) a := by
  have hm : (scan (momentumK 1) [] xs).map (fun v => |v|) = trueRangesK (xs.map fun x => (⟨x, x, x⟩ : CLH ℝ)) := by
    apply List.ext_getElem (by simp)
    intro i h1 h2
    have hi : i < xs.length := by simpa using h1
    rw [trueRangesK_getElem _ i (by simpa using hi), List.getElem_map, scan_getElem, List.getElem_map, momentumK]
    dsimp only
    rw [List.nil_append, List.length_take, closeBefore, trueRangeK, lagged, List.take_succ_eq_append_getElem hi]
    rcases i with _ | i
    · simp
    · have hx0 : xs[i] ≠ 0 := h0 _ (List.getElem_mem _)
      simp [List.getElem?_eq_getElem (show i < xs.length by omega), hx0]
      rw [if_neg (by omega), List.take_succ_eq_append_getElem hi, List.take_succ_eq_append_getElem (show i < xs.length by omega)]
      generalize List.take i xs = t
      simp
  refine ⟨_, _, (momentum_reals one_pos).outputs hx, (rma_reals hp).outputs (by rw [hm, ← List.length_pos_iff]; simpa [List.length_pos_iff] using hx), ?_⟩
  have := (atr_reals (K := ℝ) hp).outputs (xs := xs.map fun x => (⟨x, x, x⟩ : CLH ℝ)) (by simpa using hx)
  rw [hm]
  have e : scan (recursiveAvgK p fun m x => m + 1 / (p : ℝ) * (x - m)) [] (trueRangesK (xs.map fun x => (⟨x, x, x⟩ : CLH ℝ))) = scan (atrK p) [] (xs.map fun x => (⟨x, x, x⟩ : CLH ℝ)) := by
    apply List.ext_getElem (by simp)
    intro i h1 h2
    simp only [scan_getElem, List.nil_append, atrK, trueRangesK_take]
  rw [e]
  simpa [finCandles, candles, CLH.map, flat, numbers, Function.comp_def] using this
example := C94_atr (p := 2) (by norm_num) (xs := [1, 3, 2]) (by simp) (by simp)

/-- **C94 RSI** from the rolling moving averages of the rises and the falls: their share in percent, NaN where both are zero. -/
theorem C94_rsi {p : Nat} (hp : 0 < p) {xs : List ℝ} (hx : 2 ≤ xs.length) :
    ∃ o g l sf s0, call (RSI (p : Int)) (numbers xs) none = .ok (vSBuf o, sf, s0) ∧ Outputs (RMA (p : Int)) (numbers (rises xs)) g ∧
      Outputs (RMA (p : Int)) (numbers (falls xs)) l ∧ o.length = xs.length ∧ g.length + 1 = xs.length ∧ l.length + 1 = xs.length ∧
      ∀ i, i + 1 < xs.length → p ≤ i + 1 → o.getD (i + 1) nan = if g.getD i 0 + l.getD i 0 = 0 then nan else fin (100 * g.getD i 0 / (g.getD i 0 + l.getD i 0)) := by
  have hne : xs ≠ [] := by rw [← List.length_pos_iff]; omega
  have mr (i : Nat) (hi : i + 1 < xs.length) : (rises xs).take (i + 1) = (moves xs (i + 1)).map fun d => max 0 d := by
    apply List.ext_getElem (by simp [rises, moves]; omega)
    intro k h1 h2
    have : k < i + 1 := by simpa [moves] using h2
    simp [rises, moves, List.getElem?_eq_getElem (show k < xs.length by omega), List.getElem?_eq_getElem (show k + 1 < xs.length by omega)]
  have mf (i : Nat) (hi : i + 1 < xs.length) : (falls xs).take (i + 1) = (moves xs (i + 1)).map fun d => max 0 (-d) := by
    apply List.ext_getElem (by simp [falls, moves]; omega)
    intro k h1 h2
    have : k < i + 1 := by simpa [moves] using h2
    simp [falls, moves, List.getElem?_eq_getElem (show k < xs.length by omega), List.getElem?_eq_getElem (show k + 1 < xs.length by omega)]
  have lr : (rises xs).length = xs.length - 1 := by simp [rises]
  have lf : (falls xs).length = xs.length - 1 := by simp [falls]
  obtain ⟨o, sf, s0, h1, hl, h2⟩ := C36_rsi hp hne
  refine ⟨o, _, _, sf, s0, h1, (rma_reals hp).outputs (by rw [← List.length_pos_iff]; omega), (rma_reals hp).outputs (by rw [← List.length_pos_iff]; omega), hl, by simp [lr]; omega,
    by simp [lf]; omega, fun i hi hpi => ?_⟩
  have lm : (moves xs (i + 1)).length = i + 1 := by simp [moves]
  rw [List.getD_eq_getElem?_getD, List.getElem?_eq_getElem (by omega), Option.getD_some, scan_getD (by omega), scan_getD (by omega), mr i hi, mf i hi,
    ← wilderAvg_eq hp (by simpa [lm] using hpi), ← wilderAvg_eq hp (by simpa [lm] using hpi)]
  change o[i + 1] = if gainAt p xs (i + 1) + lossAt p xs (i + 1) = 0 then nan else fin (100 * gainAt p xs (i + 1) / (gainAt p xs (i + 1) + lossAt p xs (i + 1)))
  have hG := gainAt_nonneg hp xs (i + 1)
  have hL := lossAt_nonneg hp xs (i + 1)
  obtain ⟨-, h3, h4, h5⟩ := h2 (i + 1) hi
  by_cases hz : lossAt p xs (i + 1) = 0
  · by_cases hg : gainAt p xs (i + 1) = 0
    · rw [h5 hpi hz hg, hz, hg]; simp
    · rw [h4 hpi hz hg, hz, add_zero, if_neg hg, mul_div_cancel_right₀ _ hg]
  · have hL' : 0 < lossAt p xs (i + 1) := lt_of_le_of_ne hL (Ne.symm hz)
    obtain ⟨v, hv, e, -⟩ := h3 hpi hz
    rw [hv, if_neg (by positivity), e]
    congr 1
    have : gainAt p xs (i + 1) + lossAt p xs (i + 1) ≠ 0 := by positivity
    have : lossAt p xs (i + 1) + gainAt p xs (i + 1) ≠ 0 := by positivity
    field_simp
    ring
example := C94_rsi (p := 2) (by norm_num) (xs := [1, 3, 2]) (by simp)

end TS
