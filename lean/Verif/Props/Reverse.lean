import Verif.Props.Hold
/-
C100: series in reverse order.
-/
namespace TS
open XR
variable {K : Type} [Field K] [LinearOrder K] [IsStrictOrderedRing K] [Transc K] [FloorRing K] {A B : Type}

omit [Field K] [LinearOrder K] [IsStrictOrderedRing K] [Transc K] [FloorRing K] in
theorem StreamsAs.reverses {op : Operator (XR K)} {ser : List A → Val (XR K)} {outs : List B → Val (XR K)} {y : List A → B} (h : StreamsAs op ser outs y) {ok : A → Prop} {n : Nat} {g : B → B}
    (key : ∀ xs : List A, (∀ x ∈ xs, ok x) → ∀ i, n ≤ i → i < xs.length → y (xs.reverse.take (i + 1)) = g (y (xs.take (xs.length - 1 - i + n + 1)))) : Reverses op ser outs ok n g := fun xs hx hok => by
  obtain ⟨st, h, -⟩ := h
  refine ⟨_, _, _, _, _, _, h xs hx, h _ (by simpa using hx), by simp, by simp, List.ext_getElem (by simp) fun j h1 h2 => ?_⟩
  simp only [List.length_drop, scan_length, List.length_reverse] at h1
  rw [List.getElem_drop, List.getElem_reverse, List.getElem_map, List.getElem_drop, scan_getElem, scan_getElem, List.nil_append, List.nil_append, key xs hok _ (by omega) (by omega)]
  congr 4
  simp only [List.length_map, List.length_drop, scan_length]
  omega

/-- A window of the series in reverse order. -/
theorem window_reverse {p i : Nat} {xs : List A} (hp : p ≤ i + 1) (hi : i < xs.length) : window p (xs.reverse.take (i + 1)) = (window p (xs.take (xs.length - 1 - i + (p - 1) + 1))).reverse := by
  rcases p with _ | p
  · simp [window]
  rw [window_take (by simpa using hi) hp, window_take (by omega) (by omega)]
  apply List.ext_getElem
  · simp
  · intro j h1 h2
    simp only [List.length_ofFn] at h1
    simp only [List.getElem_ofFn, List.getElem_reverse, List.length_ofFn]
    congr 1
    omega

theorem window_reverse_perm {p i : Nat} {xs : List A} (hp : p - 1 ≤ i) (hi : i < xs.length) : (window p (xs.reverse.take (i + 1))).Perm (window p (xs.take (xs.length - 1 - i + (p - 1) + 1))) := by
  rw [window_reverse (by omega) hi]
  exact List.reverse_perm _

theorem take_reverse_length {p i : Nat} {xs : List A} (hp : p - 1 ≤ i) (hi : i < xs.length) : ¬ (xs.reverse.take (i + 1)).length < p ∧ ¬ (xs.take (xs.length - 1 - i + (p - 1) + 1)).length < p := by
  simp only [List.length_take, List.length_reverse]
  omega

omit [LinearOrder K] [IsStrictOrderedRing K] [Transc K] [FloorRing K] in
theorem movingAvg_reverse {p i : Nat} {xs : List K} (hp : p - 1 ≤ i) (hi : i < xs.length) : movingAvgK p (xs.reverse.take (i + 1)) = movingAvgK p (xs.take (xs.length - 1 - i + (p - 1) + 1)) := by
  obtain ⟨h1, h2⟩ := take_reverse_length hp hi
  rw [movingAvgK, movingAvgK, if_neg h1, if_neg h2, avg_perm (window_reverse_perm hp hi)]

theorem movingStd_reverse {p i : Nat} {xs : List ℝ} (hp : p - 1 ≤ i) (hi : i < xs.length) : movingStdR p (xs.reverse.take (i + 1)) = movingStdR p (xs.take (xs.length - 1 - i + (p - 1) + 1)) := by
  obtain ⟨h1, h2⟩ := take_reverse_length hp hi
  rw [movingStdR, movingStdR, if_neg h1, if_neg h2, stdDev_perm (window_reverse_perm hp hi)]

/-- **C100 SMA** -/
theorem C100_sma {p : Nat} (hp : 0 < p) : Reverses (SMA (p : Int) : Operator (XR K)) numbers numbers (fun _ => True) (p - 1) id :=
  (sma_reals hp).reverses fun _ _ _ h1 h2 => movingAvg_reverse h1 h2
example := C100_sma (K := ℚ) (p := 2) (by norm_num) [4, 1, 3] (by simp) (by simp)

/-- **C100 Local maximum** -/
theorem C100_local_max {p : Nat} (hp : 0 < p) : Reverses (LocalMaximum (p : Int) : Operator (XR K)) numbers numbers (fun _ => True) (p - 1) id :=
  (localMax_reals hp).reverses fun _ _ _ h1 h2 => greatestK_perm (window_reverse_perm h1 h2)
example := C100_local_max (K := ℚ) (p := 2) (by norm_num) [4, 1, 3] (by simp) (by simp)

/-- **C100 Local minimum** -/
theorem C100_local_min {p : Nat} (hp : 0 < p) : Reverses (LocalMinimum (p : Int) : Operator (XR K)) numbers numbers (fun _ => True) (p - 1) id :=
  (localMin_reals hp).reverses fun _ _ _ h1 h2 => leastK_perm (window_reverse_perm h1 h2)
example := C100_local_min (K := ℚ) (p := 2) (by norm_num) [4, 1, 3] (by simp) (by simp)

/-- **C100 MSD** -/
theorem C100_msd {p : Nat} (hp : 0 < p) : Reverses (MSD (p : Int) : Operator (XR ℝ)) numbers numbers (fun _ => True) (p - 1) id :=
  (msd_reals hp).reverses fun _ _ _ h1 h2 => movingStd_reverse h1 h2
example := C100_msd (p := 2) (by norm_num) [4, 1, 3] (by simp) (by simp)

/-- **C100 Bollinger bands** -/
theorem C100_bollinger {p : Nat} (hp : 0 < p) (c : ℚ) : Reverses (BollingerBands (p : Int) c : Operator (XR ℝ)) numbers finSeries3 (fun _ => True) (p - 1) id :=
  (bollinger_reals hp c).reverses fun _ _ _ h1 h2 => by simp only [movingAvg_reverse h1 h2, movingStd_reverse h1 h2, id]
example := C100_bollinger (p := 2) (by norm_num) 2 [4, 1, 3] (by simp) (by simp)

/-- **C100 Skewness** -/
theorem C100_skewness {p : Nat} (hp : 0 < p) : Reverses (Skewness (p : Int) : Operator (XR ℝ)) numbers numbers (fun _ => True) (p - 1) id :=
  (skew_reals hp).reverses fun _ _ _ h1 h2 => by
    have h := window_reverse_perm h1 h2
    simp only [skewOf, skew, stdDev_perm h, thirdMoment_perm h, id]
example := C100_skewness (p := 2) (by norm_num) [4, 1, 3] (by simp) (by simp)

/-- **C100 Sharpe ratio** -/
theorem C100_sharpe {p : Nat} (hp : 0 < p) : Reverses (SharpeRatio (p : Int) : Operator (XR ℝ)) pairs numbers (fun _ => True) (p - 1) id :=
  (sharpe_reals hp).reverses fun xs _ i h1 h2 => by
    have h := window_reverse_perm (xs := xs.map fun z => z.1 - z.2) h1 (by simpa using h2)
    rw [← List.map_reverse, ← List.map_take, ← List.map_take, List.length_map] at h
    simp only [sharpeR, stdDev_perm h, avg_perm h, id]
example := C100_sharpe (p := 2) (by norm_num) [(4, 0), (1, 1), (3, 2)] (by simp) (by simp)

/-- The sample `p` back. -/
theorem lagged_reverse {p i : Nat} {z : A} {xs : List A} (hp : p ≤ i) (hi : i < xs.length) : lagged z p (xs.reverse.take (i + 1)) = (xs.take (xs.length - 1 - i + p + 1)).getLastD z ∧
    (xs.reverse.take (i + 1)).getLastD z = lagged z p (xs.take (xs.length - 1 - i + p + 1)) := by
  have e {l : List A} {j : Nat} (h : j < l.length) : (l.take (j + 1)).getLastD z = l[j] := by rw [List.take_succ_eq_append_getElem h, List.getLastD_concat]
  rw [lagged_take (xs := xs.reverse) (by simpa using hi), lagged_take (xs := xs) (by omega), dif_pos hp, dif_pos (by omega), e (l := xs.reverse) (by simpa using hi), e (l := xs) (by omega), List.getElem_reverse, List.getElem_reverse]
  constructor
  · congr 1; omega
  · congr 1; omega

theorem take_reverse_le {p i : Nat} {xs : List A} (hp : p ≤ i) (hi : i < xs.length) : ¬ (xs.reverse.take (i + 1)).length ≤ p ∧ ¬ (xs.take (xs.length - 1 - i + p + 1)).length ≤ p := by
  simp only [List.length_take, List.length_reverse]
  omega

/-- **C100 Momentum** -/
theorem C100_momentum {p : Nat} (hp : 0 < p) : Reverses (Momentum (p : Int) : Operator (XR K)) numbers numbers (fun _ => True) p (fun m => -m) :=
  (momentum_reals hp).reverses fun xs _ i h1 h2 => by
    obtain ⟨h3, h4⟩ := take_reverse_le h1 h2
    obtain ⟨h5, h6⟩ := lagged_reverse (z := 0) h1 h2
    rw [momentumK, momentumK, if_neg h3, if_neg h4, h5, h6, neg_sub]
example := C100_momentum (K := ℚ) (p := 2) (by norm_num) [4, 1, 3] (by simp) (by simp)

/-- **C100 Return** -/
theorem C100_return {p : Nat} (hp : 0 < p) : Reverses (Return (p : Int) : Operator (XR K)) numbers numbers (fun x => x ≠ 0) p (fun r => 1 / (1 + r) - 1) :=
  (return_reals hp).reverses fun xs hok i h1 h2 => by
    obtain ⟨h3, h4⟩ := take_reverse_le h1 h2
    obtain ⟨h5, h6⟩ := lagged_reverse (z := 0) h1 h2
    have h7 : lagged 0 p (xs.take (xs.length - 1 - i + p + 1)) ≠ 0 := by
      rw [lagged_take (by omega), dif_pos (by omega)]
      exact hok _ (List.getElem_mem _)
    have h8 : (xs.take (xs.length - 1 - i + p + 1)).getLastD 0 ≠ 0 := by
      rw [List.take_succ_eq_append_getElem (by omega), List.getLastD_concat]
      exact hok _ (List.getElem_mem _)
    rw [returnK, returnK, h5, h6, if_neg (by simp only [h3, h8, or_self, not_false_eq_true]), if_neg (by simp only [h4, h7, or_self, not_false_eq_true])]
    generalize lagged (0 : K) p (xs.take (xs.length - 1 - i + p + 1)) = a at h7 ⊢
    generalize (xs.take (xs.length - 1 - i + p + 1)).getLastD 0 = b at h8 ⊢
    rw [add_sub_cancel, one_div_div]
example := C100_return (K := ℚ) (p := 2) (by norm_num) [4, 1, 3] (by simp) (by simp)

/-- **C100 Lag** -/
theorem C100_lag {p : Nat} (hp : 0 < p) {xs : List K} (hx : xs ≠ []) : ∃ os sf s0, call (Lag (p : Int) : Operator (XR K)) (numbers xs.reverse) none = .ok (numbers os, sf, s0) ∧ os.length = xs.length ∧ (os.drop p).reverse = xs.drop p := by
  obtain ⟨st, h, -⟩ := lag_reals (K := K) hp
  refine ⟨_, _, _, h _ (by simpa using hx), by simp, List.ext_getElem (by simp) fun j h1 h2 => ?_⟩
  simp only [List.length_drop] at h2
  rw [List.getElem_reverse, List.getElem_drop, List.getElem_drop, scan_getElem, List.nil_append, lagged_take (by simp; omega), dif_pos (by omega), List.getElem_reverse]
  congr 1
  simp only [List.length_drop, scan_length, List.length_reverse]
  omega
example := C100_lag (K := ℚ) (p := 2) (by norm_num) (xs := [4, 1, 3]) (by simp)

/-- **C100 Global extrema** -/
theorem C100_global {xs : List K} (hx : xs ≠ []) : ∃ os os' us us' s1 s2 s3 s4 s5 s6 s7 s8, call (GlobalMaximum : Operator (XR K)) (numbers xs) none = .ok (numbers os, s1, s2) ∧
    call (GlobalMaximum : Operator (XR K)) (numbers xs.reverse) none = .ok (numbers os', s3, s4) ∧ os.getLast? = os'.getLast? ∧ os.length = xs.length ∧
    call (GlobalMinimum : Operator (XR K)) (numbers xs) none = .ok (numbers us, s5, s6) ∧
    call (GlobalMinimum : Operator (XR K)) (numbers xs.reverse) none = .ok (numbers us', s7, s8) ∧ us.getLast? = us'.getLast? ∧ us.length = xs.length := by
  obtain ⟨st, h, -⟩ := globalMax_reals (K := K)
  obtain ⟨st', h', -⟩ := globalMin_reals (K := K)
  have hr : xs.reverse ≠ [] := by simpa using hx
  have e (y : List K → K) (l : List K) (hl : l ≠ []) : (scan y [] l).getLast? = some (y l) := by
    rw [← List.dropLast_append_getLast hl, scan_snoc, List.getLast?_concat]
  refine ⟨_, _, _, _, _, _, _, _, _, _, _, _, h xs hx, h _ hr, ?_, by simp, h' xs hx, h' _ hr, ?_, by simp⟩
  · rw [e _ _ hx, e _ _ hr, greatestK_perm (List.reverse_perm xs)]
  · rw [e _ _ hx, e _ _ hr, leastK_perm (List.reverse_perm xs)]
example := C100_global (K := ℚ) (xs := [4, 1, 3]) (by simp)

omit [IsStrictOrderedRing K] [Transc K] [FloorRing K] in
/-- A turn between two samples that are not zero. -/
theorem turnAt_nonzero {xs : List K} (h : ∀ x ∈ xs, x ≠ 0) {i : Nat} (hi : i + 1 < xs.length) : turnAt xs (i + 1) = if sgn xs[i + 1] = sgn xs[i] then 0 else sgn xs[i + 1] := by
  have e : xs.getD (i + 1) 0 = xs[i + 1] := by rw [List.getD_eq_getElem?_getD, List.getElem?_eq_getElem hi, Option.getD_some]
  rw [turnAt, e, List.take_succ_eq_append_getElem (by omega), lastSign_snoc, if_neg (h _ (List.getElem_mem _))]
  simp [h _ (List.getElem_mem _)]

omit [IsStrictOrderedRing K] [Transc K] [FloorRing K] in
theorem turnAt_take {xs : List K} {i : Nat} (hi : i < xs.length) : turnAt (xs.take (i + 1)) ((xs.take (i + 1)).length - 1) = turnAt xs i := by
  rw [List.length_take, Nat.min_eq_left (by omega), Nat.add_sub_cancel, turnAt, turnAt, List.take_take, Nat.min_eq_left (by omega)]
  simp only [List.getD_eq_getElem?_getD, List.getElem?_take_of_lt (Nat.lt_succ_self i)]

/-- **C100 Zero crossover** -/
theorem C100_zero_crossover : Reverses (ZeroCrossoverSignal : Operator (XR K)) numbers vIBuf (fun x => x ≠ 0) 1 (fun o => -o) :=
  zc_reals.reverses fun xs hok i h1 h2 => by
    obtain ⟨i, rfl⟩ : ∃ j, i = j + 1 := ⟨i - 1, by omega⟩
    rw [turnAt_take (by simpa using h2), turnAt_take (by omega), turnAt_nonzero (by simpa using hok) (by simpa using h2), turnAt_nonzero hok (by omega), List.getElem_reverse, List.getElem_reverse]
    have e : xs[xs.length - 1 - i]'(by omega) = xs[xs.length - 1 - (i + 1) + 1]'(by omega) := by congr 1; omega
    rw [e]
    have sgn_sign {x : K} (h : x ≠ 0) : sgn x = 1 ∨ sgn x = -1 := by
      rcases sgn_mem x with s | s | s
      · exact .inl s
      · exact .inr s
      · exact absurd (sgn_eq_zero.1 s) h
    have s1 := sgn_sign (hok _ (List.getElem_mem (l := xs) (n := xs.length - 1 - (i + 1)) (by omega)))
    have s2 := sgn_sign (hok _ (List.getElem_mem (l := xs) (n := xs.length - 1 - (i + 1) + 1) (by omega)))
    rcases s1 with s1 | s1 <;> rcases s2 with s2 | s2 <;> rw [s1, s2] <;> simp
example := C100_zero_crossover (K := ℚ) [4, -1, 3] (by simp) (by simp)

/-- **C100 Correlation** -/
theorem C100_correlation {p : Nat} (hp : 0 < p) {xs : List (ℝ × ℝ)} (hx : xs ≠ []) : ∃ os os' sf s0 sf' s0', call (Correlation (p : Int) : Operator (XR ℝ)) (pairs xs) none = .ok (vSBuf os, sf, s0) ∧
    call (Correlation (p : Int) : Operator (XR ℝ)) (pairs xs.reverse) none = .ok (vSBuf os', sf', s0') ∧ os.length = xs.length ∧ os'.length = xs.length ∧ (os'.drop p).dropLast = (os.drop p).dropLast.reverse := by
  obtain ⟨st, h, -⟩ := corr_pairs_reals hp
  refine ⟨_, _, _, _, _, _, h xs hx, h _ (by simpa using hx), by simp, by simp, List.ext_getElem (by simp) fun j h1 h2 => ?_⟩
  simp only [List.length_dropLast, List.length_drop, scan_length, List.length_reverse] at h1
  rw [List.getElem_dropLast, List.getElem_drop, List.getElem_reverse, List.getElem_dropLast, List.getElem_drop, scan_getElem, scan_getElem, List.nil_append, List.nil_append]
  have hw := window_reverse_perm (p := p) (i := p + j) (xs := xs) (by omega) (by omega)
  have hne : window p (xs.reverse.take (p + j + 1)) ≠ [] := window_ne_nil hp (by rw [← List.length_pos_iff]; simp; omega)
  have e (l : List (ℝ × ℝ)) (q : Nat) : pearson (window q ((l.map (Prod.map fin fin)).map Prod.fst)) (window q ((l.map (Prod.map fin fin)).map Prod.snd)) =
      (pearson (((window q l).map Prod.fst).map fin) (((window q l).map Prod.snd).map fin) : XR ℝ) := by
    simp only [window, List.map_map, List.map_take, List.map_reverse]
    rfl
  have hi : p + (((scan (fun l => corrOf p (l.map (Prod.map fin fin))) [] xs).drop p).dropLast.length - 1 - j) + 1 = xs.length - 1 - (p + j) + (p - 1) + 1 := by
    simp only [List.length_dropLast, List.length_drop, scan_length]; omega
  rw [hi]
  have hne' : window p (xs.take (xs.length - 1 - (p + j) + (p - 1) + 1)) ≠ [] := fun h0 => hne (List.length_eq_zero_iff.1 (by rw [hw.length_eq, h0]; rfl))
  simp only [corrOf, List.length_map, e]
  rw [if_neg (by simp; omega), if_neg (by simp; omega), pearson_fin hne, pearson_fin hne', covariance_perm hw, stdDev_perm (hw.map _), stdDev_perm (hw.map _)]
example := C100_correlation (p := 2) (by norm_num) (xs := [(4, 0), (1, 1), (3, 2)]) (by simp)

end TS
