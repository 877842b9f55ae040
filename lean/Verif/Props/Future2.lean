import Verif.Props.Future
/-
C105, more operators: bands, deviations and crossovers.
-/
namespace TS

section
variable {A : Type}

/-- histories whose last `p - 1` samples agree have the same windows -/
theorem same_windows {p : Nat} {a b : List A} (h : a.reverse.take (p - 1) = b.reverse.take (p - 1)) {xs : List A} (hx : xs ≠ []) :
    window p (a ++ xs) = window p (b ++ xs) ∧ ((a ++ xs).length < p ↔ (b ++ xs).length < p) := by
  have := List.length_pos_iff.2 hx
  have hl := congrArg List.length h
  simp at hl
  constructor
  · by_cases hxs : p ≤ xs.length
    · rw [window_append_long _ _ hxs, window_append_long _ _ hxs]
    · rw [window_append _ _ (by omega), window_append _ _ (by omega), window_window (q := p - 1) (by omega) a, window_window (q := p - 1) (by omega) b, show window (p - 1) a = window (p - 1) b from h]
  · simp; omega
end

section
variable {K : Type} [Field K] [LinearOrder K] [IsStrictOrderedRing K] [Transc K] [FloorRing K]

omit [LinearOrder K] [IsStrictOrderedRing K] [Transc K] [FloorRing K] in
theorem same_avg {p : Nat} {a b : List K} (h : a.reverse.take (p - 1) = b.reverse.take (p - 1)) {xs : List K} (hx : xs ≠ []) : movingAvgK p (a ++ xs) = movingAvgK p (b ++ xs) := by
  obtain ⟨h1, h2⟩ := same_windows h hx
  rw [movingAvgK, movingAvgK, h1]
  simp only [h2]

omit [LinearOrder K] [IsStrictOrderedRing K] [Transc K] [FloorRing K] in
theorem take_of_sums {n : Nat} {a b : List K} (hl : min n a.length = min n b.length) (hs : ∀ k ≤ min n a.length, (window k a).sum = (window k b).sum) : a.reverse.take n = b.reverse.take n := by
  refine List.ext_getElem (by simpa using hl) fun k h1 h2 => ?_
  simp at h1 h2
  have e1 := hs k (by omega)
  have e2 := hs (k + 1) (by omega)
  rw [window, window] at e1 e2
  rw [List.take_succ_eq_append_getElem (by simp; omega), List.take_succ_eq_append_getElem (by simp; omega), List.sum_append, List.sum_append, e1, add_right_inj] at e2
  simpa using e2

omit [LinearOrder K] [IsStrictOrderedRing K] [Transc K] [FloorRing K] in
theorem avg_append {p : Nat} (a xs : List K) (h1 : xs.length ≤ p) (h2 : p ≤ a.length + xs.length) : movingAvgK p (a ++ xs) = (xs.sum + (window (p - xs.length) a).sum) / p := by
  rw [movingAvgK, if_neg (by simp; omega), avg, window_length, List.length_append, min_eq_left h2, window_append _ _ h1, List.sum_append, List.sum_reverse]

omit [LinearOrder K] [IsStrictOrderedRing K] [Transc K] [FloorRing K] in
theorem avg_append_long {p : Nat} (a xs : List K) (h1 : p ≤ xs.length) : movingAvgK p (a ++ xs) = movingAvgK p xs := by
  rw [movingAvgK, movingAvgK, if_neg (by simp; omega), if_neg (by omega), window_append_long _ _ h1]

omit [LinearOrder K] [IsStrictOrderedRing K] [Transc K] [FloorRing K] in
theorem avg_last {q : Nat} (hq : 0 < q) (l : List K) (hl : q ≤ l.length + 1) (t : K) : movingAvgK q (l ++ [t]) = movingAvgK q (l ++ [0]) + t * (1 / q) := by
  rw [avg_append _ _ (by simp; omega) (by simpa using hl), avg_append _ _ (by simp; omega) (by simpa using hl)]
  simp
  ring

omit [LinearOrder K] [IsStrictOrderedRing K] [Transc K] [FloorRing K] in
theorem sum_sq_centre (c : K) : ∀ l : List K, (l.map fun x => (x - c) ^ 2).sum = (l.map fun x => x ^ 2).sum - 2 * c * l.sum + l.length * c ^ 2
  | [] => by simp
  | x :: l => by
    simp only [List.map_cons, List.sum_cons, sum_sq_centre c l, List.length_cons]
    push_cast; ring

/-- **C105 SimpleMovingAverageCrossover**, the fast period below the slow one: the last `slow - 1` samples agree and are equally many. -/
theorem C105_sma_crossover {slow fast : Nat} (hf : 0 < fast) (hsf : fast < slow) {a b : List K} (ha : a ≠ []) (hb : b ≠ []) :
    SameFuture (SMACrossover (slow : Int) fast : Operator (XR K)) numbers a b ↔ a.reverse.take (slow - 1) = b.reverse.take (slow - 1) := by
  rw [show (numbers : List K → Val (XR K)) = finSeries from rfl, (crossover_reals (by omega) hf).sameFuture_iff (fun _ _ => finSeries_inj) ha hb]
  have hs' : (slow : K) ≠ 0 := by exact_mod_cast (by omega : slow ≠ 0)
  have hf' : (fast : K) ≠ 0 := by exact_mod_cast hf.ne'
  have hne : (1 : K) / fast - 1 / slow ≠ 0 := by
    intro h
    rw [sub_eq_zero, div_eq_div_iff hf' hs', one_mul, one_mul] at h
    have : slow = fast := by exact_mod_cast h
    omega
  constructor
  · intro h
    have len : ∀ a b : List K, (∀ xs, xs ≠ [] → smaDiffK slow fast (a ++ xs) = smaDiffK slow fast (b ++ xs)) → min (slow - 1) b.length ≤ min (slow - 1) a.length := by
      intro a b h
      by_contra hc
      set n := min (slow - 1) b.length with hn
      have key : ∀ t : K, 0 = smaDiffK slow fast (b ++ (List.replicate (slow - n - 1) 0 ++ [t])) := by
        intro t
        have := h (List.replicate (slow - n - 1) 0 ++ [t]) (by simp)
        rw [← this, smaDiffK, if_pos (by simp; omega), movingAvgK, if_pos (by simp; omega), sub_zero]
      have val : ∀ t : K, smaDiffK slow fast (b ++ (List.replicate (slow - n - 1) 0 ++ [t])) = smaDiffK slow fast (b ++ (List.replicate (slow - n - 1) 0 ++ [0])) + t * (1 / fast - 1 / slow) := by
        intro t
        rw [← List.append_assoc, ← List.append_assoc, smaDiffK, smaDiffK, if_neg (by simp; omega), if_neg (by simp; omega), avg_last (q := slow) (by omega) _ (by simp; omega) t, avg_last hf _ (by simp; omega) t]
        ring
      have h0 := key 0
      have h1 := key 1
      rw [val, ← h0] at h1
      simp at h1
      exact hne (by simpa using h1.symm)
    have hl : min (slow - 1) a.length = min (slow - 1) b.length := le_antisymm (len b a fun xs hx => (h xs hx).symm) (len a b h)
    refine take_of_sums hl fun k => ?_
    induction k using Nat.strong_induction_on with
    | _ k ih =>
      intro hk
      have := h (List.replicate (slow - k) 0) (by simp; omega)
      rw [smaDiffK, smaDiffK, if_neg (by simp; omega), if_neg (by simp; omega), avg_append (p := slow) a _ (by simp) (by simp; omega), avg_append (p := slow) b _ (by simp) (by simp; omega), List.length_replicate, show slow - (slow - k) = k by omega] at this
      have hfst : movingAvgK fast (a ++ List.replicate (slow - k) 0) = movingAvgK fast (b ++ List.replicate (slow - k) 0) := by
        by_cases hkf : slow - k < fast
        · rw [avg_append (p := fast) a _ (by simp; omega) (by simp; omega), avg_append (p := fast) b _ (by simp; omega) (by simp; omega), List.length_replicate, ih (fast - (slow - k)) (by omega) (by omega)]
        · rw [avg_append_long _ _ (by simp; omega), avg_append_long _ _ (by simp; omega)]
      rw [hfst, sub_right_inj, div_left_inj' hs', add_right_inj] at this
      exact this
  · intro h xs hx
    have hw := same_windows h hx
    have hf := congrArg (List.take (fast - 1)) h
    rw [List.take_take, List.take_take, min_eq_left (by omega)] at hf
    rw [smaDiffK, smaDiffK, same_avg h hx, same_avg hf hx]
    simp only [hw.2]

example : SameFuture (SMACrossover 3 2 : Operator (XR ℚ)) numbers [5, 0, 3] [0, 3] ∧ ¬ SameFuture (SMACrossover 3 2 : Operator (XR ℚ)) numbers [0, 3] [1, 2] :=
  ⟨(C105_sma_crossover (slow := 3) (fast := 2) (by decide) (by decide) (by simp) (by simp)).2 (by decide),
    fun h => absurd ((C105_sma_crossover (slow := 3) (fast := 2) (by decide) (by decide) (by simp) (by simp)).1 h) (by decide)⟩
end

/-- **C105 BollingerBands**: the last `p - 1` samples agree and are equally many. -/
theorem C105_bollinger {p : Nat} (hp : 0 < p) (k : ℚ) {a b : List ℝ} (ha : a ≠ []) (hb : b ≠ []) :
    SameFuture (BollingerBands (p : Int) k : Operator (XR ℝ)) numbers a b ↔ a.reverse.take (p - 1) = b.reverse.take (p - 1) := by
  rw [← C105_sma hp ha hb, show (numbers : List ℝ → Val (XR ℝ)) = finSeries from rfl, (bollinger_reals hp k).sameFuture_iff (fun _ _ => finSeries3_inj) ha hb,
    (sma_reals hp).sameFuture_iff (fun _ _ => finSeries_inj) ha hb]
  constructor
  · intro h xs hx
    exact (Prod.mk.inj (Prod.mk.inj (h xs hx)).2).1
  · intro h xs hx
    have hm := (C105_sma hp ha hb).1 (((sma_reals hp).sameFuture_iff (fun _ _ => finSeries_inj) ha hb).2 h)
    have hw := same_windows hm hx
    rw [h xs hx, show movingStdR p (a ++ xs) = movingStdR p (b ++ xs) by rw [movingStdR, movingStdR, hw.1]; simp only [hw.2]]

example : SameFuture (BollingerBands 3 2 : Operator (XR ℝ)) numbers [5, 0, 3] [0, 3] ∧ ¬ SameFuture (BollingerBands 3 2 : Operator (XR ℝ)) numbers [0, 3] [1, 2] :=
  ⟨(C105_bollinger (p := 3) (by decide) 2 (by simp) (by simp)).2 (by simp), fun h => absurd ((C105_bollinger (p := 3) (by decide) 2 (by simp) (by simp)).1 h) (by norm_num)⟩

/-- **C105 MovingStandardDeviation**: the last `p - 1` samples agree and are equally many. -/
theorem C105_msd {p : Nat} (hp : 0 < p) {a b : List ℝ} (ha : a ≠ []) (hb : b ≠ []) :
    SameFuture (MSD (p : Int) : Operator (XR ℝ)) numbers a b ↔ a.reverse.take (p - 1) = b.reverse.take (p - 1) := by
  rw [show (numbers : List ℝ → Val (XR ℝ)) = finSeries from rfl, (msd_reals hp).sameFuture_iff (fun _ _ => finSeries_inj) ha hb]
  have hp' : (0 : ℝ) < p := by exact_mod_cast hp
  have var : ∀ l : List ℝ, l.length = p → p * variance l = (l.map fun x => x ^ 2).sum - l.sum ^ 2 / p := by
    intro l hl
    rw [variance, avg, List.length_map, hl, sum_sq_centre, avg, hl]
    field_simp
    ring
  have val : ∀ (a xs : List ℝ), xs.length ≤ p → p ≤ a.length + xs.length → p * (movingStdR p (a ++ xs)) ^ 2 =
      ((xs.map fun x => x ^ 2).sum + ((window (p - xs.length) a).map fun x => x ^ 2).sum) - (xs.sum + (window (p - xs.length) a).sum) ^ 2 / p := by
    intro a xs h1 h2
    rw [movingStdR, if_neg (by simp; omega), stdDev, Real.sq_sqrt (variance_nonneg _), var _ (by rw [window_length, List.length_append]; omega), window_append _ _ h1]
    simp
  constructor
  · intro h
    have len : ∀ a b : List ℝ, (∀ xs, xs ≠ [] → movingStdR p (a ++ xs) = movingStdR p (b ++ xs)) → min (p - 1) b.length ≤ min (p - 1) a.length := by
      intro a b h
      by_contra hc
      set n := min (p - 1) b.length with hn
      have key : ∀ t : ℝ, 0 = (t ^ 2 + ((window n b).map fun x => x ^ 2).sum) - (t + (window n b).sum) ^ 2 / p := by
        intro t
        have := h (List.replicate (p - n - 1) 0 ++ [t]) (by simp)
        have hv := val b (List.replicate (p - n - 1) 0 ++ [t]) (by simp; omega) (by simp; omega)
        rw [← this, movingStdR, if_pos (by simp; omega), List.length_append, List.length_replicate, List.length_singleton, show p - (p - n - 1 + 1) = n by omega] at hv
        simpa using hv
      have h0 := key 0
      have h1 := key 1
      have h2 := key (-1)
      have hp2 : (2 : ℝ) ≤ p := by exact_mod_cast (by omega : 2 ≤ p)
      have : (2 : ℝ) - 2 / p = 0 := by
        field_simp at h0 h1 h2 ⊢
        linarith
      field_simp at this
      linarith
    have hl : min (p - 1) a.length = min (p - 1) b.length := le_antisymm (len b a fun xs hx => (h xs hx).symm) (len a b h)
    refine take_of_sums hl fun k hk => ?_
    have key : ∀ t : ℝ, (t ^ 2 + ((window k a).map fun x => x ^ 2).sum) - (t + (window k a).sum) ^ 2 / p = (t ^ 2 + ((window k b).map fun x => x ^ 2).sum) - (t + (window k b).sum) ^ 2 / p := by
      intro t
      have := h (List.replicate (p - k - 1) 0 ++ [t]) (by simp)
      have h1 := val a (List.replicate (p - k - 1) 0 ++ [t]) (by simp; omega) (by simp; omega)
      have h2 := val b (List.replicate (p - k - 1) 0 ++ [t]) (by simp; omega) (by simp; omega)
      rw [this, h2, List.length_append, List.length_replicate, List.length_singleton, show p - (p - k - 1 + 1) = k by omega] at h1
      simpa using h1.symm
    have h0 := key 1
    have h1 := key (-1)
    field_simp at h0 h1
    linarith
  · intro h xs hx
    have hw := same_windows h hx
    rw [movingStdR, movingStdR, hw.1]; simp only [hw.2]

example : SameFuture (MSD 3 : Operator (XR ℝ)) numbers [5, 0, 3] [0, 3] ∧ ¬ SameFuture (MSD 3 : Operator (XR ℝ)) numbers [0, 3] [3, 0] :=
  ⟨(C105_msd (p := 3) (by decide) (by simp) (by simp)).2 (by simp), fun h => absurd ((C105_msd (p := 3) (by decide) (by simp) (by simp)).1 h) (by norm_num)⟩
end TS
