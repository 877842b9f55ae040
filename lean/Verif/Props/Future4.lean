import Verif.Props.Future
/-
C105: the average true range.
-/
namespace TS
variable {K : Type} [Field K] [LinearOrder K] [IsStrictOrderedRing K] [Transc K] [FloorRing K]

theorem rec_raise {p : Nat} (w M : K) (A : List K) (ys : List K) :
    recursiveAvgK p (fun m x => m + w * (x - m)) (A ++ ys.map (· + M)) =
      recursiveAvgK p (fun m x => m + w * (x - m)) (A ++ ys) + recursiveAvgK p (fun m x => m + w * (x - m)) (List.replicate A.length 0 ++ List.replicate ys.length M) := by
  induction ys using List.reverseRecOn with
  | nil => simp [rec_zeros]
  | append_singleton ys y ih =>
    by_cases hp : p ≤ A.length + ys.length
    · rw [List.map_append, List.map_singleton, ← List.append_assoc, ← List.append_assoc, rec_snoc _ (by simpa using hp), rec_snoc _ (by simpa using hp), ih,
        List.length_append, List.length_singleton, List.replicate_succ', ← List.append_assoc, rec_snoc _ (by simpa using hp)]
      ring
    · by_cases hq : p = A.length + ys.length + 1
      · rw [rec_at _ (by simp; omega), rec_at _ (by simp; omega), rec_at _ (by simp; omega)]
        have : ∀ l : List K, (l.map (· + M)).sum = l.sum + l.length * M := by
          intro l
          induction l with
          | nil => simp
          | cons x l ih => simp [ih]; ring
        rw [List.sum_append, this]
        simp
        ring
      · rw [recursiveAvgK_short (by simp; omega), recursiveAvgK_short (by simp; omega), recursiveAvgK_short (by simp; omega), add_zero]

/-- averages that agree on all continuations by large numbers agree on all -/
theorem rec_large {p : Nat} {w : K} {A B : List K} (N : K)
    (h : ∀ ys : List K, ys ≠ [] → (∀ y ∈ ys, N ≤ y) → recursiveAvgK p (fun m x => m + w * (x - m)) (A ++ ys) = recursiveAvgK p (fun m x => m + w * (x - m)) (B ++ ys))
    (xs : List K) (hx : xs ≠ []) : recursiveAvgK p (fun m x => m + w * (x - m)) (A ++ xs) = recursiveAvgK p (fun m x => m + w * (x - m)) (B ++ xs) := by
  obtain ⟨M, hM0, hM⟩ : ∃ M, (0 ≤ M ∧ N ≤ M) ∧ ∀ x ∈ xs, N ≤ x + M := by
    clear hx
    induction xs with
    | nil => exact ⟨max 0 N, ⟨le_max_left _ _, le_max_right _ _⟩, by simp⟩
    | cons x xs ih =>
      obtain ⟨M, h1, h2⟩ := ih
      refine ⟨max M (N - x), ⟨h1.1.trans (le_max_left _ _), h1.2.trans (le_max_left _ _)⟩, fun y hy => ?_⟩
      have a1 := le_max_left M (N - x)
      have a2 := le_max_right M (N - x)
      rcases List.mem_cons.1 hy with rfl | hy
      · linarith
      · linarith [h2 y hy]
  have n0 : xs.length ≠ 0 := by simpa using hx
  have e1 := h (xs.map (· + M)) (by simpa using hx) (by simpa using hM)
  have e2 := h (List.replicate xs.length M) (by simpa using hx) (by simp; exact fun _ => hM0.2)
  have e3 := h ((List.replicate xs.length M).map (· + M)) (by simpa using hx) (by simp; intro _; linarith)
  rw [rec_raise, rec_raise] at e1 e3
  rw [List.length_replicate] at e3
  linarith

omit [LinearOrder K] [IsStrictOrderedRing K] [Transc K] [FloorRing K] in
theorem lastCloseK_snoc2 (a : List (CLH K)) (x : CLH K) : lastCloseK (a ++ [x]) = x.close := by simp [lastCloseK]

theorem ranges_append : ∀ (xs a : List (CLH K)), trueRangesK (a ++ xs) = trueRangesK a ++ rangesFrom (lastCloseK a) xs
  | [], a => by simp [rangesFrom]
  | x :: xs, a => by
    rw [List.append_cons, ranges_append xs, trueRangesK_snoc, lastCloseK_snoc2, List.append_assoc]
    rfl

/-- candles with given true ranges, closing at zero -/
def plainCandles (ys : List K) : List (CLH K) := ys.map fun y => ⟨0, 0, y⟩

omit [IsStrictOrderedRing K] [Transc K] [FloorRing K] in
theorem ranges_plain : ∀ {ys : List K}, (∀ y ∈ ys, 0 ≤ y) → rangesFrom 0 (plainCandles ys) = ys
  | [], _ => rfl
  | y :: ys, h => by
    have := ranges_plain (ys := ys) fun z hz => h z (by simp [hz])
    rw [rangesFrom] at this
    simp only [rangesFrom, plainCandles, List.map_cons, List.zipWith_cons_cons] at this ⊢
    rw [this, trueRangeK, if_pos rfl, sub_zero, max_eq_left (h y (by simp))]

omit [Transc K] [FloorRing K] in
theorem range_up {c t : K} (h : |c| ≤ t) : trueRangeK c 0 t = t + max 0 (-c) := by
  have h0 := abs_nonneg c
  rw [trueRangeK]
  split
  · next hc => subst hc; simp at h ⊢; exact h
  · rw [sub_zero, zero_sub, abs_neg, abs_of_nonneg (by linarith [le_abs_self c])]
    rcases le_total 0 c with hc | hc
    · rw [abs_of_nonneg hc] at h ⊢
      rw [max_eq_left (max_le (by linarith) h), max_eq_left (by linarith), add_zero]
    · rw [abs_of_nonpos hc] at h ⊢
      rw [max_eq_right (a := (0 : K)) (by linarith), max_eq_left (a := t - c) (by linarith), max_eq_right (by linarith)]; ring

omit [Transc K] [FloorRing K] in
theorem range_down {c t : K} (h : |c| ≤ t) : trueRangeK c (-t) 0 = t + max 0 c := by
  have h0 := abs_nonneg c
  rw [trueRangeK]
  split
  · next hc => subst hc; simp at h ⊢; exact h
  · rw [zero_sub, zero_sub, abs_neg, neg_neg, abs_of_nonpos (a := -t - c) (by linarith [neg_abs_le c])]
    rcases le_total 0 c with hc | hc
    · rw [abs_of_nonneg hc] at h ⊢
      rw [max_eq_right (a := (0 : K)) hc, max_eq_right (a := c) (by linarith), max_eq_right (by linarith)]; ring
    · rw [abs_of_nonpos hc] at h ⊢
      rw [max_eq_left (a := (0 : K)) hc, max_eq_left (max_le (by linarith) (by linarith)), add_zero]

omit [Transc K] [FloorRing K] in
/-- how the average after `n` further zeros depends on the number before them -/
theorem rec_slope {p : Nat} (hp : 0 < p) {w : K} (hw : 0 < w) (A : List K) (n : Nat) (hn : p - 1 - A.length ≤ n) (h1 : w < 1 ∨ n = p - 1 - A.length) :
    ∃ s : K, s ≠ 0 ∧ ∀ y, recursiveAvgK p (fun m x => m + w * (x - m)) (A ++ y :: List.replicate n 0) = recursiveAvgK p (fun m x => m + w * (x - m)) (A ++ 0 :: List.replicate n 0) + s * y := by
  have first : ∃ s : K, s ≠ 0 ∧ ∀ y, recursiveAvgK p (fun m x => m + w * (x - m)) (A ++ y :: List.replicate (p - 1 - A.length) 0) =
      recursiveAvgK p (fun m x => m + w * (x - m)) (A ++ 0 :: List.replicate (p - 1 - A.length) 0) + s * y := by
    by_cases hA : p ≤ A.length
    · refine ⟨w, hw.ne', fun y => ?_⟩
      rw [show p - 1 - A.length = 0 by omega, List.replicate_zero, rec_snoc _ hA, rec_snoc _ hA]; ring
    · refine ⟨1 / p, one_div_ne_zero (by exact_mod_cast hp.ne'), fun y => ?_⟩
      rw [rec_at _ (by simp; omega), rec_at _ (by simp; omega)]
      simp; ring
  rcases h1 with h1 | rfl
  · induction n, hn using Nat.le_induction with
    | base => exact first
    | succ n hn ih =>
      obtain ⟨s, hs, h⟩ := ih
      refine ⟨(1 - w) * s, mul_ne_zero (by linarith) hs, fun y => ?_⟩
      have e : ∀ y, recursiveAvgK p (fun m x => m + w * (x - m)) (A ++ y :: List.replicate (n + 1) 0) = (1 - w) * recursiveAvgK p (fun m x => m + w * (x - m)) (A ++ y :: List.replicate n 0) := by
        intro y
        rw [List.replicate_succ', ← List.cons_append, ← List.append_assoc, rec_snoc _ (by simp; omega)]; ring
      rw [e, e, h y]; ring
  · exact first

omit [IsStrictOrderedRing K] [Transc K] [FloorRing K] in
theorem rangesFrom_cons (c : K) (x : CLH K) (xs : List (CLH K)) : rangesFrom c (x :: xs) = trueRangeK c x.low x.high :: rangesFrom x.close xs := rfl

/-- **C105 AverageTrueRange**: the last closes agree, and the true ranges have the same future for RollingMovingAverage. -/
theorem C105_atr {p : Nat} (hp : 0 < p) (a b : List (CLH K)) (x y : CLH K) :
    SameFuture (ATR (p : Int) : Operator (XR K)) finCandles (a ++ [x]) (b ++ [y]) ↔
      x.close = y.close ∧ SameFuture (RMA (p : Int) : Operator (XR K)) numbers (trueRangesK (a ++ [x])) (trueRangesK (b ++ [y])) := by
  have hp' : (0 : K) < p := by exact_mod_cast hp
  have ne : ∀ (a : List (CLH K)) x, trueRangesK (a ++ [x]) ≠ [] := fun a x => by rw [← List.length_pos_iff]; simp
  rw [(atr_reals hp).sameFuture_iff (fun _ _ => finSeries_inj) (by simp) (by simp), show (numbers : List K → Val (XR K)) = finSeries from rfl,
    (rma_reals hp).sameFuture_iff (fun _ _ => finSeries_inj) (ne _ _) (ne _ _)]
  simp only [atrK, ranges_append _ (a ++ [x]), ranges_append _ (b ++ [y]), lastCloseK_snoc2]
  generalize trueRangesK (a ++ [x]) = A
  generalize trueRangesK (b ++ [y]) = B
  generalize x.close = c
  generalize y.close = d
  constructor
  · intro h
    have hcd : c = d := by
      set n := max (p - 1 - A.length) (p - 1 - B.length) with hn
      have hw1 : (1 : K) / p < 1 ∨ p = 1 := by
        by_cases h1 : p = 1
        · exact .inr h1
        · left
          rw [div_lt_one hp']
          exact_mod_cast (by omega : 1 < p)
      obtain ⟨s, hs, hA⟩ := rec_slope hp (w := 1 / (p : K)) (by positivity) A n (le_max_left _ _) (hw1.imp_right fun h => by omega)
      obtain ⟨r, hr, hB⟩ := rec_slope hp (w := 1 / (p : K)) (by positivity) B n (le_max_right _ _) (hw1.imp_right fun h => by omega)
      have z : rangesFrom (0 : K) (plainCandles (List.replicate n 0)) = List.replicate n 0 := ranges_plain fun y hy => (List.mem_replicate.1 hy).2.ge
      have up : ∀ t, |c| ≤ t → |d| ≤ t → recursiveAvgK p (fun m x => m + 1 / (p : K) * (x - m)) (A ++ 0 :: List.replicate n 0) + s * (t + max 0 (-c)) =
          recursiveAvgK p (fun m x => m + 1 / (p : K) * (x - m)) (B ++ 0 :: List.replicate n 0) + r * (t + max 0 (-d)) := by
        intro t h1 h2
        have := h (⟨0, 0, t⟩ :: plainCandles (List.replicate n 0)) (by simp)
        rwa [rangesFrom_cons, rangesFrom_cons, z, range_up h1, range_up h2, hA, hB] at this
      have down : ∀ t, |c| ≤ t → |d| ≤ t → recursiveAvgK p (fun m x => m + 1 / (p : K) * (x - m)) (A ++ 0 :: List.replicate n 0) + s * (t + max 0 c) =
          recursiveAvgK p (fun m x => m + 1 / (p : K) * (x - m)) (B ++ 0 :: List.replicate n 0) + r * (t + max 0 d) := by
        intro t h1 h2
        have := h (⟨0, -t, 0⟩ :: plainCandles (List.replicate n 0)) (by simp)
        rwa [rangesFrom_cons, rangesFrom_cons, z, range_down h1, range_down h2, hA, hB] at this
      have l1 : |c| ≤ |c| + |d| := le_add_of_nonneg_right (abs_nonneg _)
      have l2 : |d| ≤ |c| + |d| := le_add_of_nonneg_left (abs_nonneg _)
      have u1 := up (|c| + |d|) l1 l2
      have u2 := up (|c| + |d| + 1) (by linarith) (by linarith)
      have d1 := down (|c| + |d|) l1 l2
      obtain rfl : s = r := by linarith
      have e : s * (max 0 c - max 0 (-c)) = s * (max 0 d - max 0 (-d)) := by linarith
      have m : ∀ c : K, max 0 c - max 0 (-c) = c := by
        intro c
        rcases le_total 0 c with h | h
        · rw [max_eq_right h, max_eq_left (by linarith), sub_zero]
        · rw [max_eq_left h, max_eq_right (by linarith)]; ring
      rw [m, m] at e
      exact mul_left_cancel₀ hs e
    subst hcd
    refine ⟨rfl, rec_large (|c| + max 0 (-c)) fun ys hy hl => ?_⟩
    obtain ⟨t, ys, rfl⟩ := List.exists_cons_of_ne_nil hy
    have h0 := abs_nonneg c
    have h1 := le_max_left 0 (-c)
    have := h (⟨0, 0, t - max 0 (-c)⟩ :: plainCandles ys) (by simp)
    rwa [rangesFrom_cons, range_up (by linarith [hl t (by simp)]), sub_add_cancel, ranges_plain fun y hy => by linarith [hl y (by simp [hy])]] at this
  · rintro ⟨rfl, h⟩ xs hx
    refine h _ ?_
    obtain ⟨x, xs, rfl⟩ := List.exists_cons_of_ne_nil hx
    simp [rangesFrom_cons]

example : SameFuture (ATR 1 : Operator (XR ℚ)) finCandles ([⟨7, 5, 9⟩] ++ [⟨2, 1, 3⟩]) ([] ++ [⟨2, 0, 8⟩]) ∧ ¬ SameFuture (ATR 1 : Operator (XR ℚ)) finCandles ([] ++ [⟨2, 1, 3⟩]) ([] ++ [⟨1, 1, 3⟩]) :=
  ⟨(C105_atr (p := 1) (by decide) _ _ _ _).2 ⟨rfl, (C105_rma (p := 1) (by decide) (by simp [trueRangesK]) (by simp [trueRangesK])).2 (.inl rfl)⟩,
    fun h => absurd ((C105_atr (p := 1) (by decide) _ _ _ _).1 h).1 (by norm_num)⟩

example : SameFuture (ATR 3 : Operator (XR ℚ)) finCandles ([⟨7, 5, 9⟩] ++ [⟨2, 1, 3⟩]) ([⟨4, 2, 5⟩] ++ [⟨2, 1, 8⟩]) :=
  (C105_atr (p := 3) (by decide) _ _ _ _).2 ⟨rfl, (C105_rma (p := 3) (by decide) (by simp [trueRangesK]) (by simp [trueRangesK])).2 (.inr (.inr (.inl ⟨by simp, by simp, by decide +kernel⟩)))⟩
end TS
