import Verif.Props.Future2
/-
C105: the Sharpe ratio.
-/
namespace TS

/-- the Sharpe ratio of excess returns by their number, sum and sum of squares -/
theorem sharpe_sums {l : List ℝ} (hl : l ≠ []) : (if stdDev l = 0 then 0 else avg l / stdDev l) = l.sum / Real.sqrt (l.length * (l.map fun x => x ^ 2).sum - l.sum ^ 2) := by
  have hm : (0 : ℝ) < l.length := by exact_mod_cast List.length_pos_iff.2 hl
  have hv : (l.length * (l.map fun x => x ^ 2).sum - l.sum ^ 2) = l.length ^ 2 * variance l := by
    rw [variance, avg, List.length_map, sum_sq_centre, avg]
    field_simp
    ring
  have hd : (if stdDev l = 0 then 0 else avg l / stdDev l) = avg l / stdDev l := by
    split
    · next h => rw [h, div_zero]
    · rfl
  rw [hd, hv, Real.sqrt_mul (by positivity), Real.sqrt_sq hm.le, ← stdDev, avg, div_div]

theorem ratio_told {m n s q s' q' : ℝ} (hm : 2 ≤ m) (hn : 2 ≤ n)
    (h : ∀ t, (t + s) / Real.sqrt (m * (t ^ 2 + q) - (t + s) ^ 2) = (t + s') / Real.sqrt (n * (t ^ 2 + q') - (t + s') ^ 2)) : m = n ∧ s = s' := by
  have pos : ∀ {m s q t : ℝ}, 2 ≤ m → 2 * |s| + |m * q - s ^ 2| + 1 ≤ t → 0 < m * (t ^ 2 + q) - (t + s) ^ 2 := by
    intro m s q t hm ht
    have h1 := abs_nonneg s
    have h2 := abs_nonneg (m * q - s ^ 2)
    have h3 := neg_abs_le (m * q - s ^ 2)
    have h4 := le_abs_self s
    have ht1 : 1 ≤ t := by linarith
    have e1 : (m - 1) * t ^ 2 ≥ 1 * t ^ 2 := mul_le_mul_of_nonneg_right (by linarith) (by positivity)
    have e2 : t * (2 * |s| + |m * q - s ^ 2| + 1) ≤ t * t := mul_le_mul_of_nonneg_left ht (by linarith)
    have e3 : t * s ≤ t * |s| := mul_le_mul_of_nonneg_left h4 (by linarith)
    have e4 : 1 * |m * q - s ^ 2| ≤ t * |m * q - s ^ 2| := mul_le_mul_of_nonneg_right ht1 h2
    nlinarith
  set T := (2 * |s| + |m * q - s ^ 2| + 1) + (2 * |s'| + |n * q' - s' ^ 2| + 1) with hT
  have key : ∀ t, T ≤ t → (t + s) ^ 2 * (n * (t ^ 2 + q')) - (t + s') ^ 2 * (m * (t ^ 2 + q)) = 0 := by
    intro t ht
    have a1 := abs_nonneg s
    have a2 := abs_nonneg (m * q - s ^ 2)
    have a3 := abs_nonneg s'
    have a4 := abs_nonneg (n * q' - s' ^ 2)
    have p1 := pos (m := m) (s := s) (q := q) (t := t) hm (by linarith)
    have p2 := pos (m := n) (s := s') (q := q') (t := t) hn (by linarith)
    have := congrArg (· ^ 2) (h t)
    simp only [div_pow, Real.sq_sqrt p1.le, Real.sq_sqrt p2.le] at this
    rw [div_eq_div_iff p1.ne' p2.ne'] at this
    linarith
  have k0 := key T le_rfl
  have k1 := key (T + 1) (by linarith)
  have k2 := key (T + 2) (by linarith)
  have k3 := key (T + 3) (by linarith)
  have k4 := key (T + 4) (by linarith)
  clear_value T
  obtain rfl : m = n := by linear_combination (-1 / 24) * (k0 - 4 * k1 + 6 * k2 - 4 * k3 + k4)
  refine ⟨rfl, ?_⟩
  have : m * (s - s') = 0 := by linear_combination (-1 / 12) * (k0 - 3 * k1 + 3 * k2 - k3)
  rcases mul_eq_zero.1 this with h | h <;> linarith

/-- **C105 SharpeRatio**: the last `p - 1` excess returns agree and are equally many. -/
theorem C105_sharpe {p : Nat} (hp : 0 < p) {a b : List (ℝ × ℝ)} (ha : a ≠ []) (hb : b ≠ []) :
    SameFuture (SharpeRatio (p : Int) : Operator (XR ℝ)) pairs a b ↔ (a.map fun z => z.1 - z.2).reverse.take (p - 1) = (b.map fun z => z.1 - z.2).reverse.take (p - 1) := by
  rw [show pairs = finPairs from rfl, (sharpe_reals hp).sameFuture_iff (fun _ _ => finSeries_inj) ha hb]
  have ha' : 0 < (a.map fun z => z.1 - z.2).length := by simpa using List.length_pos_iff.2 ha
  have hb' : 0 < (b.map fun z => z.1 - z.2).length := by simpa using List.length_pos_iff.2 hb
  simp only [sharpeR, List.map_append]
  generalize (a.map fun z => z.1 - z.2) = a' at ha' ⊢
  generalize (b.map fun z => z.1 - z.2) = b' at hb' ⊢
  constructor
  · intro h
    have val : ∀ (a : List ℝ) (t : ℝ) (j : Nat), j < p → (let w := window p (a ++ t :: List.replicate j 0); if stdDev w = 0 then 0 else avg w / stdDev w) =
        (t + (window (p - (j + 1)) a).sum) / Real.sqrt ((min p (a.length + (j + 1)) : ℕ) * (t ^ 2 + ((window (p - (j + 1)) a).map fun x => x ^ 2).sum) - (t + (window (p - (j + 1)) a).sum) ^ 2) := by
      intro a t j hj
      have hw : window p (a ++ t :: List.replicate j 0) = (t :: List.replicate j 0).reverse ++ window (p - (j + 1)) a := by
        rw [window_append _ _ (by simp; omega), List.length_cons, List.length_replicate]
      have hne : window p (a ++ t :: List.replicate j 0) ≠ [] := by rw [hw]; simp
      have hlen : (window p (a ++ t :: List.replicate j 0)).length = min p (a.length + (j + 1)) := by rw [window_length]; simp
      simp only
      rw [sharpe_sums hne, hlen, hw]
      simp
    have told : ∀ j, j + 1 < p → min p (a'.length + (j + 1)) = min p (b'.length + (j + 1)) ∧ (window (p - (j + 1)) a').sum = (window (p - (j + 1)) b').sum := by
      intro j hj
      have := ratio_told (m := (min p (a'.length + (j + 1)) : ℕ)) (n := (min p (b'.length + (j + 1)) : ℕ)) (by exact_mod_cast (by omega : 2 ≤ min p (a'.length + (j + 1))))
        (by exact_mod_cast (by omega : 2 ≤ min p (b'.length + (j + 1)))) fun t => by
          rw [← val a' t j (by omega), ← val b' t j (by omega)]
          have := h ((t, 0) :: List.replicate j (0, 0)) (by simp)
          simpa using this
      exact ⟨by exact_mod_cast this.1, this.2⟩
    by_cases hp1 : p = 1
    · subst hp1; simp
    · refine take_of_sums ?_ fun k hk => ?_
      · have := (told 0 (by omega)).1
        omega
      · by_cases hk0 : k = 0
        · subst hk0; simp [window]
        · have := (told (p - k - 1) (by omega)).2
          rwa [show p - (p - k - 1 + 1) = k by omega] at this
  · intro h xs hx
    rw [(same_windows h (xs := xs.map fun z => z.1 - z.2) (by simpa using hx)).1]

example : SameFuture (SharpeRatio 3 : Operator (XR ℝ)) pairs [(9, 0), (5, 1), (3, 1)] [(6, 2), (2, 0)] ∧ ¬ SameFuture (SharpeRatio 3 : Operator (XR ℝ)) pairs [(4, 0), (2, 0)] [(2, 0), (4, 0)] :=
  ⟨(C105_sharpe (p := 3) (by decide) (by simp) (by simp)).2 (by norm_num), fun h => absurd ((C105_sharpe (p := 3) (by decide) (by simp) (by simp)).1 h) (by norm_num)⟩
end TS
