import Verif.Props.Between
/-
C79: how many samples lie outside the Bollinger bands.
-/
namespace TS
open PyVal
set_option linter.unusedSectionVars false

/-- Chebyshev's inequality: fewer than one in k² members of a list are more than k deviations away from the average. -/
theorem chebyshev {l : List ℝ} (hl : l ≠ []) {k : ℝ} (hk : 0 ≤ k) (o : ℝ → Bool) (ho : ∀ x, o x = true → k * stdDev l < |x - avg l|) :
    k ^ 2 * (l.filter o).length < l.length := by
  have hn : (0 : ℝ) < l.length := by exact_mod_cast List.length_pos_iff.2 hl
  have hv := variance_nonneg l
  have hs : stdDev l ^ 2 = variance l := by rw [stdDev, Real.sq_sqrt hv]
  have hs0 : 0 ≤ stdDev l := Real.sqrt_nonneg _
  have e : (l.map fun x => (x - avg l) ^ 2).sum = l.length * variance l := by rw [variance_mul l hl]; ring
  have h1 : ((l.filter o).map fun x => (x - avg l) ^ 2).sum ≤ (l.map fun x => (x - avg l) ^ 2).sum :=
    List.Sublist.sum_le_sum (List.Sublist.map _ List.filter_sublist) (by simp only [List.mem_map]; rintro _ ⟨x, -, rfl⟩; positivity)
  rcases eq_or_ne (l.filter o) [] with h0 | h0
  · rw [h0]; simpa using hn
  have h2 : (l.filter o).length * (k ^ 2 * variance l) < ((l.filter o).map fun x => (x - avg l) ^ 2).sum := by
    have := List.sum_lt_sum_of_ne_nil h0 (fun _ => k ^ 2 * variance l) (fun x => (x - avg l) ^ 2) fun x hx => by
      have := ho x (List.mem_filter.1 hx).2
      rw [← hs, ← mul_pow, ← sq_abs (x - avg l)]
      exact pow_lt_pow_left₀ this (mul_nonneg hk hs0) (by norm_num)
    simpa using this
  rw [e] at h1
  have h3 : ((l.filter o).length * k ^ 2 - l.length) * variance l < 0 := by linarith
  have : (l.filter o).length * k ^ 2 - l.length < 0 := by
    by_contra hc
    push Not at hc
    linarith [mul_nonneg hc hv]
  linarith

/-- **C79, samples outside the Bollinger bands**: from index `p - 1` on fewer than one in `k²` of the last `p` samples lie outside the bands. -/
theorem C79_chebyshev {p : Nat} (hp : 0 < p) {k : ℚ} (hk : 0 ≤ k) {xs : List ℝ} (hx : xs ≠ []) :
    ∃ os sf s0, call (BollingerBands (p : Int) k) (finSeries xs) none = .ok (finSeries3 os, sf, s0) ∧ ∃ hl : os.length = xs.length, ∀ i (hi : i < xs.length), p ≤ i + 1 →
      (k : ℝ) ^ 2 * (((xs.take (i + 1)).drop (i + 1 - p)).filter fun x => decide (x < os[i].1 ∨ os[i].2.2 < x)).length < p := by
  obtain ⟨os, sf, s0, h1, hl, h2⟩ := (bollinger_reals hp k).at hx
  refine ⟨os, sf, s0, h1, hl, fun i hi hpi => ?_⟩
  have hlen : (xs.take (i + 1)).length = i + 1 := by simp; omega
  have hw : ((xs.take (i + 1)).drop (i + 1 - p)).reverse = window p (xs.take (i + 1)) := by
    rw [window, List.reverse_drop, hlen]
    congr 1; omega
  rw [h2 i (by omega)]
  simp only [movingAvgK, movingStdR, hlen, if_neg (show ¬ i + 1 < p by omega)]
  rw [← List.length_reverse, ← List.filter_reverse, hw]
  have hwl : (window p (xs.take (i + 1))).length = p := by rw [window_length, hlen]; omega
  generalize window p (xs.take (i + 1)) = w at hwl
  have hk' : (0 : ℝ) ≤ k := by exact_mod_cast hk
  have := chebyshev (l := w) (by rintro rfl; simp at hwl; omega) hk' (fun x => decide (x < avg w - stdDev w * k ∨ avg w + stdDev w * k < x)) fun x hx => by
    rw [decide_eq_true_iff] at hx
    rcases hx with h | h
    · exact lt_of_lt_of_le (by linarith) (neg_le_abs _)
    · exact lt_of_lt_of_le (by linarith) (le_abs_self _)
  rw [hwl] at this
  exact this
example := C79_chebyshev (p := 5) (by norm_num) (k := 2) (by norm_num) (xs := [1, 2, 3, 4, 5, 9]) (by simp)

end TS
