import Verif.Props.Between
import Verif.Props.Accuracy8
/-
C40: how large the skewness can get; C70: what is left of that in floating-point arithmetic.
-/
namespace TS
open PyVal XR FloatArith

/-- The third central moment of at least two numbers. -/
theorem thirdMoment_le {l : List ℝ} (hl : 2 ≤ l.length) : thirdMoment l ≤ (l.length - 2) / Real.sqrt (l.length - 1) * stdDev l ^ 3 := by
  have hl0 : l ≠ [] := List.length_pos_iff.1 (by omega)
  have hn2 : (2 : ℝ) ≤ l.length := by exact_mod_cast hl
  have hn : (1 : ℝ) ≤ l.length - 1 := by linarith
  set b := Real.sqrt (l.length - 1) with eb
  have hb : 1 ≤ b := by rw [eb]; exact Real.one_le_sqrt.2 hn
  have hb0 : 0 < b := by linarith
  have hb2 : b ^ 2 = l.length - 1 := Real.sq_sqrt (by linarith)
  set σ := stdDev l with eσ
  have hσ0 : 0 ≤ σ := Real.sqrt_nonneg _
  have hσ : σ ^ 2 = variance l := Real.sq_sqrt (variance_nonneg l)
  set μ := avg l with eμ
  have e0 : avg (l.map fun x => x - μ) = 0 := by
    have h := avg_add (fun y => y) (fun _ => -μ) l
    rw [avg_const_map hl0, List.map_id', ← eμ, add_neg_cancel] at h
    simpa [sub_eq_add_neg] using h
  -- (d - b σ) (d + σ / b)² ≤ 0
  have key : ∀ x ∈ l, (x - μ) ^ 3 ≤ (b - 2 / b) * σ * (x - μ) ^ 2 + ((2 - 1 / b ^ 2) * σ ^ 2 * (x - μ) + σ ^ 3 / b) := by
    intro x hx
    have h1 : (x - μ) ^ 2 ≤ (b * σ) ^ 2 := by rw [mul_pow, hb2, hσ]; exact samuelson hx
    have h2 : x - μ ≤ b * σ := le_of_sq_le_sq h1 (by positivity)
    have h3 := mul_nonneg (sub_nonneg.2 h2) (sq_nonneg (x - μ + σ / b))
    have e : (b * σ - (x - μ)) * (x - μ + σ / b) ^ 2 = (b - 2 / b) * σ * (x - μ) ^ 2 + ((2 - 1 / b ^ 2) * σ ^ 2 * (x - μ) + σ ^ 3 / b) - (x - μ) ^ 3 := by
      field_simp; ring
    linarith
  have h := avg_mono key
  rw [avg_add, avg_add, avg_map_smul, avg_map_smul, avg_const_map hl0, e0] at h
  have e1 : avg (l.map fun x => (x - μ) ^ 2) = σ ^ 2 := hσ.symm
  rw [e1] at h
  have e2 : ((l.length : ℝ) - 2) / b = b - 1 / b := by
    have : (l.length : ℝ) - 2 = b ^ 2 - 1 := by rw [hb2]; ring
    rw [this]; field_simp
  rw [e2, thirdMoment]
  refine h.trans (le_of_eq ?_)
  field_simp; ring

theorem thirdMoment_neg (l : List ℝ) : thirdMoment (l.map fun x => -1 * x) = - thirdMoment l := by
  rw [thirdMoment_smul]; ring

theorem stdDev_neg (l : List ℝ) : stdDev (l.map fun x => -1 * x) = stdDev l := by
  rw [stdDev_smul]; norm_num

/-- the largest skewness of `n` numbers -/
noncomputable def maxSkew (n : Nat) : ℝ := ((n : ℝ) - 2) / Real.sqrt (n - 1)

theorem skewOf_abs {l : List ℝ} (hl : 2 ≤ l.length) : |skewOf l| ≤ maxSkew l.length := by
  have hn : (2 : ℝ) ≤ l.length := by exact_mod_cast hl
  have h0 : 0 ≤ maxSkew l.length := div_nonneg (by linarith) (Real.sqrt_nonneg _)
  rw [skewOf]
  split
  · rwa [abs_zero]
  · rename_i hσ
    have hσ3 : 0 < stdDev l ^ 3 := pow_pos (lt_of_le_of_ne (Real.sqrt_nonneg _) (Ne.symm hσ)) 3
    rw [skew, abs_div, abs_of_pos hσ3, div_le_iff₀ hσ3, abs_le']
    refine ⟨thirdMoment_le hl, ?_⟩
    have := thirdMoment_le (l := l.map fun x => -1 * x) (by simpa using hl)
    rw [thirdMoment_neg, stdDev_neg, List.length_map] at this
    exact this

theorem maxSkew_mono {n m : Nat} (hn : 2 ≤ n) (h : n ≤ m) : maxSkew n ≤ maxSkew m := by
  have e : ∀ k : Nat, 2 ≤ k → maxSkew k = Real.sqrt (k - 1) - 1 / Real.sqrt (k - 1) ∧ 0 < Real.sqrt ((k : ℝ) - 1) := by
    intro k hk
    have hk' : (2 : ℝ) ≤ k := by exact_mod_cast hk
    have h1 : 0 < Real.sqrt ((k : ℝ) - 1) := Real.sqrt_pos.2 (by linarith)
    refine ⟨?_, h1⟩
    have h2 : Real.sqrt ((k : ℝ) - 1) ^ 2 = k - 1 := Real.sq_sqrt (by linarith)
    have h3 : (k : ℝ) - 2 = Real.sqrt ((k : ℝ) - 1) ^ 2 - 1 := by rw [h2]; ring
    rw [maxSkew, h3]
    field_simp
  rw [(e n hn).1, (e m (hn.trans h)).1]
  have h1 : Real.sqrt ((n : ℝ) - 1) ≤ Real.sqrt ((m : ℝ) - 1) := Real.sqrt_le_sqrt (sub_le_sub_right (by exact_mod_cast h) 1)
  have h2 := one_div_le_one_div_of_le (e n hn).2 h1
  linarith

theorem maxSkew_nonneg {n : Nat} (hn : 2 ≤ n) : 0 ≤ maxSkew n :=
  div_nonneg (sub_nonneg.2 (by exact_mod_cast hn)) (Real.sqrt_nonneg _)

/-- **C40, skewness is bounded**: by `(p - 2) / √(p - 1)` in size, whatever the series. -/
theorem C40_skewness_bound {p : Nat} (hp : 2 ≤ p) {xs : List ℝ} (hx : xs ≠ []) :
    ∃ os sf s0, call (Skewness (p : Int)) (finSeries xs) none = .ok (finSeries os, sf, s0) ∧ os.length = xs.length ∧ ∀ o ∈ os, |o| ≤ (p - 2) / Real.sqrt (p - 1) := by
  obtain ⟨os, sf, s0, h1, hl, h2⟩ := (skew_reals (p := p) (by omega)).at hx
  refine ⟨os, sf, s0, h1, hl, fun o ho => ?_⟩
  obtain ⟨i, hi, rfl⟩ := List.mem_iff_getElem.1 ho
  rw [h2 i (hl ▸ hi)]
  show _ ≤ maxSkew p
  set w := window p (xs.take (i + 1)) with ew
  have hw : w.length ≤ p := by rw [ew, window_length]; exact Nat.min_le_left _ _
  by_cases h : 2 ≤ w.length
  · exact (skewOf_abs h).trans (maxSkew_mono h hw)
  · have : skewOf w = 0 := by
      rw [skewOf, if_pos]
      match hw' : w, h with
      | [], _ => simp [stdDev, variance, avg]
      | [a], _ => simp [stdDev, variance, avg]
      | _ :: _ :: _, h => simp at h
    rw [this, abs_zero]
    exact maxSkew_nonneg hp
example := C40_skewness_bound (p := 3) (by norm_num) (xs := [3, 1, 4]) (by simp)

/-- The skewness of one 1 and `n` zeros. -/
theorem skewOf_single {n : Nat} (hn : 1 ≤ n) : skewOf (1 :: List.replicate n 0) = maxSkew (n + 1) := by
  have hn' : (1 : ℝ) ≤ n := by exact_mod_cast hn
  have hp : (0 : ℝ) < n + 1 := by linarith
  have ea : avg (1 :: List.replicate n (0 : ℝ)) = 1 / (n + 1) := by simp [avg]
  have ev : variance (1 :: List.replicate n (0 : ℝ)) = n / (n + 1) ^ 2 := by
    rw [variance, ea, avg]
    simp only [List.map_cons, List.map_replicate, List.sum_cons, List.sum_replicate, List.length_cons, List.length_replicate, nsmul_eq_mul]
    push_cast
    field_simp
    ring
  have et : thirdMoment (1 :: List.replicate n (0 : ℝ)) = n * (n - 1) / (n + 1) ^ 3 := by
    rw [thirdMoment, ea, avg]
    simp only [List.map_cons, List.map_replicate, List.sum_cons, List.sum_replicate, List.length_cons, List.length_replicate, nsmul_eq_mul]
    push_cast
    field_simp
    ring
  have hr : 0 < Real.sqrt (n : ℝ) := Real.sqrt_pos.2 (by linarith)
  have hr2 : Real.sqrt (n : ℝ) ^ 2 = n := Real.sq_sqrt (by linarith)
  have es : stdDev (1 :: List.replicate n (0 : ℝ)) = Real.sqrt n / (n + 1) := by
    rw [stdDev, ev, Real.sqrt_div (by linarith), Real.sqrt_sq hp.le]
  have h0 : Real.sqrt (n : ℝ) / (n + 1) ≠ 0 := by positivity
  rw [skewOf, skew, es, et, if_neg h0, maxSkew]
  push_cast
  rw [add_sub_cancel_right]
  have e3 : Real.sqrt (n : ℝ) ^ 3 = n * Real.sqrt n := by rw [pow_succ, hr2]
  rw [div_pow, e3]
  field_simp
  ring

/-- **C40, the bound is attained**: by the series `0, ..., 0, 1` of `p` samples. -/
theorem C40_skewness_attained {p : Nat} (hp : 2 ≤ p) :
    ∃ os sf s0, call (Skewness (p : Int)) (finSeries (List.replicate (p - 1) 0 ++ [1])) none = .ok (finSeries (os ++ [((p : ℝ) - 2) / Real.sqrt (p - 1)]), sf, s0) := by
  obtain ⟨os, sf, s0, h1, hl, h2⟩ := (skew_reals (p := p) (by omega)).at (xs := List.replicate (p - 1) 0 ++ [1]) (by simp)
  have hlen : os.length = p := by rw [hl]; simp; omega
  have hne : os ≠ [] := List.length_pos_iff.1 (by omega)
  refine ⟨os.dropLast, sf, s0, ?_⟩
  have hlast : os.getLast hne = maxSkew p := by
    rw [List.getLast_eq_getElem, h2 _ (by simp; omega), List.take_of_length_le (by simp; omega), window_all (by simp; omega), List.reverse_append, List.reverse_replicate]
    have := skewOf_single (n := p - 1) (by omega)
    rwa [show p - 1 + 1 = p by omega] at this
  rw [h1, ← maxSkew, ← hlast, List.dropLast_append_getLast]
example := C40_skewness_attained (p := 3) (by norm_num)

/-- **C70, cancellation in the skewness** (binary32): the skewness of two numbers is 0, but of 1001 and 1003 it comes out as -64. -/
theorem C70_skewness_cancels : output (call (Skewness 2) (series32 [1001, 1003]) none) = .ok (series32 [0, -64]) ∧
    ∀ xs : List ℝ, xs ≠ [] → output (call (Skewness 2) (finSeries xs) none) = .ok (finSeries (xs.map fun _ => 0)) := by
  constructor
  · decide +kernel
  · intro xs hx
    obtain ⟨os, sf, s0, h1, hl, h2⟩ := C40_skewness_bound (p := 2) le_rfl hx
    have h3 : os = xs.map fun _ => 0 := by
      rw [List.map_const', ← hl]
      refine List.eq_replicate_iff.2 ⟨rfl, fun o ho => abs_eq_zero.1 (le_antisymm ?_ (abs_nonneg _))⟩
      have := h2 o ho
      norm_num at this
      simpa using this
    have h1' : call (Skewness 2) (finSeries xs) none = .ok (finSeries os, sf, s0) := h1
    rw [h1', h3]; rfl
example := C70_skewness_cancels.2 [1001, 1003] (by simp)

end TS
