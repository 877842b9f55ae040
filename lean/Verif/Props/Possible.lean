import Verif.Props.Unnoticed
import Verif.Props.Skew
import Verif.Props.Between
import Verif.Props.SupertrendFails
import Verif.Props.Accuracy5
import Mathlib.Topology.Order.IntermediateValue
import Mathlib.Analysis.SpecialFunctions.Trigonometric.Basic
/-
C97: exactly which outputs are possible.
-/
namespace TS
open XR
variable {K : Type} [Field K] [LinearOrder K] [IsStrictOrderedRing K] [Transc K] [FloorRing K] {A B : Type}

omit [Field K] [LinearOrder K] [IsStrictOrderedRing K] [Transc K] [FloorRing K] in
theorem StreamsAs.can {op : Operator (XR K)} {ser : List A → Val (XR K)} {outs : List B → Val (XR K)} {y : List A → B} (h : StreamsAs op ser outs y) (inj : ∀ a b, outs a = outs b → a = b) {v : B} :
    CanOutput op ser outs v ↔ ∃ xs, xs ≠ [] ∧ y xs = v := by
  obtain ⟨st, h1, -⟩ := h
  constructor
  · rintro ⟨xs, os, sf, s0, hx, e, hv⟩
    rw [h1 xs hx] at e
    injection e with e
    have i1 := inj _ _ (congrArg (·.1) e)
    rw [← i1] at hv
    obtain ⟨i, hi, rfl⟩ := List.mem_iff_getElem.1 hv
    rw [scan_getElem, List.nil_append]
    exact ⟨_, by rw [← List.length_pos_iff]; simp at hi ⊢; omega, rfl⟩
  · rintro ⟨xs, hx, rfl⟩
    refine ⟨xs, _, _, _, hx, h1 xs hx, ?_⟩
    have hl : xs.length - 1 < (scan y [] xs).length := by simpa using Nat.sub_lt (List.length_pos_iff.2 hx) one_pos
    rw [List.mem_iff_getElem]
    refine ⟨xs.length - 1, hl, ?_⟩
    rw [scan_getElem, List.nil_append, List.take_of_length_le (by omega)]

omit [Transc K] in
theorem share_range {g l : K} (hg : 0 ≤ g) (hl : 0 ≤ l) : share g l = nan ∨ ∃ r, 0 ≤ r ∧ r ≤ 100 ∧ share g l = fin r := by
  unfold share
  split
  · exact .inl rfl
  · rename_i h
    have : 0 < g + l := lt_of_le_of_ne (by linarith) (Ne.symm h)
    refine .inr ⟨_, by positivity, ?_, rfl⟩
    rw [div_le_iff₀ this]
    linarith

/-- **C97 RSI** with a period of at least 2 outputs not-a-number and the numbers from 0 to 100. -/
theorem C97_rsi {p : Nat} (hp : 2 ≤ p) (v : XR K) : CanOutput (RSI (p : Int)) numbers vSBuf v ↔ v = nan ∨ ∃ r, 0 ≤ r ∧ r ≤ 100 ∧ v = fin r := by
  rw [show (numbers : List K → Val (XR K)) = finSeries from rfl, (rsi_reals (by omega)).can fun _ _ => vSBuf_inj]
  constructor
  · rintro ⟨xs, hx, rfl⟩
    obtain ⟨i, hi⟩ : ∃ i, xs.length = i + 1 := ⟨xs.length - 1, by have := List.length_pos_iff.2 hx; omega⟩
    by_cases h : p ≤ i
    · rw [rsi_share (by omega) hi h]
      exact share_range (gainAt_nonneg (by omega) _ _) (lossAt_nonneg (by omega) _ _)
    · refine .inr ⟨0, le_rfl, by norm_num, ?_⟩
      rw [rsi, if_pos (by simp; omega)]
      simp
  · rintro (rfl | ⟨r, h0, h1, rfl⟩)
    · refine ⟨0 :: 0 :: List.replicate (p - 1) 0, by simp, ?_⟩
      rw [rsi_three hp]
      simp [share]
    · refine ⟨0 :: r :: List.replicate (p - 1) (r - (100 - r)), by simp, ?_⟩
      rw [rsi_three hp, max_eq_right (by linarith), max_eq_left (by linarith), max_eq_left (by linarith), max_eq_right (by linarith), share, if_neg (by norm_num)]
      congr 1
      field_simp
      ring
example := (C97_rsi (K := ℚ) (p := 2) (by norm_num) (fin 50)).2 (.inr ⟨50, by norm_num, by norm_num, rfl⟩)

/-- **C97 RSI** with period 1 outputs not-a-number, 0 and 100 only. -/
theorem C97_rsi_one (v : XR K) : CanOutput (RSI 1) numbers vSBuf v ↔ v = nan ∨ v = fin 0 ∨ v = fin 100 := by
  rw [show (numbers : List K → Val (XR K)) = finSeries from rfl, show (1 : Int) = ((1 : Nat) : Int) from rfl, (rsi_reals one_pos).can fun _ _ => vSBuf_inj]
  have key (l : List K) (a b : K) : rsi 1 ((l ++ [a, b]).map fin) = if a = b then nan else if a < b then fin 100 else fin 0 := by
    rw [rsi_one]
    rcases lt_trichotomy a b with k | rfl | k
    · have k1 := sub_pos.2 k
      rw [if_neg k.ne, if_pos k, max_eq_right k1.le, max_eq_left (by linarith), share, add_zero, if_neg k1.ne', mul_div_cancel_right₀ _ k1.ne']
    · simp [share]
    · have k1 := sub_pos.2 k
      rw [if_neg k.ne', if_neg k.not_gt, max_eq_right k1.le, max_eq_left (by linarith), share, zero_add, if_neg k1.ne']
      simp
  constructor
  · rintro ⟨xs, hx, rfl⟩
    rcases List.eq_nil_or_concat xs with rfl | ⟨l, b, rfl⟩
    · exact absurd rfl hx
    rcases List.eq_nil_or_concat l with rfl | ⟨l, a, rfl⟩
    · simp [rsi]
    rw [List.concat_eq_append, List.concat_eq_append, List.append_assoc, show [a] ++ [b] = [a, b] from rfl, key]
    split_ifs <;> simp
  · rintro (rfl | rfl | rfl)
    · exact ⟨[] ++ [0, 0], by simp, by rw [key]; simp⟩
    · exact ⟨[] ++ [1, 0], by simp, by rw [key]; simp⟩
    · exact ⟨[] ++ [0, 1], by simp, by rw [key]; simp⟩
example := (C97_rsi_one (K := ℚ) (fin 100)).2 (.inr (.inr rfl))

/-- **C97 MSD** over at least 2 samples outputs exactly the numbers that are not negative. -/
theorem C97_msd {p : Nat} (hp : 2 ≤ p) (v : ℝ) : CanOutput (MSD (p : Int)) numbers numbers v ↔ 0 ≤ v := by
  rw [show (numbers : List ℝ → Val (XR ℝ)) = finSeries from rfl, (msd_reals (by omega)).can fun _ _ => finSeries_inj]
  constructor
  · rintro ⟨xs, -, rfl⟩
    rw [movingStdR]
    split
    · exact le_rfl
    · exact Real.sqrt_nonneg _
  · intro h
    have hq : (0 : ℝ) < (p - 1 : Nat) := by exact_mod_cast (by omega : 0 < p - 1)
    have hr : 0 < Real.sqrt (p - 1 : Nat) := Real.sqrt_pos.2 hq
    refine ⟨List.replicate (p - 1) 0 ++ [v * ((p - 1 : Nat) + 1) / Real.sqrt (p - 1 : Nat)], by simp, ?_⟩
    rw [movingStdR, if_neg (by simp; omega), window, List.reverse_append, List.take_of_length_le (by simp; omega)]
    simp only [List.reverse_cons, List.reverse_nil, List.nil_append, List.reverse_replicate, List.cons_append]
    rw [stdDev, variance_one_replicate, sub_zero, div_pow, Real.sq_sqrt hq.le]
    rw [show ((p - 1 : Nat) : ℝ) / ((p - 1 : Nat) + 1) ^ 2 * ((v * ((p - 1 : Nat) + 1)) ^ 2 / (p - 1 : Nat)) = v ^ 2 by field_simp]
    exact Real.sqrt_sq h
example := (C97_msd (p := 2) (by norm_num) 5).2 (by norm_num)

/-- **C97 Return** outputs all numbers. -/
theorem C97_return {p : Nat} (hp : 0 < p) (v : K) : CanOutput (Return (p : Int)) numbers numbers v := by
  rw [show (numbers : List K → Val (XR K)) = finSeries from rfl, (return_reals hp).can fun _ _ => finSeries_inj]
  refine ⟨1 :: List.replicate (p - 1) 0 ++ [v + 1], by simp, ?_⟩
  have : ((1 :: List.replicate (p - 1) (0 : K) ++ [v + 1]).reverse)[p]? = some 1 := by
    rw [List.getElem?_reverse (by simp; omega), show (1 :: List.replicate (p - 1) (0 : K) ++ [v + 1]).length - 1 - p = 0 by simp; omega]
    simp
  rw [returnK, lagged, this, List.getLastD_concat, Option.getD_some]
  simp [show ¬ (p - 1 + 1 + 1 ≤ p) by omega]
example := C97_return (K := ℚ) (p := 2) (by norm_num) (-7)

/-- **C97 ATR** outputs exactly the numbers that are not negative. -/
theorem C97_atr {p : Nat} (hp : 0 < p) (v : K) : CanOutput (ATR (p : Int)) finCandles numbers v ↔ 0 ≤ v := by
  rw [show (numbers : List K → Val (XR K)) = finSeries from rfl, (atr_reals hp).can fun _ _ => finSeries_inj]
  constructor
  · rintro ⟨xs, -, rfl⟩
    exact atrK_nonneg hp xs
  · intro h
    rcases h.eq_or_lt with rfl | h
    · refine ⟨[⟨0, 0, 0⟩], by simp, ?_⟩
      have : trueRangesK [(⟨0, 0, 0⟩ : CLH K)] = [0] := by simp [trueRangesK, trueRangeK]
      rw [atrK, this, recursiveAvgK]
      rw [List.drop_eq_nil_of_le (by simp; omega), List.foldl_nil, List.take_of_length_le (by simp; omega), movingAvgK]
      split
      · rfl
      · simp [window, avg, List.take_of_length_le (show [(0 : K)].length ≤ p by simp; omega)]
    · exact ⟨List.replicate p ⟨v, 0, v⟩, by simp; omega, atrK_replicate hp ⟨h, by simp [trueRangeK, h.le], by simp [trueRangeK, h.ne', h.le, abs_of_pos h]⟩⟩
example := (C97_atr (K := ℚ) (p := 2) (by norm_num) 5).2 (by norm_num)

/-- **C97 Sharpe ratio** over at least 2 samples outputs all numbers. -/
theorem C97_sharpe {p : Nat} (hp : 2 ≤ p) (v : ℝ) : CanOutput (SharpeRatio (p : Int)) pairs numbers v := by
  rw [show (pairs : List (ℝ × ℝ) → Val (XR ℝ)) = finPairs from rfl, show (numbers : List ℝ → Val (XR ℝ)) = finSeries from rfl, (sharpe_reals (by omega)).can fun _ _ => finSeries_inj]
  -- two samples, one above and one below their mean
  refine ⟨[(v + 1, 0), (v - 1, 0)], by simp, ?_⟩
  have hw : window p [v + 1, v - 1] = [v - 1, v + 1] := by rw [window, List.take_of_length_le (by simpa using hp)]; rfl
  have ha : avg [v - 1, v + 1] = v := by simp [avg]
  have hs : stdDev [v - 1, v + 1] = 1 := by
    rw [stdDev, variance, ha]
    norm_num [avg]
  simp [sharpeR, hw, ha, hs]
example := C97_sharpe (p := 2) (by norm_num) (-7)

/-- a sample of `n` pairs with a given correlation -/
theorem correlation_given (n : Nat) {r : ℝ} (h0 : -1 ≤ r) (h1 : r ≤ 1) :
    correlation ((1, Real.sqrt 3 * r + Real.sqrt (1 - r ^ 2)) :: (-1, - (Real.sqrt 3 * r) + Real.sqrt (1 - r ^ 2)) :: (0, -2 * Real.sqrt (1 - r ^ 2)) :: List.replicate n ((0 : ℝ), (0 : ℝ))) = r := by
  have hq : Real.sqrt (1 - r ^ 2) ^ 2 = 1 - r ^ 2 := Real.sq_sqrt (by nlinarith)
  have h3 : Real.sqrt 3 ^ 2 = 3 := Real.sq_sqrt (by norm_num)
  have h3p : 0 < Real.sqrt 3 := Real.sqrt_pos.2 (by norm_num)
  generalize Real.sqrt (1 - r ^ 2) = s at *
  generalize Real.sqrt 3 = q at *
  have hn : (0 : ℝ) < n + 3 := by positivity
  set l := (1, q * r + s) :: (-1, - (q * r) + s) :: (0, -2 * s) :: List.replicate n ((0 : ℝ), (0 : ℝ)) with el
  have a1 : avg (l.map Prod.fst) = 0 := by simp [el, avg]
  have a2 : avg (l.map Prod.snd) = 0 := by
    have : q * r + s + (-(q * r) + s + -(2 * s)) = 0 := by ring
    simp [el, avg, this]
  have v1 : variance (l.map Prod.fst) = 2 / (n + 3) := by
    rw [variance, a1]
    simp [el, avg]
    ring
  have v2 : variance (l.map Prod.snd) = 6 / (n + 3) := by
    have : (q * r + s) ^ 2 + ((-(q * r) + s) ^ 2 + (2 * s) ^ 2) = 6 := by
      have : (q * r + s) ^ 2 + ((-(q * r) + s) ^ 2 + (2 * s) ^ 2) = 2 * q ^ 2 * r ^ 2 + 6 * s ^ 2 := by ring
      rw [this, h3, hq]; ring
    rw [variance, a2]
    simp [el, avg, this]
    ring
  have c : covariance l = 2 * q * r / (n + 3) := by
    have : q * r + s + (-s + q * r) = 2 * q * r := by ring
    rw [covariance, a1, a2]
    simp [el, avg, this]
    ring
  have sd : stdDev (l.map Prod.fst) * stdDev (l.map Prod.snd) = 2 * q / (n + 3) := by
    rw [stdDev, stdDev, v1, v2, ← Real.sqrt_mul (by positivity), show (2 : ℝ) / (n + 3) * (6 / (n + 3)) = (2 * q / (n + 3)) ^ 2 by rw [div_pow, mul_pow, h3, div_mul_div_comm]; ring]
    exact Real.sqrt_sq (by positivity)
  rw [correlation, c, sd]
  field_simp

theorem varies_of_correlation {l : List (ℝ × ℝ)} {r : ℝ} (h : correlation l = r) (hr : r ≠ 0) : Varies (l.map Prod.fst) ∧ Varies (l.map Prod.snd) := by
  rw [varies_iff, varies_iff]
  refine ⟨fun h0 => hr ?_, fun h0 => hr ?_⟩ <;> rw [← h, correlation, stdDev, stdDev, h0] <;> simp

theorem corrOf_reverse {p : Nat} {l : List (ℝ × ℝ)} (hl : l.length = p) (z : ℝ × ℝ) :
    corrOf p ((z :: l.reverse).map (Prod.map fin fin)) = (pearson ((l.map Prod.fst).map fin) ((l.map Prod.snd).map fin) : XR ℝ) := by
  have hw : window p (z :: l.reverse) = l := by
    rw [window, List.reverse_cons, List.reverse_reverse, List.take_left' hl]
  rw [corrOf, if_neg (by simp; omega), List.map_map, List.map_map]
  conv_rhs => rw [← hw]
  simp only [window_map, List.map_map]
  rfl

theorem corrOf_range {p : Nat} (hp : 0 < p) (zs : List (ℝ × ℝ)) : corrOf p (zs.map (Prod.map fin fin)) = (nan : XR ℝ) ∨ corrOf p (zs.map (Prod.map fin fin)) = (fin 0 : XR ℝ) ∨
    ∃ l : List (ℝ × ℝ), l.length = p ∧ Varies (l.map Prod.fst) ∧ Varies (l.map Prod.snd) ∧ corrOf p (zs.map (Prod.map fin fin)) = (fin (correlation l) : XR ℝ) := by
  by_cases h : zs.length ≤ p
  · exact .inr (.inl (by rw [corrOf, if_pos (by simpa using h), XR.zero_eq]))
  have e : corrOf p (zs.map (Prod.map fin fin)) = (pearson (((window p zs).map Prod.fst).map fin) (((window p zs).map Prod.snd).map fin) : XR ℝ) := by
    rw [corrOf, if_neg (by simpa using h), List.map_map, List.map_map]
    simp only [window_map, List.map_map]
    rfl
  have hw : (window p zs).length = p := by rw [window_length]; omega
  rw [e]
  by_cases hv : Varies ((window p zs).map Prod.fst) ∧ Varies ((window p zs).map Prod.snd)
  · exact .inr (.inr ⟨_, hw, hv.1, hv.2, by rw [pearson_varies hv.1 hv.2]⟩)
  · exact .inl (pearson_constant (by rw [← List.length_pos_iff]; omega) hv)

/-- **C97 Correlation** over at least 3 samples outputs not-a-number and the numbers from -1 to 1. -/
theorem C97_correlation {p : Nat} (hp : 3 ≤ p) (v : XR ℝ) : CanOutput (Correlation (p : Int)) pairs vSBuf v ↔ v = nan ∨ ∃ r, -1 ≤ r ∧ r ≤ 1 ∧ v = fin r := by
  rw [(corr_pairs_reals (by omega)).can fun _ _ => vSBuf_inj]
  constructor
  · rintro ⟨zs, -, rfl⟩
    rcases corrOf_range (by omega : 0 < p) zs with h | h | ⟨l, -, v1, v2, h⟩
    · exact .inl h
    · exact .inr ⟨0, by norm_num, by norm_num, h⟩
    · have := abs_le.1 (correlation_abs_le ((varies_iff _).1 v1) ((varies_iff _).1 v2))
      exact .inr ⟨_, this.1, this.2, h⟩
  · rintro (rfl | ⟨r, h0, h1, rfl⟩)
    · refine ⟨(0, 0) :: (List.replicate p (0, 0)).reverse, by simp, ?_⟩
      rw [corrOf_reverse (by simp)]
      refine pearson_constant (by simp; omega) fun h => ?_
      obtain ⟨x, hx, y, hy, hxy⟩ := h.1
      simp at hx hy
      exact hxy (by rw [hx.2, hy.2])
    · rcases eq_or_ne r 0 with rfl | hr
      · exact ⟨[(0, 0)], by simp, by rw [corrOf, if_pos (by simp; omega), XR.zero_eq]⟩
      obtain ⟨n, rfl⟩ : ∃ n, p = n + 3 := ⟨p - 3, by omega⟩
      have := correlation_given n h0 h1
      have hv := varies_of_correlation this hr
      have := pearson_varies hv.1 hv.2 |>.trans (congrArg _ this)
      rw [← corrOf_reverse (p := n + 3) (by simp) (0, 0)] at this
      exact ⟨_, by simp, this⟩
example := (C97_correlation (p := 3) (by norm_num) (fin (1 / 2))).2 (.inr ⟨1 / 2, by norm_num, by norm_num, rfl⟩)

/-- **C97 Correlation** over 2 samples outputs only not-a-number, -1, 0 and 1. -/
theorem C97_correlation_two (v : XR ℝ) : CanOutput (Correlation 2) pairs vSBuf v ↔ v = nan ∨ v = fin (-1) ∨ v = fin 0 ∨ v = fin 1 := by
  rw [show (2 : Int) = ((2 : Nat) : Int) from rfl, (corr_pairs_reals two_pos).can fun _ _ => vSBuf_inj]
  have line (a b c d : ℝ) (h1 : a ≠ c) : ∃ u w, ∀ z ∈ [(a, b), (c, d)], z.2 = u * z.1 + w := by
    have : c - a ≠ 0 := sub_ne_zero.2 (Ne.symm h1)
    refine ⟨(d - b) / (c - a), b - (d - b) / (c - a) * a, ?_⟩
    simp only [List.mem_cons, List.not_mem_nil, or_false]
    rintro z (rfl | rfl)
    · simp
    · show d = _
      field_simp
      ring
  constructor
  · rintro ⟨zs, -, rfl⟩
    rcases corrOf_range two_pos zs with h | h | ⟨l, hl, v1, v2, h⟩
    · exact .inl h
    · exact .inr (.inr (.inl h))
    · rw [h]
      obtain ⟨⟨a, b⟩, ⟨c, d⟩, rfl⟩ : ∃ z z', l = [z, z'] := List.length_eq_two.1 hl
      have hac : a ≠ c := by rintro rfl; obtain ⟨x, hx, y, hy, hxy⟩ := v1; simp at hx hy; exact hxy (hx.trans hy.symm)
      have hbd : b ≠ d := by rintro rfl; obtain ⟨x, hx, y, hy, hxy⟩ := v2; simp at hx hy; exact hxy (hx.trans hy.symm)
      obtain ⟨u, w, hz⟩ := line a b c d hac
      have hu : u ≠ 0 := by
        rintro rfl
        apply hbd
        have e1 := hz (a, b) (by simp)
        have e2 := hz (c, d) (by simp)
        simp at e1 e2
        rw [e1, e2]
      rcases lt_or_gt_of_ne hu with k | k
      · rw [(correlation_sign v1 v2 (e := -1) (.inr rfl)).2 ⟨u, w, by linarith, hz⟩]; simp
      · rw [(correlation_sign v1 v2 (e := 1) (.inl rfl)).2 ⟨u, w, by linarith, hz⟩]; simp
  · have two (u : ℝ) (hu : u = 1 ∨ u = -1) : corrOf 2 (((0, 0) :: [((0 : ℝ), (0 : ℝ)), (1, u)].reverse).map (Prod.map fin fin)) = (fin u : XR ℝ) := by
      have hu0 : u ≠ 0 := by rcases hu with rfl | rfl <;> norm_num
      have v1 : Varies ([((0 : ℝ), (0 : ℝ)), (1, u)].map Prod.fst) := ⟨0, by simp, 1, by simp, by norm_num⟩
      have v2 : Varies ([((0 : ℝ), (0 : ℝ)), (1, u)].map Prod.snd) := ⟨0, by simp, u, by simp, hu0.symm⟩
      rw [corrOf_reverse (by simp), pearson_varies v1 v2, (correlation_sign v1 v2 hu).2 ⟨u, 0, by rcases hu with rfl | rfl <;> norm_num, by simp⟩]
    rintro (rfl | rfl | rfl | rfl)
    · refine ⟨(0, 0) :: [(0, 0), (0, 0)].reverse, by simp, ?_⟩
      rw [corrOf_reverse (by simp)]
      exact pearson_constant (by simp) fun h => by simp [Varies] at h
    · exact ⟨_, by simp, two (-1) (.inr rfl)⟩
    · exact ⟨[(0, 0)], by simp, by rw [corrOf, if_pos (by simp), XR.zero_eq]⟩
    · exact ⟨_, by simp, two 1 (.inl rfl)⟩
example := (C97_correlation_two (fin (-1))).2 (.inr (.inl rfl))

/-- **C97 Correlation** over a single sample outputs only zero (at first) and not-a-number. -/
theorem C97_correlation_one (v : XR ℝ) : CanOutput (Correlation 1) pairs vSBuf v ↔ v = nan ∨ v = fin 0 := by
  rw [show (1 : Int) = ((1 : Nat) : Int) from rfl, (corr_pairs_reals one_pos).can fun _ _ => vSBuf_inj]
  constructor
  · rintro ⟨zs, -, rfl⟩
    rcases corrOf_range one_pos zs with h | h | ⟨l, hl, v1, -, -⟩
    · exact .inl h
    · exact .inr h
    · obtain ⟨z, rfl⟩ := List.length_eq_one_iff.1 hl
      simp [Varies] at v1
  · rintro (rfl | rfl)
    · refine ⟨(0, 0) :: [(0, 0)].reverse, by simp, ?_⟩
      rw [corrOf_reverse (by simp)]
      exact pearson_constant (by simp) fun h => by simp [Varies] at h
    · exact ⟨[(0, 0)], by simp, by rw [corrOf, if_pos (by simp), XR.zero_eq]⟩
example := (C97_correlation_one (fin 0)).2 (.inr rfl)

omit [IsStrictOrderedRing K] [Transc K] [FloorRing K] in
theorem daysK_nonneg (l : List K) : 0 ≤ daysK l := by
  induction l with
  | nil => exact le_rfl
  | cons x l ih => rw [daysK]; split <;> omega

theorem daysK_one_replicate (n : Nat) : daysK (List.replicate n 1 ++ [(1 : K)]) = n := by
  induction n with
  | zero => norm_num [daysK, peakK]
  | succ n ih =>
    have hp : peakK (List.replicate n 1 ++ [(1 : K)]).reverse = 1 := by
      rw [← List.replicate_succ', List.reverse_replicate, peakK_replicate]; simp
    rw [List.replicate_succ, List.cons_append, daysK, hp, ih]
    norm_num

/-- **C97 Drawdown** outputs exactly the pairs of a loss `d ≤ 0` and a number of days `n ≥ 0` with `n ≥ 1` if there is a loss. -/
theorem C97_drawdown (d : K) (n : Int) : CanOutput Drawdown numbers finInts (d, n) ↔ d ≤ 0 ∧ 0 ≤ n ∧ (d < 0 → 1 ≤ n) := by
  have inj (a b : List (K × Int)) (h : (finInts a : Val (XR K)) = finInts b) : a = b := by
    injection h with _ h
    injection h with h1 h2
    injection h2 with h2 _
    have h1 := finSeries_inj h1
    have h2 := vIBuf_inj h2
    exact (List.zip_of_prod h1 h2).trans (List.zip_of_prod rfl rfl).symm
  have hdd : StreamsAs (Drawdown : Operator (XR K)) finSeries finInts ddK := by
    have := dd_reals (K := K)
    rwa [show (fun l : List (K × Int) => numInts (l.map (Prod.map XR.fin id))) = finInts from funext numInts_fin] at this
  rw [show (numbers : List K → Val (XR K)) = finSeries from rfl, hdd.can inj]
  constructor
  · rintro ⟨xs, hx, h⟩
    rcases List.eq_nil_or_concat xs with rfl | ⟨l, x, rfl⟩
    · exact absurd rfl hx
    rw [List.concat_eq_append, ddK, List.dropLast_concat, List.getLastD_concat, List.reverse_append, Prod.mk.injEq] at h
    obtain ⟨rfl, rfl⟩ := h
    refine ⟨?_, daysK_nonneg _, fun h => ?_⟩
    · rw [drawdownK]; split
      · exact le_rfl
      · exact min_le_left _ _
    · rw [drawdownK] at h
      split at h
      · exact absurd h (lt_irrefl _)
      · rename_i h0
        have hp := peakK_nonneg l
        have hp0 : 0 < peakK l := lt_of_le_of_ne hp fun e => h0 (by rw [← e, abs_zero]; norm_num)
        have : x / peakK l - 1 < 0 := by
          by_contra hc
          rw [min_eq_left (not_lt.1 hc)] at h
          exact lt_irrefl _ h
        rw [sub_neg, div_lt_one hp0] at this
        show 1 ≤ daysK (x :: l.reverse)
        rw [daysK, List.reverse_reverse, max_eq_right this.le, sub_self, abs_zero, if_neg (by norm_num)]
        have := daysK_nonneg l.reverse
        omega
  · rintro ⟨hd, hn, h⟩
    obtain ⟨n, rfl⟩ := Int.eq_ofNat_of_zero_le hn
    rcases Nat.eq_zero_or_pos n with rfl | hn'
    · have : d = 0 := le_antisymm hd (by by_contra hc; have := h (not_le.1 hc); simp at this)
      subst this
      refine ⟨[1], by simp, ?_⟩
      norm_num [ddK, drawdownK, peakK, daysK]
    · obtain ⟨n, rfl⟩ : ∃ m, n = m + 1 := ⟨n - 1, by omega⟩
      refine ⟨List.replicate (n + 1) 1 ++ [d + 1], by simp, ?_⟩
      rw [ddK, List.dropLast_concat, List.getLastD_concat, List.reverse_append, peakK_replicate, List.reverse_replicate]
      have e : daysK ([d + 1].reverse ++ List.replicate (n + 1) 1) = ((n + 1 : Nat) : Int) := by
        show daysK ((d + 1) :: List.replicate (n + 1) 1) = _
        rw [daysK, List.reverse_replicate, peakK_replicate, max_eq_left zero_le_one, max_eq_right (by linarith), sub_self, abs_zero, if_neg (by norm_num), List.replicate_succ', daysK_one_replicate]
        push_cast; rfl
      rw [e, max_eq_left zero_le_one, drawdownK, if_neg (by norm_num), div_one, add_sub_cancel_right, min_eq_right hd]
example := (C97_drawdown (K := ℚ) (-7) 3).2 ⟨by norm_num, by norm_num, fun _ => by norm_num⟩

/-- the mean of `a`, `b` and `n` zeros, transformed -/
theorem avg_two_zeros (n : Nat) (a b : ℝ) (f : ℝ → ℝ) : avg ((a :: b :: List.replicate n 0).map f) = (f a + (f b + n * f 0)) / (n + 2) := by
  rw [avg]
  simp only [List.map_cons, List.map_replicate, List.sum_cons, List.sum_replicate, List.length_cons, List.length_replicate, nsmul_eq_mul]
  push_cast
  ring

/-- every skewness between the extreme ones is that of a sample -/
theorem skewOf_given {n : Nat} (hn : 1 ≤ n) {r : ℝ} (h : |r| ≤ maxSkew (n + 2)) : ∃ a b : ℝ, skewOf (a :: b :: List.replicate n 0) = r := by
  let L (t : ℝ) : List ℝ := Real.cos t :: Real.sin t :: List.replicate n 0
  have hm (t : ℝ) : avg (L t) = (Real.cos t + Real.sin t) / (n + 2) := by
    have := avg_two_zeros n (Real.cos t) (Real.sin t) id
    simpa [L] using this
  have hv (t : ℝ) : variance (L t) ≠ 0 := by
    rw [Ne, variance_eq_zero]
    intro h
    have z : (0 : ℝ) ∈ L t := by simp [L, show n ≠ 0 by omega]
    have h1 := h (Real.cos t) (by simp [L]) 0 z
    have h2 := h (Real.sin t) (by simp [L]) 0 z
    have := Real.sin_sq_add_cos_sq t
    rw [h1, h2] at this
    norm_num at this
  have e (t : ℝ) : skewOf (L t) = skew (L t) := by rw [skewOf, if_neg (stdDev_pos (hv t)).ne']
  have c1 : Continuous fun t => thirdMoment (L t) := by
    have : (fun t => thirdMoment (L t)) = fun t => ((Real.cos t - (Real.cos t + Real.sin t) / (n + 2)) ^ 3 + ((Real.sin t - (Real.cos t + Real.sin t) / (n + 2)) ^ 3 + n * (0 - (Real.cos t + Real.sin t) / (n + 2)) ^ 3)) / (n + 2) := by
      funext t
      rw [thirdMoment, hm]
      exact avg_two_zeros n _ _ _
    rw [this]
    fun_prop
  have c2 : Continuous fun t => variance (L t) := by
    have : (fun t => variance (L t)) = fun t => ((Real.cos t - (Real.cos t + Real.sin t) / (n + 2)) ^ 2 + ((Real.sin t - (Real.cos t + Real.sin t) / (n + 2)) ^ 2 + n * (0 - (Real.cos t + Real.sin t) / (n + 2)) ^ 2)) / (n + 2) := by
      funext t
      rw [variance, hm]
      exact avg_two_zeros n _ _ _
    rw [this]
    fun_prop
  have c3 : Continuous fun t => skew (L t) := by
    unfold skew stdDev
    exact c1.div (c2.sqrt.pow 3) fun t => (pow_pos (stdDev_pos (hv t)) 3).ne'
  have h0 : skew (L 0) = maxSkew (n + 2) := by
    rw [← e, ← skewOf_single (n := n + 1) (by omega)]
    simp [L, List.replicate_succ]
  have hπ : skew (L Real.pi) = - maxSkew (n + 2) := by
    have hL : L Real.pi = (L 0).map fun x => -1 * x := by simp [L]
    rw [← h0, hL, skew, skew, thirdMoment_neg, stdDev_neg, neg_div]
  have hr := abs_le.1 h
  obtain ⟨t, -, ht⟩ := intermediate_value_Icc' Real.pi_pos.le c3.continuousOn (show r ∈ Set.Icc (skew (L Real.pi)) (skew (L 0)) by rw [h0, hπ]; exact hr)
  exact ⟨Real.cos t, Real.sin t, (e t).trans ht⟩

/-- **C97 Skewness** over at least 2 samples outputs exactly the numbers up to `(p - 2) / √(p - 1)` in size. -/
theorem C97_skewness {p : Nat} (hp : 2 ≤ p) (v : ℝ) : CanOutput (Skewness (p : Int)) numbers numbers v ↔ |v| ≤ (p - 2) / Real.sqrt (p - 1) := by
  constructor
  · rintro ⟨xs, os, sf, s0, hx, e, hv⟩
    obtain ⟨os', sf', s0', e', -, h⟩ := C40_skewness_bound (p := p) (by omega) hx
    rw [show numbers xs = finSeries xs from rfl, e'] at e
    injection e with e
    have : os' = os := finSeries_inj (congrArg (·.1) e)
    exact h v (this ▸ hv)
  · intro h
    rw [show (numbers : List ℝ → Val (XR ℝ)) = finSeries from rfl, (skew_reals (by omega)).can fun _ _ => finSeries_inj]
    obtain ⟨n, rfl⟩ : ∃ n, p = n + 2 := ⟨p - 2, by omega⟩
    rcases Nat.eq_zero_or_pos n with rfl | hn
    · have : v = 0 := by simpa using h
      exact ⟨[0], by simp, by simp [this, window, skewOf, stdDev, variance, avg]⟩
    obtain ⟨a, b, hab⟩ := skewOf_given (n := n) (by omega) (r := v) h
    refine ⟨(a :: b :: List.replicate n 0).reverse, by simp, ?_⟩
    rw [window, List.reverse_reverse, List.take_of_length_le (by simp), hab]
example := (C97_skewness (p := 5) (by norm_num) 1).2 (by rw [abs_one, show ((5 : Nat) : ℝ) - 1 = 2 ^ 2 by norm_num, Real.sqrt_sq (by norm_num)]; norm_num)

/-- **C97 Bollinger bands** over at least 2 samples output exactly the triples whose outer numbers have the same distance from the middle, in increasing order. -/
theorem C97_bollinger {p : Nat} (hp : 2 ≤ p) {k : ℚ} (hk : 0 < k) (a b c : ℝ) : CanOutput (BollingerBands (p : Int) k) numbers finSeries3 (a, b, c) ↔ a ≤ b ∧ b - a = c - b := by
  have hk' : (0 : ℝ) < k := by exact_mod_cast hk
  rw [show (numbers : List ℝ → Val (XR ℝ)) = finSeries from rfl, (bollinger_reals (by omega) k).can fun _ _ => finSeries3_inj]
  constructor
  · rintro ⟨xs, -, h⟩
    rw [Prod.mk.injEq, Prod.mk.injEq] at h
    obtain ⟨rfl, rfl, rfl⟩ := h
    have : 0 ≤ movingStdR p xs := by
      rw [movingStdR]
      split
      · exact le_rfl
      · exact Real.sqrt_nonneg _
    have := mul_nonneg this hk'.le
    exact ⟨by linarith, by ring⟩
  · rintro ⟨h1, h2⟩
    have hq : (0 : ℝ) < (p - 1 : Nat) := by exact_mod_cast (by omega : 0 < p - 1)
    have hr : 0 < Real.sqrt (p - 1 : Nat) := Real.sqrt_pos.2 hq
    have hr2 : Real.sqrt (p - 1 : Nat) ^ 2 = (p - 1 : Nat) := Real.sq_sqrt hq.le
    set q : ℝ := ((p - 1 : Nat) : ℝ) with eq
    set r := Real.sqrt q with er
    set s := (b - a) / k with es
    have hs : 0 ≤ s := div_nonneg (by linarith) hk'.le
    -- one sample above the others
    set u := b - s / r with eu
    set w := b + s * r with ew
    have hl : window p (List.replicate (p - 1) u ++ [w]) = w :: List.replicate (p - 1) u := by
      rw [window, List.reverse_append, List.take_of_length_le (by simp; omega)]
      simp
    have ha : avg (w :: List.replicate (p - 1) u) = b := by
      simp only [avg, List.sum_cons, List.sum_replicate, List.length_cons, List.length_replicate, nsmul_eq_mul]
      push_cast
      rw [← eq, div_eq_iff (by positivity), eu, ew]
      have : q * (s / r) = s * r := by rw [← hr2]; field_simp
      linear_combination -this
    have hv : stdDev (w :: List.replicate (p - 1) u) = s := by
      have e : w - u = s * (q + 1) / r := by rw [eu, ew, ← hr2]; field_simp; ring
      rw [stdDev, variance_one_replicate, ← eq, e, div_pow, hr2, show q / (q + 1) ^ 2 * ((s * (q + 1)) ^ 2 / q) = s ^ 2 by field_simp]
      exact Real.sqrt_sq hs
    refine ⟨List.replicate (p - 1) u ++ [w], by simp, ?_⟩
    have hm : movingAvgK p (List.replicate (p - 1) u ++ [w]) = b := by rw [movingAvgK, if_neg (by simp; omega), hl, ha]
    have hd : movingStdR p (List.replicate (p - 1) u ++ [w]) = s := by rw [movingStdR, if_neg (by simp; omega), hl, hv]
    have hsk : s * k = b - a := by rw [es]; field_simp
    rw [hm, hd, hsk]
    simp only [Prod.mk.injEq, true_and]
    exact ⟨by ring, by linarith⟩
example := (C97_bollinger (p := 2) (by norm_num) (k := 2) (by norm_num) 1 4 7).2 ⟨by norm_num, by norm_num⟩

/-- **C97 Zero crossover** outputs exactly -1, 0 and 1. -/
theorem C97_zero_crossover (v : Int) : CanOutput (ZeroCrossoverSignal : Operator (XR K)) numbers vIBuf v ↔ v = -1 ∨ v = 0 ∨ v = 1 := by
  rw [show (numbers : List K → Val (XR K)) = finSeries from rfl, zc_reals.can fun _ _ => vIBuf_inj]
  constructor
  · rintro ⟨xs, -, rfl⟩
    rw [turnAt, sgn]
    split_ifs <;> simp
  · rintro (rfl | rfl | rfl)
    · exact ⟨[1, -1], by simp, by simp [turnAt, lastSign, sgn]⟩
    · exact ⟨[1], by simp, by simp [turnAt]⟩
    · exact ⟨[-1, 1], by simp, by simp [turnAt, lastSign, sgn]⟩
example := (C97_zero_crossover (K := ℚ) (-1)).2 (.inl rfl)

end TS
