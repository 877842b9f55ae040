import Verif.Props.Bands
/-
C44: for which periods and factors Supertrend can fail.
-/
namespace TS
open PyVal
variable {K : Type} [Field K] [LinearOrder K] [IsStrictOrderedRing K] [Transc K] [FloorRing K]

/-! ### The average true range, candle by candle -/

theorem trueRangesK_snoc (l : List (CLH K)) (x : CLH K) : trueRangesK (l ++ [x]) = trueRangesK l ++ [trueRangeK (lastCloseK l) x.low x.high] := by
  have h := trueRangesK_take (l ++ [x]) l.length
  rw [List.take_left] at h
  have hl : l.length < (trueRangesK (l ++ [x])).length := by simp
  have e := List.take_succ_eq_append_getElem hl
  rw [List.take_of_length_le (by simp), ← h, trueRangesK_getElem _ _ (by simp)] at e
  rw [e]
  have := lastCloseK_take (xs := l ++ [x]) (i := l.length) (by simp)
  rw [List.take_left] at this
  rw [this]
  simp

theorem atrK_cold {p : Nat} {l : List (CLH K)} (h : l.length < p) : atrK p l = 0 := by
  rw [atrK, recursiveAvgK, List.drop_eq_nil_of_le (by simp; omega), List.foldl_nil, movingAvgK, if_pos (by simp; omega)]

theorem atrK_snoc {p : Nat} {l : List (CLH K)} (h : p ≤ l.length) (x : CLH K) :
    atrK p (l ++ [x]) = atrK p l + 1 / (p : K) * (trueRangeK (lastCloseK l) x.low x.high - atrK p l) := by
  rw [atrK, trueRangesK_snoc, recursiveAvgK, List.drop_append_of_le_length (by simpa using h), List.take_append_of_le_length (by simpa using h), List.foldl_append]
  rfl

theorem atrK_first {p : Nat} (hp : 0 < p) {l : List (CLH K)} (h : l.length = p) : atrK p l = (trueRangesK l).sum / p := by
  rw [atrK, recursiveAvgK, List.drop_eq_nil_of_le (by simp; omega), List.foldl_nil, List.take_of_length_le (by simp; omega), movingAvgK, if_neg (by simp; omega), avg,
    window, List.take_of_length_le (by simp; omega), List.sum_reverse, List.length_reverse, trueRangesK_length, h]

/-- The average true range is at least the last true range over the period. -/
theorem atrK_ge {p : Nat} (hp : 0 < p) {l : List (CLH K)} {x : CLH K} (h : p ≤ l.length + 1) : trueRangeK (lastCloseK l) x.low x.high ≤ p * atrK p (l ++ [x]) := by
  have hp' : (0 : K) < p := by exact_mod_cast hp
  rcases Nat.lt_or_ge l.length p with hl | hl
  · rw [atrK_first hp (by simp; omega), trueRangesK_snoc, List.sum_append, mul_div_cancel₀ _ hp'.ne']
    have : 0 ≤ (trueRangesK l).sum := List.sum_nonneg fun t ht => by
      obtain ⟨i, hi, rfl⟩ := List.mem_iff_getElem.1 ht
      rw [trueRangesK_getElem _ _ (by simpa using hi)]
      exact trueRangeK_nonneg _ _ _
    simpa using this
  · rw [atrK_snoc hl]
    have h1 := atrK_nonneg hp l
    have h2 : (1 : K) ≤ p := by exact_mod_cast hp
    have : (p : K) * (atrK p l + 1 / (p : K) * (trueRangeK (lastCloseK l) x.low x.high - atrK p l)) = (p - 1) * atrK p l + trueRangeK (lastCloseK l) x.low x.high := by
      field_simp
      ring
    rw [this]
    have := mul_nonneg (sub_nonneg.2 h2) h1
    linarith

/-- a candle with positive prices, the close between the lowest and the highest -/
def IsCandle (x : CLH K) : Prop := 0 < x.low ∧ x.low ≤ x.close ∧ x.close ≤ x.high

theorem supertrend_never_fails {p : Nat} (hp : 0 < p) {factor : ℚ} (hf : (p : ℚ) ≤ factor) {xs : List (CLH K)} (hx : xs ≠ []) (hc : ∀ x ∈ xs, IsCandle x) :
    ∃ r, call (Supertrend (p : Int) factor) (finCandles xs) none = .ok r := by
  obtain ⟨sf, s0, ha⟩ := (atr_reals (K := K) hp).at' hx
  refine C44_small_gaps hp (le_trans (by positivity) hf) hx ha fun i h0 hi a hai hne => ?_
  rw [List.getElem?_eq_getElem (by simpa using hi), scan_getElem, List.nil_append, Option.some.injEq, List.take_succ_eq_append_getElem hi] at hai
  have hlen : (xs.take i).length = i := by simp; omega
  have hpi : p ≤ (xs.take i).length + 1 := by
    by_contra h
    exact hne (by rw [← hai]; exact atrK_cold (by simp; omega))
  have hge := atrK_ge hp (x := xs[i]) hpi
  rw [hai, lastCloseK_take hi.le] at hge
  have hpos : 0 < closeBefore xs i := by
    rw [closeBefore, if_neg (by omega), List.getElem?_eq_getElem (by omega)]
    have := hc _ (List.getElem_mem (l := xs) (n := i - 1) (by omega))
    exact lt_of_lt_of_le this.1 this.2.1
  rw [trueRangeK, if_neg hpos.ne'] at hge
  have hf' : (p : K) ≤ factor := by exact_mod_cast hf
  have hge' : (p : K) * a ≤ factor * a := mul_le_mul_of_nonneg_right hf' (by rw [← hai]; exact atrK_nonneg hp _)
  revert hge hge'
  generalize closeBefore xs i = c
  generalize xs[i].high = h
  generalize xs[i].low = l
  intro hge hge'
  have h1 : |h - c| ≤ max (h - l) (max |h - c| |l - c|) := le_trans (le_max_left _ _) (le_max_right _ _)
  have h2 : |l - c| ≤ max (h - l) (max |h - c| |l - c|) := le_trans (le_max_right _ _) (le_max_right _ _)
  generalize max (h - l) (max |h - c| |l - c|) = t at h1 h2 hge
  rw [abs_le] at h1 h2 ⊢
  constructor <;> linarith

/-! ### Failing series -/

theorem lastCloseK_replicate {n : Nat} (hn : 0 < n) (x : CLH K) : lastCloseK (List.replicate n x) = x.close := by
  obtain ⟨n, rfl⟩ : ∃ m, n = m + 1 := ⟨n - 1, by omega⟩
  rw [List.replicate_succ', lastCloseK, List.map_append, List.map_cons, List.map_nil, getLastD_snoc]

/-- a candle whose range does not depend on whether it is the first one -/
def Plain (x : CLH K) (t : K) : Prop := 0 < t ∧ trueRangeK 0 x.low x.high = t ∧ trueRangeK x.close x.low x.high = t

theorem trueRangesK_replicate {x : CLH K} {t : K} (hx : Plain x t) (n : Nat) : trueRangesK (List.replicate n x) = List.replicate n t := by
  induction n with
  | zero => rfl
  | succ n ih =>
    rw [List.replicate_succ', trueRangesK_snoc, ih, List.replicate_succ']
    congr 2
    rcases Nat.eq_zero_or_pos n with rfl | hn
    · exact hx.2.1
    · rw [lastCloseK_replicate hn]; exact hx.2.2

theorem atrK_replicate {p : Nat} (hp : 0 < p) {x : CLH K} {t : K} (hx : Plain x t) : atrK p (List.replicate p x) = t := by
  have hp' : (p : K) ≠ 0 := by exact_mod_cast hp.ne'
  rw [atrK_first hp (by simp), trueRangesK_replicate hx, List.sum_replicate, nsmul_eq_mul, mul_div_cancel_left₀ _ hp']

theorem bandsOfK_cold {p : Nat} {factor : K} {x : CLH K} {n : Nat} (hn : n < p) : bandsOfK p factor (List.replicate n x) = some ⟨0, 0, 0, 0⟩ := by
  induction n with
  | zero => rfl
  | succ n ih =>
    rw [List.replicate_succ', bandsOfK_snoc, ih (by omega), Option.bind_some, bandsStepK, if_pos]
    exact atrK_cold (by simp; omega)

/-- the bands after the first full period of equal candles -/
theorem bandsOfK_first {p : Nat} (hp : 0 < p) {factor : K} {x : CLH K} {t : K} (hx : Plain x t) (hc : 0 < x.close) :
    ∃ b, bandsOfK p factor (List.replicate p x) = some b ∧ b.upper = (x.high + x.low) / 2 + factor * t ∧ (x.high + x.low) / 2 - factor * t ≤ b.lower ∧
      b.lower ≤ max ((x.high + x.low) / 2 - factor * t) 0 := by
  have ht : t ≠ 0 := hx.1.ne'
  have e := atrK_replicate hp hx
  obtain ⟨n, rfl⟩ : ∃ m, p = m + 1 := ⟨p - 1, by omega⟩
  have hlast : (0 : K) ≤ lastCloseK (List.replicate n x) := by
    rcases Nat.eq_zero_or_pos n with rfl | hn
    · exact le_refl _
    · rw [lastCloseK_replicate hn]; exact hc.le
  rw [List.replicate_succ'] at e ⊢
  rw [bandsOfK_snoc, bandsOfK_cold (by omega), Option.bind_some, e, bandsStepK, if_neg ht]
  dsimp only
  rw [if_neg (fun h => absurd (h.1.trans h.2) (lt_irrefl _))]
  refine ⟨_, rfl, ?_, ?_, ?_⟩
  · dsimp only
    rw [if_neg (not_lt.2 hlast)]
  · dsimp only
    split
    · exact le_max_left _ _
    · exact le_refl _
  · dsimp only
    split
    · exact le_refl _
    · exact le_max_left _ _

theorem supertrend_failing {p : Nat} (hp : 0 < p) {factor : ℚ} {xs : List (CLH K)} (hx : xs ≠ []) (h : bandsOfK p (factor : K) xs = none) :
    ¬ ∃ r, call (Supertrend (p : Int) factor) (finCandles xs) none = .ok r := by
  intro hr
  have := (C45_supertrend_streams (α := XR K) hp factor (xs := xs.map (CLH.map XR.fin)) (by simpa using hx)).1.1 hr xs.length (List.length_pos_iff.2 hx) (by simp)
  rw [← List.map_take, bandsOf_fin hp, Option.isSome_map, List.take_length, h] at this
  exact absurd this (by simp)

theorem bandsStepK_clash {factor : K} {b : Bands K} {prev atr : K} {x : CLH K} (ha : atr ≠ 0) (h1 : b.upper < x.close) (h2 : x.close < b.lower) :
    bandsStepK factor b prev atr x = none := by
  rw [bandsStepK, if_neg ha]
  dsimp only
  rw [if_pos ⟨h1, h2⟩]

theorem supertrend_can_fail {p : Nat} (hp : 0 < p) {factor : ℚ} (hf : factor < p) :
    ∃ xs : List (CLH K), xs ≠ [] ∧ (∀ x ∈ xs, IsCandle x) ∧ ¬ ∃ r, call (Supertrend (p : Int) factor) (finCandles xs) none = .ok r := by
  have hp' : (0 : K) < p := by exact_mod_cast hp
  have hfK : (factor : K) < p := by exact_mod_cast hf
  rcases lt_or_ge factor 0 with h0 | h0
  · have h0K : (factor : K) < 0 := by exact_mod_cast h0
    have hx : Plain (⟨3, 2, 4⟩ : CLH K) 2 := ⟨by norm_num, by norm_num [trueRangeK], by
      rw [trueRangeK, if_neg (by norm_num)]; norm_num⟩
    obtain ⟨b, hb, hu, hl, -⟩ := bandsOfK_first (factor := (factor : K)) hp hx (by norm_num)
    refine ⟨List.replicate p ⟨3, 2, 4⟩ ++ [⟨3, 2, 4⟩], by simp, fun x hx => ?_, supertrend_failing hp (by simp) ?_⟩
    · have : x = ⟨3, 2, 4⟩ := by
        rcases List.mem_append.1 hx with h | h
        · exact List.eq_of_mem_replicate h
        · simpa using h
      subst this
      exact ⟨by norm_num, by norm_num, by norm_num⟩
    · rw [bandsOfK_snoc, hb, Option.bind_some]
      refine bandsStepK_clash ?_ ?_ ?_
      · rw [atrK_snoc (by simp), atrK_replicate hp hx, lastCloseK_replicate hp, hx.2.2]; norm_num
      · rw [hu]; dsimp only; linarith
      · refine lt_of_lt_of_le ?_ hl; dsimp only; linarith
  · have h0K : (0 : K) ≤ factor := by exact_mod_cast h0
    generalize hF : (factor : K) = f at *
    have hd : 0 < 1 - f / p := by rw [sub_pos, div_lt_one hp']; exact hfK
    have hx : Plain (⟨1, 1, 3⟩ : CLH K) 2 := ⟨by norm_num, by norm_num [trueRangeK], by
      rw [trueRangeK, if_neg (by norm_num)]; norm_num⟩
    obtain ⟨b, hb, hu, -, hl⟩ := bandsOfK_first (factor := f) hp hx (by norm_num)
    have hJ : ∃ J : K, 2 + 4 * f = J * (1 - f / p) := ⟨(2 + 4 * f) / (1 - f / p), by field_simp⟩
    obtain ⟨J, hJ⟩ := hJ
    have hJ2 : 2 + 4 * f ≤ J := by
      have h1 : 1 - f / p ≤ 1 := by have := div_nonneg h0K hp'.le; linarith
      have h2 : 0 < J := by
        by_contra h
        have := mul_nonpos_of_nonpos_of_nonneg (not_lt.1 h) hd.le
        linarith
      have := mul_le_mul_of_nonneg_left h1 h2.le
      linarith
    set y : CLH K := ⟨1 + J, 1 + J, 1 + J⟩ with hy
    set z : CLH K := ⟨5 / 2 + 2 * f, 5 / 2 + 2 * f, 5 / 2 + 2 * f⟩ with hz
    have tr_y : trueRangeK 1 (1 + J) (1 + J) = J := by
      rw [trueRangeK, if_neg one_ne_zero, sub_self, max_self, show (1 : K) + J - 1 = J by ring, abs_of_nonneg (by linarith), max_eq_right (by linarith)]
    have last_y : lastCloseK (List.replicate p (⟨1, 1, 3⟩ : CLH K) ++ [y]) = 1 + J := by
      rw [lastCloseK, List.map_append, List.map_cons, List.map_nil, getLastD_snoc]
    have atr_y : atrK p (List.replicate p ⟨1, 1, 3⟩ ++ [y]) = 2 + 1 / p * (J - 2) := by
      rw [atrK_snoc (by simp), atrK_replicate hp hx, lastCloseK_replicate hp, hy]
      dsimp only
      rw [tr_y]
    have hinv : 0 ≤ 1 / (p : K) := by positivity
    have hpJ : 0 ≤ 1 / (p : K) * (J - 2) := mul_nonneg hinv (by linarith)
    have hstep : ∃ b', bandsOfK p f (List.replicate p ⟨1, 1, 3⟩ ++ [y]) = some b' ∧ b'.upper ≤ 2 + 2 * f ∧ 3 + 2 * f ≤ b'.lower := by
      rw [bandsOfK_snoc, hb, Option.bind_some, atr_y, lastCloseK_replicate hp, bandsStepK, if_neg (by linarith)]
      dsimp only at hu hl ⊢
      have hlow : b.lower ≤ 2 := hl.trans (max_le (by linarith) (by norm_num))
      rw [if_neg (fun h => absurd h.2 (not_lt.2 (by linarith)))]
      refine ⟨_, rfl, ?_, ?_⟩
      · dsimp only
        rw [if_pos (by rw [hu]; linarith), hu]
        exact (min_le_right _ _).trans (by linarith)
      · have e : (1 + J + (1 + J)) / 2 - f * (2 + 1 / (p : K) * (J - 2)) = 1 + J * (1 - f / p) - 2 * f + 2 * (f / p) := by
          field_simp; ring
        have : 3 + 2 * f ≤ (1 + J + (1 + J)) / 2 - f * (2 + 1 / (p : K) * (J - 2)) := by
          rw [e, ← hJ]
          have := div_nonneg h0K hp'.le
          linarith
        dsimp only
        split
        · exact this.trans (le_max_left _ _)
        · exact this
    obtain ⟨b', hb', hu', hl'⟩ := hstep
    refine ⟨List.replicate p ⟨1, 1, 3⟩ ++ [y] ++ [z], by simp, fun x hx => ?_, supertrend_failing hp (by simp) ?_⟩
    · have : x = ⟨1, 1, 3⟩ ∨ x = y ∨ x = z := by
        rcases List.mem_append.1 hx with h | h
        · rcases List.mem_append.1 h with h | h
          · exact .inl (List.eq_of_mem_replicate h)
          · exact .inr (.inl (by simpa using h))
        · exact .inr (.inr (by simpa using h))
      rcases this with rfl | rfl | rfl
      · exact ⟨by norm_num, by norm_num, by norm_num⟩
      · exact ⟨by rw [hy]; dsimp only; linarith, le_refl _, le_refl _⟩
      · exact ⟨by rw [hz]; dsimp only; linarith, le_refl _, le_refl _⟩
    · rw [hF, bandsOfK_snoc, hb', Option.bind_some]
      refine bandsStepK_clash ?_ ?_ ?_
      · intro h
        have := atrK_ge hp (l := List.replicate p ⟨1, 1, 3⟩ ++ [y]) (x := z) (by simp; omega)
        rw [h, mul_zero, last_y, trueRangeK, if_neg (by linarith)] at this
        have h1 := ((le_max_left _ _).trans (le_max_right _ _)).trans this
        rw [hz] at h1
        dsimp only at h1
        have := abs_nonpos_iff.1 h1
        linarith
      · rw [hz]; dsimp only; linarith
      · rw [hz]; dsimp only; linarith

/-- **C44 When Supertrend fails**, exact arithmetic: for every period `p > 0` and every factor, Supertrend streams without error over all series of candles with
positive prices exactly when the factor is at least the period. -/
theorem C44_supertrend_iff {p : Nat} (hp : 0 < p) (factor : ℚ) :
    (∀ xs : List (CLH K), xs ≠ [] → (∀ x ∈ xs, IsCandle x) → ∃ r, call (Supertrend (p : Int) factor) (finCandles xs) none = .ok r) ↔ (p : ℚ) ≤ factor := by
  refine ⟨fun h => ?_, fun hf xs hx hc => supertrend_never_fails hp hf hx hc⟩
  by_contra hf
  obtain ⟨xs, h1, h2, h3⟩ := supertrend_can_fail (K := K) hp (not_le.1 hf)
  exact h3 (h xs h1 h2)

example : IsCandle (⟨10, 9, 11⟩ : CLH ℚ) := by norm_num [IsCandle]
/-- With the usual parameters it can fail: ten quiet candles, a jump, and a fall back by half of it. -/
example : output (call (Supertrend 10 3) (qCandles (List.replicate 10 (1, 1, 3) ++ [(21, 21, 21)])) none) =
      .ok (series ([0, 0, 0, 0, 0, 0, 0, 0, 0] ++ [0, 48 / 5])) ∧
    output (call (Supertrend 10 3) (qCandles (List.replicate 10 (1, 1, 3) ++ [(21, 21, 21), (17 / 2, 17 / 2, 17 / 2)])) none) = .error .exclusive :=
  ⟨by decide +kernel, by decide +kernel⟩
example : ∃ xs : List (CLH ℚ), xs ≠ [] ∧ (∀ x ∈ xs, IsCandle x) ∧ ¬ ∃ r, call (Supertrend 10 3) (finCandles xs) none = .ok r :=
  supertrend_can_fail (p := 10) (by decide) (by norm_num)

end TS
