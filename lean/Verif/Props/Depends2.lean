import Verif.Props.Depends
import Verif.Props.Between
import Verif.Props.SupertrendFails
/-
C104, more operators: crossovers, bands, ranges and ratios.
-/
namespace TS

section
variable {K : Type} [Field K] [LinearOrder K] [IsStrictOrderedRing K] [Transc K] [FloorRing K]

omit [LinearOrder K] [IsStrictOrderedRing K] [Transc K] [FloorRing K] in
theorem movingAvgK_set {p i j : Nat} {l : List K} (hl : l.length = j + 1) (hij : i ≤ j) (h : j + 1 < p ∨ i + p ≤ j) (a : K) : movingAvgK p (l.set i a) = movingAvgK p l := by
  rw [movingAvgK, movingAvgK, List.length_set]
  split
  · rfl
  · rw [window_set hl hij, if_neg (by omega)]

omit [LinearOrder K] [IsStrictOrderedRing K] [Transc K] [FloorRing K] in
theorem movingAvgK_impulse {p i j : Nat} (hij : i ≤ j) (hp : p ≤ j + 1) : movingAvgK p ((List.replicate (j + 1) (0 : K)).set i 1) = if j < i + p then 1 / (p : K) else 0 := by
  rw [movingAvgK, List.length_set, if_neg (by simp; omega), window_set (j := j) (by simp) hij, window_zeros]
  split
  · rw [avg, sum_impulse (by omega), List.length_set, List.length_replicate, min_eq_left hp]
  · simp [avg]

omit [LinearOrder K] [IsStrictOrderedRing K] [Transc K] [FloorRing K] in
theorem movingAvgK_zeros (p j : Nat) : movingAvgK p (List.replicate (j + 1) (0 : K)) = 0 := by
  rw [movingAvgK]
  split
  · rfl
  · rw [window_zeros]; simp [avg]

/-- **C104 SimpleMovingAverageCrossover**, the fast period below the slow one: the samples in the full slow window. -/
theorem C104_sma_crossover {slow fast : Nat} (hf : 0 < fast) (h : fast < slow) (i j : Nat) :
    Depends (SMACrossover (slow : Int) fast : Operator (XR K)) numbers numbers i j ↔ slow ≤ j + 1 ∧ i ≤ j ∧ j < i + slow := by
  rw [show (numbers : List K → Val (XR K)) = finSeries from rfl, (crossover_reals (by omega) hf).depends_iff fun _ _ => finSeries_inj]
  constructor
  · rintro ⟨hij, l, a, hl, hne⟩
    by_contra hc
    rw [smaDiffK, smaDiffK, List.length_set, movingAvgK_set (p := slow) hl hij (by omega)] at hne
    by_cases hs : l.length < slow
    · rw [if_pos hs, if_pos hs] at hne; exact hne rfl
    · rw [movingAvgK_set (p := fast) hl hij (by omega)] at hne; exact hne rfl
  · rintro ⟨hs, hij, hw⟩
    refine ⟨hij, List.replicate (j + 1) 0, 1, by simp, ?_⟩
    have hs' : (0 : K) < slow := by exact_mod_cast (by omega : 0 < slow)
    have hf' : (0 : K) < fast := by exact_mod_cast hf
    have hsf : (fast : K) < slow := by exact_mod_cast h
    have h1 : (1 : K) / slow < 1 / fast := one_div_lt_one_div_of_lt hf' hsf
    have h2 : (0 : K) < 1 / slow := by positivity
    rw [smaDiffK, smaDiffK, List.length_set, List.length_replicate, if_neg (by omega), if_neg (by omega), movingAvgK_zeros, movingAvgK_zeros, movingAvgK_impulse hij hs, movingAvgK_impulse hij (by omega), if_pos hw]
    split <;> · intro h; linarith

example : Depends (SMACrossover 3 2 : Operator (XR ℚ)) numbers numbers 3 5 ∧ ¬ Depends (SMACrossover 3 2 : Operator (XR ℚ)) numbers numbers 2 5 :=
  ⟨(C104_sma_crossover (slow := 3) (fast := 2) (by decide) (by decide) 3 5).2 (by decide), fun h => absurd ((C104_sma_crossover (slow := 3) (fast := 2) (by decide) (by decide) 2 5).1 h) (by decide)⟩

/-- **C104 AverageTrueRange**: all candles so far, if the period is not 1, else the last two. -/
theorem C104_atr {p : Nat} (hp : 0 < p) (i j : Nat) : Depends (ATR (p : Int) : Operator (XR K)) finCandles numbers i j ↔ p ≤ j + 1 ∧ i ≤ j ∧ (p = 1 → i = j ∨ i + 1 = j) := by
  rw [show (numbers : List K → Val (XR K)) = finSeries from rfl, (atr_reals hp).depends_iff fun _ _ => finSeries_inj]
  have hp' : (0 : K) < p := by exact_mod_cast hp
  constructor
  · rintro ⟨hij, l, a, hl, hne⟩
    refine ⟨?_, hij, ?_⟩
    · by_contra hpj
      rw [atrK, atrK, rec_full _ (by simp; omega), rec_full _ (by simp; omega), movingAvgK, movingAvgK, if_pos (by simp; omega), if_pos (by simp; omega)] at hne
      exact hne rfl
    · rintro rfl
      by_contra hc
      obtain ⟨l, x, rfl⟩ : ∃ k b, l = k ++ [b] := ⟨_, _, (List.dropLast_append_getLast (by rw [← List.length_pos_iff]; omega)).symm⟩
      rw [List.length_append, List.length_singleton] at hl
      obtain ⟨l, y, rfl⟩ : ∃ k b, l = k ++ [b] := ⟨_, _, (List.dropLast_append_getLast (by rw [← List.length_pos_iff]; omega)).symm⟩
      rw [List.length_append, List.length_singleton] at hl
      rw [List.set_append_left _ _ (by simp; omega), List.set_append_left _ _ (by omega), atrK, atrK, trueRangesK_snoc, trueRangesK_snoc (l ++ [y]), rec_snoc _ (by simp), rec_snoc _ (by simp)] at hne
      simp [lastCloseK] at hne
  · rintro ⟨hpj, hij, h⟩
    refine ⟨hij, ?_⟩
    have hz : ∀ n, trueRangesK (List.replicate n (⟨0, 0, 0⟩ : CLH K)) = List.replicate n 0 := by
      intro n
      induction n with
      | zero => rfl
      | succ n ih =>
        rw [List.replicate_succ', trueRangesK_snoc, ih, List.replicate_succ']
        congr 2
        cases n with
        | zero => simp [trueRangeK, lastCloseK]
        | succ n => rw [List.replicate_succ']; simp [trueRangeK, lastCloseK]
    by_cases hc : p = 1 ∧ i + 1 = j
    · obtain ⟨rfl, rfl⟩ := hc
      refine ⟨List.replicate i ⟨0, 0, 0⟩ ++ [⟨0, 0, 0⟩] ++ [⟨0, 0, 0⟩], ⟨1, 0, 0⟩, by simp, ?_⟩
      rw [List.set_append_left _ _ (by simp), List.set_append_right _ _ (by simp), atrK, atrK, trueRangesK_snoc, trueRangesK_snoc (_ ++ [_]), rec_snoc _ (by simp), rec_snoc _ (by simp)]
      simp [lastCloseK, trueRangeK]
    · refine ⟨List.replicate (j + 1) ⟨0, 0, 0⟩, ⟨0, 0, 1⟩, by simp, ?_⟩
      have e : trueRangesK ((List.replicate (j + 1) (⟨0, 0, 0⟩ : CLH K)).set i ⟨0, 0, 1⟩) = (List.replicate (j + 1) 0).set i 1 := by
        have hcl : ((List.replicate (j + 1) (⟨0, 0, 0⟩ : CLH K)).set i ⟨0, 0, 1⟩).map CLH.close = List.replicate (j + 1) 0 := by
          rw [List.map_set, List.map_replicate]
          exact List.set_replicate_self
        rw [trueRangesK, hcl, ← List.replicate_succ]
        refine List.ext_getElem (by simp) fun k h1 h2 => ?_
        rw [List.getElem_zipWith, List.getElem_replicate, List.getElem_set, List.getElem_set, List.getElem_replicate, List.getElem_replicate]
        split <;> simp [trueRangeK]
      rw [atrK, atrK, e, hz, rec_zeros]
      refine (rec_moves hp (by positivity) i j hpj hij ?_).ne'
      by_cases hp1 : p = 1
      · exact .inr (by have := h hp1; tauto)
      · left
        rw [div_lt_one hp']
        exact_mod_cast (by omega : 1 < p)

example : Depends (ATR 3 : Operator (XR ℚ)) finCandles numbers 0 9 ∧ Depends (ATR 1 : Operator (XR ℚ)) finCandles numbers 8 9 ∧ ¬ Depends (ATR 1 : Operator (XR ℚ)) finCandles numbers 7 9 :=
  ⟨(C104_atr (p := 3) (by decide) 0 9).2 (by decide), (C104_atr (p := 1) (by decide) 8 9).2 (by decide), fun h => absurd ((C104_atr (p := 1) (by decide) 7 9).1 h) (by decide)⟩
end

/-- **C104 BollingerBands**: the samples in the full window. -/
theorem C104_bollinger {p : Nat} (hp : 0 < p) (k : ℚ) (i j : Nat) : Depends (BollingerBands (p : Int) k : Operator (XR ℝ)) numbers finSeries3 i j ↔ p ≤ j + 1 ∧ i ≤ j ∧ j < i + p := by
  rw [show (numbers : List ℝ → Val (XR ℝ)) = finSeries from rfl, (bollinger_reals hp k).depends_iff fun _ _ => finSeries3_inj]
  constructor
  · rintro ⟨hij, l, a, hl, hne⟩
    by_contra hc
    have e1 : movingAvgK p (l.set i a) = movingAvgK p l := by
      rw [movingAvgK, movingAvgK, List.length_set]
      split
      · rfl
      · rw [window_set hl hij, if_neg (by omega)]
    have e2 : movingStdR p (l.set i a) = movingStdR p l := by
      rw [movingStdR, movingStdR, List.length_set]
      split
      · rfl
      · rw [window_set hl hij, if_neg (by omega)]
    rw [e1, e2] at hne
    exact hne rfl
  · intro h
    have := (C104_sma (K := ℝ) hp i j).2 h
    rw [show (numbers : List ℝ → Val (XR ℝ)) = finSeries from rfl, (sma_reals hp).depends_iff fun _ _ => finSeries_inj] at this
    obtain ⟨h1, l, a, h2, h3⟩ := this
    exact ⟨h1, l, a, h2, fun e => h3 (Prod.mk.inj (Prod.mk.inj e).2).1⟩

example : Depends (BollingerBands 3 2 : Operator (XR ℝ)) numbers finSeries3 3 5 ∧ ¬ Depends (BollingerBands 3 2 : Operator (XR ℝ)) numbers finSeries3 2 5 :=
  ⟨(C104_bollinger (p := 3) (by decide) 2 3 5).2 (by decide), fun h => absurd ((C104_bollinger (p := 3) (by decide) 2 2 5).1 h) (by decide)⟩

/-- **C104 SharpeRatio**: the samples in the window, if there are at least two. -/
theorem C104_sharpe {p : Nat} (hp : 0 < p) (i j : Nat) : Depends (SharpeRatio (p : Int) : Operator (XR ℝ)) pairs numbers i j ↔ 2 ≤ p ∧ 1 ≤ j ∧ i ≤ j ∧ j < i + p := by
  rw [show (numbers : List ℝ → Val (XR ℝ)) = finSeries from rfl, show pairs = finPairs from rfl, (sharpe_reals hp).depends_iff fun _ _ => finSeries_inj]
  have e : ∀ (l : List (ℝ × ℝ)) (a : ℝ × ℝ), (l.set i a).map (fun z => z.1 - z.2) = (l.map fun z => z.1 - z.2).set i (a.1 - a.2) := fun l a => by rw [List.map_set]
  constructor
  · rintro ⟨hij, l, a, hl, hne⟩
    by_contra hc
    by_cases hw : j < i + p
    · have h0 : ∀ l : List (ℝ × ℝ), l.length = j + 1 → sharpeR p l = 0 := by
        intro l hl
        have hl1 : (window p (l.map fun z => z.1 - z.2)).length = 1 := by rw [window_length, List.length_map]; omega
        obtain ⟨x, hx⟩ := List.length_eq_one_iff.1 hl1
        simp [sharpeR, hx, stdDev, variance, avg]
      exact hne (by rw [h0 _ (by simpa using hl), h0 _ hl])
    · rw [sharpeR, sharpeR, e, window_set (j := j) (by simpa using hl) hij, if_neg hw] at hne; exact hne rfl
  · rintro ⟨h3, h2, hij, hw⟩
    refine ⟨hij, List.replicate (j + 1) (0, 0), (1, 0), by simp, ?_⟩
    have hz : ∀ x ∈ List.replicate (min p (j + 1)) (0 : ℝ), x = 0 := fun x hx => (List.mem_replicate.1 hx).2
    have h0 : stdDev (List.replicate (min p (j + 1)) (0 : ℝ)) = 0 := by
      rw [stdDev, Real.sqrt_eq_zero (variance_nonneg _), variance_eq_zero]
      intro x hx y hy
      rw [hz x hx, hz y hy]
    have h1 : stdDev ((List.replicate (min p (j + 1)) (0 : ℝ)).set (j - i) 1) ≠ 0 := by
      rw [stdDev, Ne, Real.sqrt_eq_zero (variance_nonneg _), variance_eq_zero]
      intro h
      have m1 : (1 : ℝ) ∈ (List.replicate (min p (j + 1)) (0 : ℝ)).set (j - i) 1 := List.mem_set (by simp; omega) 1
      have m2 : (0 : ℝ) ∈ (List.replicate (min p (j + 1)) (0 : ℝ)).set (j - i) 1 := by
        refine List.mem_iff_getElem.2 ⟨if j - i = 0 then 1 else 0, by simp; split <;> omega, ?_⟩
        rw [List.getElem_set, if_neg (by split <;> omega), List.getElem_replicate]
      exact one_ne_zero (h _ m1 _ m2)
    have ha : avg ((List.replicate (min p (j + 1)) (0 : ℝ)).set (j - i) 1) ≠ 0 := by
      have h4 : (0 : ℝ) < ((min p (j + 1) : ℕ) : ℝ) := by exact_mod_cast (by omega : 0 < min p (j + 1))
      rw [avg, sum_impulse (by omega), List.length_set, List.length_replicate]
      exact (one_div_pos.2 h4).ne'
    rw [sharpeR, sharpeR, e, List.map_replicate]
    simp only [sub_zero]
    rw [window_set (j := j) (by simp) hij, if_pos hw, window_zeros, if_pos h0, if_neg h1]
    exact div_ne_zero ha h1

example : Depends (SharpeRatio 3 : Operator (XR ℝ)) pairs numbers 3 5 ∧ ¬ Depends (SharpeRatio 1 : Operator (XR ℝ)) pairs numbers 5 5 :=
  ⟨(C104_sharpe (p := 3) (by decide) 3 5).2 (by decide), fun h => absurd ((C104_sharpe (p := 1) (by decide) 5 5).1 h) (by decide)⟩

theorem corrOf_window {p : Nat} {l : List (ℝ × ℝ)} : corrOf p (l.map (Prod.map XR.fin XR.fin)) =
    if l.length ≤ p then XR.fin 0 else (pearson (((window p l).map Prod.fst).map XR.fin) (((window p l).map Prod.snd).map XR.fin) : XR ℝ) := by
  rw [corrOf, List.length_map]
  split
  · simp
  · simp [← window_map, Function.comp_def]

theorem varies_impulse {m k : Nat} (hm : 2 ≤ m) (hk : k < m) : Varies ((List.replicate m (0 : ℝ)).set k 1) := by
  rw [varies_iff, Ne, variance_eq_zero]
  intro h
  have m1 : (1 : ℝ) ∈ (List.replicate m (0 : ℝ)).set k 1 := List.mem_set (by simpa using hk) 1
  have m2 : (0 : ℝ) ∈ (List.replicate m (0 : ℝ)).set k 1 := by
    refine List.mem_iff_getElem.2 ⟨if k = 0 then 1 else 0, by simp; split <;> omega, ?_⟩
    rw [List.getElem_set, if_neg (by split <;> omega), List.getElem_replicate]
  exact one_ne_zero (h _ m1 _ m2)

/-- **C104 Correlation**: the pairs in the full window, from index `p` on, if the period is not 1. -/
theorem C104_correlation {p : Nat} (hp : 0 < p) (i j : Nat) : Depends (Correlation (p : Int) : Operator (XR ℝ)) pairs vSBuf i j ↔ 2 ≤ p ∧ p ≤ j ∧ i ≤ j ∧ j < i + p := by
  rw [(corr_pairs_reals hp).depends_iff fun _ _ => vSBuf_inj]
  constructor
  · rintro ⟨hij, l, a, hl, hne⟩
    by_contra hc
    rw [corrOf_window, corrOf_window, List.length_set] at hne
    by_cases hpj : p ≤ j
    · rw [if_neg (by omega), if_neg (by omega)] at hne
      by_cases hw : j < i + p
      · have h0 : ∀ l : List (ℝ × ℝ), l.length = j + 1 → (pearson (((window p l).map Prod.fst).map XR.fin) (((window p l).map Prod.snd).map XR.fin) : XR ℝ) = XR.nan := by
          intro l hl
          have hl1 : (window p l).length = 1 := by rw [window_length]; omega
          obtain ⟨x, hx⟩ := List.length_eq_one_iff.1 hl1
          rw [hx]
          refine pearson_constant (by simp) fun h => ?_
          have := (varies_iff _).1 h.1
          simp [variance, avg] at this
        exact hne (by rw [h0 _ (by simpa using hl), h0 _ hl])
      · rw [window_set hl hij, if_neg hw] at hne; exact hne rfl
    · rw [if_pos (by omega), if_pos (by omega)] at hne; exact hne rfl
  · rintro ⟨h2, hpj, hij, hw⟩
    refine ⟨hij, List.replicate (j + 1) (0, 0), (1, 1), by simp, ?_⟩
    have hwz : window p (List.replicate (j + 1) ((0, 0) : ℝ × ℝ)) = List.replicate p (0, 0) := by
      rw [window, List.reverse_replicate, List.take_replicate, min_eq_left (by omega)]
    rw [corrOf_window, corrOf_window, List.length_set, List.length_replicate, if_neg (by omega), if_neg (by omega), window_set (j := j) (by simp) hij, if_pos hw, hwz]
    have hv := varies_impulse h2 (show j - i < p by omega)
    rw [pearson_varies (by simpa [List.map_set] using hv) (by simpa [List.map_set] using hv), pearson_constant (by simp; omega)]
    · simp
    · rintro ⟨h, -⟩
      refine (varies_iff _).1 h (variance_eq_zero.2 fun x hx y hy => ?_)
      rw [List.map_replicate] at hx hy
      rw [(List.mem_replicate.1 hx).2, (List.mem_replicate.1 hy).2]

example : Depends (Correlation 3 : Operator (XR ℝ)) pairs vSBuf 3 5 ∧ ¬ Depends (Correlation 3 : Operator (XR ℝ)) pairs vSBuf 2 2 :=
  ⟨(C104_correlation (p := 3) (by decide) 3 5).2 (by decide), fun h => absurd ((C104_correlation (p := 3) (by decide) 2 2).1 h) (by decide)⟩
end TS
