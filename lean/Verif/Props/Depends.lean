import Verif.Props.Combine
import Verif.Props.Unnoticed
import Verif.Props.Images3
/-
C104: exactly which samples an output depends on.
-/
namespace TS

section
variable {α A B : Type}

theorem StreamsAs.depends_iff {op : Operator α} {ser : List A → Val α} {outs : List B → Val α} {y : List A → B} (h : StreamsAs op ser outs y) (hinj : ∀ l m, outs l = outs m → l = m) {i j : Nat} :
    Depends op ser outs i j ↔ i ≤ j ∧ ∃ l a, l.length = j + 1 ∧ y (l.set i a) ≠ y l := by
  obtain ⟨st, h, -⟩ := h
  constructor
  · rintro ⟨xs, ys, os, os', sf, s0, sf', s0', hl, hk, h1, h2, h3⟩
    rcases eq_or_ne xs [] with rfl | hx
    · have : ys = [] := List.length_eq_zero_iff.1 hl.symm
      rw [this] at h2
      rw [h2] at h1
      have := hinj _ _ (Prod.mk.inj (Except.ok.inj h1)).1
      exact absurd (by rw [this]) h3
    have hy : ys ≠ [] := by rw [← List.length_pos_iff] at hx ⊢; omega
    rw [h xs hx] at h1
    rw [h ys hy] at h2
    have e1 := hinj _ _ (Prod.mk.inj (Except.ok.inj h1)).1
    have e2 := hinj _ _ (Prod.mk.inj (Except.ok.inj h2)).1
    subst e1 e2
    have hj : j < xs.length := by
      by_contra hj
      rw [List.getElem?_eq_none (by simp; omega), List.getElem?_eq_none (by simp; omega)] at h3
      exact h3 rfl
    rw [List.getElem?_eq_getElem (by simpa using hj), List.getElem?_eq_getElem (by simp; omega), scan_getElem, scan_getElem, List.nil_append, List.nil_append] at h3
    have hij : i ≤ j := by
      by_contra hij
      refine h3 (congrArg _ (congrArg y (List.ext_getElem? fun k => ?_)))
      rw [List.getElem?_take, List.getElem?_take]
      split
      · exact hk k (by omega)
      · rfl
    refine ⟨hij, xs.take (j + 1), ys[i], by simp; omega, fun e => h3 ?_⟩
    rw [← e]
    congr 2
    refine List.ext_getElem? fun k => ?_
    rw [List.getElem?_set, List.getElem?_take, List.getElem?_take]
    by_cases hki : i = k
    · subst hki
      rw [if_pos rfl, if_pos (by simp; omega), if_pos (by omega), List.getElem?_eq_getElem (by omega)]
    · rw [if_neg hki]
      split
      · exact hk k (Ne.symm hki)
      · rfl
  · rintro ⟨hij, l, a, hl, hy⟩
    have hne : l ≠ [] := by rw [← List.length_pos_iff]; omega
    refine ⟨l.set i a, l, _, _, _, _, _, _, by simp, fun k hk => ?_, h _ (by simpa using hne), h _ hne, ?_⟩
    · rw [List.getElem?_set_ne (Ne.symm hk)]
    · rw [List.getElem?_eq_getElem (by simp; omega), List.getElem?_eq_getElem (by simp; omega), scan_getElem, scan_getElem, List.nil_append, List.nil_append]
      rw [List.take_of_length_le (by simp; omega), List.take_of_length_le (by omega)]
      exact fun e => hy (Option.some.inj e)

theorem lagged_at {z : A} {l : List A} {p j : Nat} (hl : l.length = j + 1) : lagged z p l = if h : p ≤ j then l[j - p]'(by omega) else z := by
  have := lagged_take (z := z) (p := p) (xs := l) (i := j) (by omega)
  rwa [List.take_of_length_le (by omega)] at this

theorem last_at {z : A} {l : List A} {j : Nat} (hl : l.length = j + 1) : l.getLastD z = l[j]'(by omega) := by
  have := getLastD_take (z := z) (xs := l) (i := j) (by omega)
  rwa [List.take_of_length_le (by omega)] at this

theorem window_set {l : List A} {p i j : Nat} (hl : l.length = j + 1) (hij : i ≤ j) (a : A) : window p (l.set i a) = if j < i + p then (window p l).set (j - i) a else window p l := by
  have hg : ∀ (k : Nat) (m : List A) (hm : m.length = j + 1), (window p m)[k]? = if k < p ∧ k ≤ j then m[j - k]? else none := by
    intro k m hm
    rw [window, List.getElem?_take]
    by_cases hk : k < p
    · rw [if_pos hk]
      by_cases hkj : k ≤ j
      · rw [if_pos ⟨hk, hkj⟩, List.getElem?_reverse (by omega)]
        congr 1; omega
      · rw [if_neg (by omega), List.getElem?_eq_none (by simp; omega)]
    · rw [if_neg hk, if_neg (by omega)]
  refine List.ext_getElem? fun k => ?_
  rw [hg k _ (by simpa using hl)]
  by_cases hw : j < i + p
  · rw [if_pos hw, List.getElem?_set, List.getElem?_set, window_length, hg k l hl]
    by_cases hk : k < p ∧ k ≤ j
    · rw [if_pos hk, if_pos hk]
      by_cases hki : j - i = k
      · rw [if_pos hki, if_pos (by omega), if_pos (by omega), if_pos (by omega)]
      · rw [if_neg hki, if_neg (by omega)]
    · rw [if_neg hk, if_neg hk]
      split
      · rw [if_neg (by omega)]
      · rfl
  · rw [if_neg hw, hg k l hl]
    by_cases hk : k < p ∧ k ≤ j
    · rw [if_pos hk, if_pos hk, List.getElem?_set_ne (by omega)]
    · rw [if_neg hk, if_neg hk]
end

section
variable {K : Type} [Field K] [LinearOrder K] [IsStrictOrderedRing K] [Transc K] [FloorRing K]

omit [LinearOrder K] [IsStrictOrderedRing K] [Transc K] [FloorRing K] in
theorem window_zeros (p j : Nat) : window p (List.replicate (j + 1) (0 : K)) = List.replicate (min p (j + 1)) 0 := by
  rw [window, List.reverse_replicate, List.take_replicate]

/-- **C104 Lag**: one sample. -/
theorem C104_lag {p : Nat} (hp : 0 < p) (i j : Nat) : Depends (Lag (p : Int) : Operator (XR K)) numbers numbers i j ↔ i + p = j := by
  rw [show (numbers : List K → Val (XR K)) = finSeries from rfl, (lag_reals hp).depends_iff fun _ _ => finSeries_inj]
  constructor
  · rintro ⟨hij, l, a, hl, h⟩
    by_contra hne
    rw [lagged_at (by simpa using hl), lagged_at hl] at h
    split at h
    · rw [List.getElem_set_ne (by omega)] at h; exact h rfl
    · exact h rfl
  · rintro rfl
    refine ⟨by omega, List.replicate (i + p + 1) 0, 1, by simp, ?_⟩
    rw [lagged_at (j := i + p) (by simp), lagged_at (j := i + p) (by simp), dif_pos (by omega), dif_pos (by omega)]
    simp

example : Depends (Lag 2 : Operator (XR ℚ)) numbers numbers 3 5 ∧ ¬ Depends (Lag 2 : Operator (XR ℚ)) numbers numbers 5 5 :=
  ⟨(C104_lag (p := 2) (by decide) 3 5).2 (by decide), fun h => absurd ((C104_lag (p := 2) (by decide) 5 5).1 h) (by decide)⟩

/-- **C104 Momentum**: two samples. -/
theorem C104_momentum {p : Nat} (hp : 0 < p) (i j : Nat) : Depends (Momentum (p : Int) : Operator (XR K)) numbers numbers i j ↔ p ≤ j ∧ (i = j ∨ i + p = j) := by
  rw [show (numbers : List K → Val (XR K)) = finSeries from rfl, (momentum_reals hp).depends_iff fun _ _ => finSeries_inj]
  constructor
  · rintro ⟨hij, l, a, hl, h⟩
    by_contra hne
    rw [momentumK, momentumK, List.length_set, lagged_at (j := j) (by simpa using hl), lagged_at hl, last_at (j := j) (by simpa using hl), last_at hl] at h
    split at h
    · exact h rfl
    next hlp =>
      rw [dif_pos (by omega), dif_pos (by omega), List.getElem_set_ne (by omega), List.getElem_set_ne (by omega)] at h; exact h rfl
  · rintro ⟨hpj, h⟩
    refine ⟨by omega, List.replicate (j + 1) 0, 1, by simp, ?_⟩
    rw [momentumK, momentumK, List.length_set, lagged_at (j := j) (by simp), lagged_at (j := j) (by simp), last_at (j := j) (by simp), last_at (j := j) (by simp), if_neg (by simp; omega), if_neg (by simp; omega),
      dif_pos (by omega), dif_pos (by omega)]
    rcases h with rfl | rfl
    · rw [List.getElem_set_self, List.getElem_set_ne (by omega)]; simp
    · rw [List.getElem_set_ne (by omega)]; simp

example : Depends (Momentum 2 : Operator (XR ℚ)) numbers numbers 5 5 ∧ ¬ Depends (Momentum 2 : Operator (XR ℚ)) numbers numbers 4 5 :=
  ⟨(C104_momentum (p := 2) (by decide) 5 5).2 (by decide), fun h => absurd ((C104_momentum (p := 2) (by decide) 4 5).1 h) (by decide)⟩

/-- **C104 Return**: two samples. -/
theorem C104_return {p : Nat} (hp : 0 < p) (i j : Nat) : Depends (Return (p : Int) : Operator (XR K)) numbers numbers i j ↔ p ≤ j ∧ (i = j ∨ i + p = j) := by
  rw [show (numbers : List K → Val (XR K)) = finSeries from rfl, (return_reals hp).depends_iff fun _ _ => finSeries_inj]
  constructor
  · rintro ⟨hij, l, a, hl, h⟩
    by_contra hne
    by_cases hpj : p ≤ j
    · rw [returnK, returnK, List.length_set, lagged_at (j := j) (by simpa using hl), lagged_at hl, last_at (j := j) (by simpa using hl), last_at hl, dif_pos (by omega), dif_pos (by omega), List.getElem_set_ne (by omega), List.getElem_set_ne (by omega)] at h
      exact h rfl
    · rw [returnK, returnK, List.length_set, if_pos (by left; omega), if_pos (by left; omega)] at h
      exact h rfl
  · rintro ⟨hpj, h⟩
    refine ⟨by omega, List.replicate (j + 1) 1, 2, by simp, ?_⟩
    rw [returnK, returnK, List.length_set, lagged_at (j := j) (by simp), lagged_at (j := j) (by simp), last_at (j := j) (by simp), last_at (j := j) (by simp), dif_pos (by omega), dif_pos (by omega)]
    have hl : ¬ j + 1 ≤ p := by omega
    rcases h with rfl | rfl
    · rw [List.getElem_set_self, List.getElem_set_ne (by omega)]
      simp only [List.getElem_replicate, List.length_replicate, hl, one_ne_zero, or_self, if_false]
      norm_num
    · have e1 : ((List.replicate (i + p + 1) (1 : K)).set i 2)[i + p]'(by simp) = 1 := by rw [List.getElem_set_ne (by omega)]; simp
      have e2 : ((List.replicate (i + p + 1) (1 : K)).set i 2)[i + p - p]'(by simp) = 2 := by rw [List.getElem_set, if_pos (by omega)]
      rw [e1, e2]
      simp only [List.getElem_replicate, List.length_replicate, hl, one_ne_zero, two_ne_zero, or_self, if_false]
      norm_num

example : Depends (Return 2 : Operator (XR ℚ)) numbers numbers 3 5 ∧ ¬ Depends (Return 2 : Operator (XR ℚ)) numbers numbers 1 1 :=
  ⟨(C104_return (p := 2) (by decide) 3 5).2 (by decide), fun h => absurd ((C104_return (p := 2) (by decide) 1 1).1 h) (by decide)⟩

omit [LinearOrder K] [IsStrictOrderedRing K] [Transc K] [FloorRing K] in
theorem sum_impulse {m k : Nat} (hk : k < m) (a : K) : ((List.replicate m (0 : K)).set k a).sum = a := by
  rw [List.sum_set']; simp [hk]

/-- **C104 SimpleMovingAverage**: the samples in the full window. -/
theorem C104_sma {p : Nat} (hp : 0 < p) (i j : Nat) : Depends (SMA (p : Int) : Operator (XR K)) numbers numbers i j ↔ p ≤ j + 1 ∧ i ≤ j ∧ j < i + p := by
  rw [show (numbers : List K → Val (XR K)) = finSeries from rfl, (sma_reals hp).depends_iff fun _ _ => finSeries_inj]
  constructor
  · rintro ⟨hij, l, a, hl, h⟩
    by_contra hne
    rw [movingAvgK, movingAvgK, List.length_set] at h
    split at h
    · exact h rfl
    · rw [window_set hl hij, if_neg (by omega)] at h; exact h rfl
  · rintro ⟨hpj, hij, hw⟩
    refine ⟨by omega, List.replicate (j + 1) 0, 1, by simp, ?_⟩
    have hp' : (p : K) ≠ 0 := by positivity
    rw [movingAvgK, movingAvgK, List.length_set, if_neg (by simp; omega), if_neg (by simp; omega), window_set (j := j) (by simp) hij, if_pos hw]
    have e : window p (List.replicate (j + 1) (0 : K)) = List.replicate p 0 := by
      rw [window, List.reverse_replicate, List.take_replicate, min_eq_left (by omega)]
    rw [e, avg, avg, sum_impulse (by omega)]
    simp [hp']

example : Depends (SMA 3 : Operator (XR ℚ)) numbers numbers 3 5 ∧ ¬ Depends (SMA 3 : Operator (XR ℚ)) numbers numbers 2 5 :=
  ⟨(C104_sma (p := 3) (by decide) 3 5).2 (by decide), fun h => absurd ((C104_sma (p := 3) (by decide) 2 5).1 h) (by decide)⟩

theorem greatest_zero {m : Nat} (hm : 0 < m) : greatestK (List.replicate m (0 : K)) = 0 :=
  (List.mem_replicate.1 (greatestK_greatest (l := List.replicate m (0 : K)) (by simp; omega)).1).2
theorem least_zero {m : Nat} (hm : 0 < m) : leastK (List.replicate m (0 : K)) = 0 :=
  (List.mem_replicate.1 (leastK_least (l := List.replicate m (0 : K)) (by simp; omega)).1).2
theorem greatest_impulse {m k : Nat} (hk : k < m) : greatestK ((List.replicate m (0 : K)).set k 1) ≠ 0 := by
  have := (greatestK_greatest (l := (List.replicate m (0 : K)).set k 1) (by simp; omega)).2 1 (List.mem_set (by simpa using hk) 1)
  intro e
  rw [e] at this
  exact absurd this (by simp)
theorem least_impulse {m k : Nat} (hk : k < m) : leastK ((List.replicate m (0 : K)).set k (-1)) ≠ 0 := by
  have := (leastK_least (l := (List.replicate m (0 : K)).set k (-1)) (by simp; omega)).2 (-1) (List.mem_set (by simpa using hk) (-1))
  intro e
  rw [e] at this
  exact absurd this (by simp)

/-- **C104 LocalMaximum, LocalMinimum**: the samples in the window. -/
theorem C104_local {p : Nat} (hp : 0 < p) (i j : Nat) : (Depends (LocalMaximum (p : Int) : Operator (XR K)) numbers numbers i j ↔ i ≤ j ∧ j < i + p) ∧
    (Depends (LocalMinimum (p : Int) : Operator (XR K)) numbers numbers i j ↔ i ≤ j ∧ j < i + p) := by
  rw [show (numbers : List K → Val (XR K)) = finSeries from rfl, (localMax_reals hp).depends_iff fun _ _ => finSeries_inj, (localMin_reals hp).depends_iff fun _ _ => finSeries_inj]
  refine ⟨⟨?_, ?_⟩, ⟨?_, ?_⟩⟩
  · rintro ⟨hij, l, a, hl, h⟩
    by_contra hne
    rw [window_set hl hij, if_neg (by omega)] at h; exact h rfl
  · rintro ⟨hij, hw⟩
    refine ⟨hij, List.replicate (j + 1) 0, 1, by simp, ?_⟩
    rw [window_set (j := j) (by simp) hij, if_pos hw, window_zeros, greatest_zero (by omega)]
    exact greatest_impulse (by omega)
  · rintro ⟨hij, l, a, hl, h⟩
    by_contra hne
    rw [window_set hl hij, if_neg (by omega)] at h; exact h rfl
  · rintro ⟨hij, hw⟩
    refine ⟨hij, List.replicate (j + 1) 0, -1, by simp, ?_⟩
    rw [window_set (j := j) (by simp) hij, if_pos hw, window_zeros, least_zero (by omega)]
    exact least_impulse (by omega)

example : Depends (LocalMaximum 3 : Operator (XR ℚ)) numbers numbers 0 1 ∧ ¬ Depends (LocalMinimum 3 : Operator (XR ℚ)) numbers numbers 2 5 :=
  ⟨(C104_local (p := 3) (by decide) 0 1).1.2 (by decide), fun h => absurd ((C104_local (p := 3) (by decide) 2 5).2.1 h) (by decide)⟩

/-- **C104 GlobalMaximum, GlobalMinimum**: all samples so far. -/
theorem C104_global (i j : Nat) : (Depends (GlobalMaximum : Operator (XR K)) numbers numbers i j ↔ i ≤ j) ∧ (Depends (GlobalMinimum : Operator (XR K)) numbers numbers i j ↔ i ≤ j) := by
  rw [show (numbers : List K → Val (XR K)) = finSeries from rfl, globalMax_reals.depends_iff fun _ _ => finSeries_inj, globalMin_reals.depends_iff fun _ _ => finSeries_inj]
  refine ⟨and_iff_left_of_imp fun hij => ⟨List.replicate (j + 1) 0, 1, by simp, ?_⟩, and_iff_left_of_imp fun hij => ⟨List.replicate (j + 1) 0, -1, by simp, ?_⟩⟩
  · rw [greatest_zero (by omega)]; exact greatest_impulse (by omega)
  · rw [least_zero (by omega)]; exact least_impulse (by omega)

example : Depends (GlobalMaximum : Operator (XR ℚ)) numbers numbers 0 9 ∧ ¬ Depends (GlobalMinimum : Operator (XR ℚ)) numbers numbers 6 5 :=
  ⟨(C104_global 0 9).1.2 (by decide), fun h => absurd ((C104_global 6 5).2.1 h) (by decide)⟩

/-- **C104 Zero crossover**: all samples so far, but for the first output. -/
theorem C104_zero_crossover (i j : Nat) : Depends (ZeroCrossoverSignal : Operator (XR K)) numbers vIBuf i j ↔ i ≤ j ∧ 0 < j := by
  rw [show (numbers : List K → Val (XR K)) = finSeries from rfl, zc_reals.depends_iff fun _ _ => vIBuf_inj]
  constructor
  · rintro ⟨hij, l, a, hl, h⟩
    refine ⟨hij, Nat.pos_of_ne_zero ?_⟩
    rintro rfl
    simp [turnAt, hl] at h
  · rintro ⟨hij, hj⟩
    refine ⟨hij, ?_⟩
    have hz : lastSign (List.replicate j (0 : K)) = 1 := lastSign_zeros fun u hu => (List.mem_replicate.1 hu).2
    rcases eq_or_lt_of_le hij with rfl | hij
    · refine ⟨List.replicate (i + 1) 0, -1, by simp, ?_⟩
      have e : (List.replicate (i + 1) (0 : K)).set i (-1) = List.replicate i 0 ++ [-1] := by
        rw [List.replicate_succ', List.set_append_right _ _ (by simp)]; simp
      have s1 : sgn (-1 : K) = -1 := by simp [sgn, not_lt.2 (zero_le_one (α := K))]
      rw [e]
      simp [turnAt, hj.ne', hz, s1]
    · refine ⟨List.replicate j 0 ++ [-1], -1, by simp, ?_⟩
      have e : (List.replicate j (0 : K) ++ [-1]).set i (-1) = (List.replicate j (0 : K)).set i (-1) ++ [-1] := by
        rw [List.set_append_left _ _ (by simpa using hij)]
      have hs : lastSign ((List.replicate j (0 : K)).set i (-1)) = -1 := by
        rcases lastSign_mem ((List.replicate j (0 : K)).set i (-1)) with h | h
        · have hm : (-1 : K) ∈ (List.replicate j (0 : K)).set i (-1) := List.mem_set (by simpa using hij) _
          rcases lastSign_pos h with ⟨x, hx, h0⟩ | h'
          · rcases List.mem_or_eq_of_mem_set hx with hx | rfl
            · exact absurd (List.mem_replicate.1 hx).2 h0.ne'
            · exact absurd h0 (by simp)
          · exact absurd (h' _ hm) (by simp)
        · exact h
      have s1 : sgn (-1 : K) = -1 := by simp [sgn, not_lt.2 (zero_le_one (α := K))]
      rw [e]
      simp [turnAt, hj.ne', hz, hs, s1]

example : Depends (ZeroCrossoverSignal : Operator (XR ℚ)) numbers vIBuf 0 9 ∧ ¬ Depends (ZeroCrossoverSignal : Operator (XR ℚ)) numbers vIBuf 0 0 :=
  ⟨(C104_zero_crossover 0 9).2 (by decide), fun h => absurd ((C104_zero_crossover 0 0).1 h) (by decide)⟩

omit [LinearOrder K] [IsStrictOrderedRing K] [Transc K] [FloorRing K] in
theorem rec_snoc {p : Nat} (f : K → K → K) {h : List K} (hl : p ≤ h.length) (a : K) : recursiveAvgK p f (h ++ [a]) = f (recursiveAvgK p f h) a := by
  rw [recursiveAvgK, drop_snoc, if_pos hl, List.take_append_of_le_length hl, List.foldl_append]
  rfl

omit [LinearOrder K] [IsStrictOrderedRing K] [Transc K] [FloorRing K] in
theorem rec_full {p : Nat} (f : K → K → K) {h : List K} (hl : h.length ≤ p) : recursiveAvgK p f h = movingAvgK p h := by
  rw [recursiveAvgK, List.drop_eq_nil_of_le hl, List.take_of_length_le hl]; rfl

omit [LinearOrder K] [IsStrictOrderedRing K] [Transc K] [FloorRing K] in
theorem rec_zeros {p : Nat} (w : K) (n : Nat) : recursiveAvgK p (fun m x => m + w * (x - m)) (List.replicate n 0) = 0 := by
  induction n with
  | zero => rw [rec_full _ (by simp), movingAvgK]; split <;> simp [avg, window]
  | succ n ih =>
    by_cases hn : p ≤ n
    · rw [List.replicate_succ', rec_snoc _ (by simpa using hn), ih]; simp
    · rw [rec_full _ (by simp; omega), movingAvgK]
      split
      · rfl
      · rw [window_zeros]; simp [avg]

omit [Transc K] [FloorRing K] in
theorem rec_moves {p : Nat} (hp : 0 < p) {w : K} (hw : 0 < w) (i : Nat) : ∀ j, p ≤ j + 1 → i ≤ j → (w < 1 ∨ i = j) →
    0 < recursiveAvgK p (fun m x => m + w * (x - m)) ((List.replicate (j + 1) 0).set i 1) := by
  intro j
  induction j with
  | zero =>
    intro h1 h2 h3
    obtain rfl : i = 0 := by omega
    rw [rec_full _ (by simp; omega), movingAvgK, if_neg (by simp; omega), show p = 1 by omega]
    simp [window, avg]
  | succ j ih =>
    intro h1 h2 h3
    by_cases hpj : p ≤ j + 1
    · rcases eq_or_lt_of_le h2 with rfl | h2
      · have e : (List.replicate (j + 1 + 1) (0 : K)).set (j + 1) 1 = List.replicate (j + 1) 0 ++ [1] := by
          rw [List.replicate_succ', List.set_append_right _ _ (by simp)]; simp
        rw [e, rec_snoc _ (by simpa using hpj), rec_zeros]
        simpa using hw
      · have e : (List.replicate (j + 1 + 1) (0 : K)).set i 1 = (List.replicate (j + 1) (0 : K)).set i 1 ++ [0] := by
          rw [List.replicate_succ', List.set_append_left _ _ (by simpa using h2)]
        have hw1 : w < 1 := by rcases h3 with h | h; exact h; omega
        have := ih hpj (by omega) (.inl hw1)
        rw [e, rec_snoc _ (by simpa using hpj)]
        generalize recursiveAvgK p (fun m x => m + w * (x - m)) ((List.replicate (j + 1) 0).set i 1) = m at this ⊢
        have : 0 < m * (1 - w) := mul_pos this (by linarith)
        linarith
    · have hp1 : p = j + 1 + 1 := by omega
      have hp' : (0 : K) < p := by exact_mod_cast hp
      rw [rec_full _ (by simp; omega), movingAvgK, if_neg (by simp; omega), window_set (j := j + 1) (by simp) h2, if_pos (by omega), window_zeros, avg, sum_impulse (by omega)]
      simp
      exact ⟨hp, by positivity⟩

omit [Transc K] [FloorRing K] in
theorem rec_depends {p : Nat} (hp : 0 < p) {w : K} (hw : 0 < w) (h1 : p = 1 → w = 1) (h2 : p ≠ 1 → w < 1) (i j : Nat) :
    (i ≤ j ∧ ∃ l a, l.length = j + 1 ∧ recursiveAvgK p (fun m x => m + w * (x - m)) (l.set i a) ≠ recursiveAvgK p (fun m x => m + w * (x - m)) l) ↔ p ≤ j + 1 ∧ i ≤ j ∧ (p = 1 → i = j) := by
  constructor
  · rintro ⟨hij, l, a, hl, h⟩
    refine ⟨?_, hij, ?_⟩
    · by_contra hpj
      rw [rec_full _ (by simp; omega), rec_full _ (by omega), movingAvgK, movingAvgK, if_pos (by simp; omega), if_pos (by omega)] at h
      exact h rfl
    · intro hp1
      by_contra hne
      have hl' : l ≠ [] := by rw [← List.length_pos_iff]; omega
      obtain ⟨k, b, rfl⟩ : ∃ k b, l = k ++ [b] := ⟨_, _, (List.dropLast_append_getLast hl').symm⟩
      simp only [List.length_append, List.length_singleton, Nat.add_right_cancel_iff] at hl
      rw [List.set_append_left _ _ (by omega), rec_snoc _ (by simp; omega), rec_snoc _ (by omega), h1 hp1] at h
      simp at h
  · rintro ⟨hpj, hij, h⟩
    refine ⟨hij, List.replicate (j + 1) 0, 1, by simp, ?_⟩
    rw [rec_zeros]
    refine (rec_moves hp hw i j hpj hij ?_).ne'
    by_cases hp1 : p = 1
    · exact .inr (h hp1)
    · exact .inl (h2 hp1)

/-- **C104 ExponentialMovingAverage**: after the warm-up all samples so far, if the period is not 1. -/
theorem C104_ema {p : Nat} (hp : 0 < p) (i j : Nat) : Depends (EMA (p : Int) : Operator (XR K)) numbers numbers i j ↔ p ≤ j + 1 ∧ i ≤ j ∧ (p = 1 → i = j) := by
  rw [show (numbers : List K → Val (XR K)) = finSeries from rfl, (ema_reals hp).depends_iff fun _ _ => finSeries_inj]
  refine rec_depends hp (by positivity) (fun h => by subst h; norm_num) (fun h => ?_) i j
  rw [div_lt_one (by positivity)]
  have : (1 : K) < p := by exact_mod_cast (by omega : 1 < p)
  linarith

example : Depends (EMA 3 : Operator (XR ℚ)) numbers numbers 0 9 ∧ ¬ Depends (EMA 1 : Operator (XR ℚ)) numbers numbers 8 9 :=
  ⟨(C104_ema (p := 3) (by decide) 0 9).2 (by decide), fun h => absurd ((C104_ema (p := 1) (by decide) 8 9).1 h) (by decide)⟩

/-- **C104 RollingMovingAverage**: the same. -/
theorem C104_rma {p : Nat} (hp : 0 < p) (i j : Nat) : Depends (RMA (p : Int) : Operator (XR K)) numbers numbers i j ↔ p ≤ j + 1 ∧ i ≤ j ∧ (p = 1 → i = j) := by
  rw [show (numbers : List K → Val (XR K)) = finSeries from rfl, (rma_reals hp).depends_iff fun _ _ => finSeries_inj]
  have hp' : (0 : K) < p := by exact_mod_cast hp
  refine rec_depends hp (by positivity) (fun h => by subst h; norm_num) (fun h => ?_) i j
  rw [div_lt_one hp']
  exact_mod_cast (by omega : 1 < p)

example : Depends (RMA 3 : Operator (XR ℚ)) numbers numbers 0 9 ∧ ¬ Depends (RMA 3 : Operator (XR ℚ)) numbers numbers 0 1 :=
  ⟨(C104_rma (p := 3) (by decide) 0 9).2 (by decide), fun h => absurd ((C104_rma (p := 3) (by decide) 0 1).1 h) (by decide)⟩

theorem rsi_nan_iff {p : Nat} (hp : 2 ≤ p) {l : List K} {j : Nat} (hl : l.length = j + 1) (hj : p ≤ j) : rsi p (l.map XR.fin) = XR.nan ↔ ∀ k (h : k < j), l[k + 1] = l[k] := by
  have hx : l ≠ [] := by rw [← List.length_pos_iff]; omega
  obtain ⟨os, sf, s0, h1, hos, h2⟩ := C36_rsi_prices hp hx
  obtain ⟨st, h3, -⟩ := rsi_reals (K := K) (p := p) (by omega)
  rw [h3 l hx] at h1
  have e := vSBuf_inj (Prod.mk.inj (Except.ok.inj h1)).1
  subst e
  have := (h2 j (by omega) hj).1
  rwa [scan_getElem _ _ _ _ (by omega), List.nil_append, List.take_of_length_le (by omega)] at this

/-- **C104 RelativeStrengthIndex**: all samples so far, from index `p` on. -/
theorem C104_rsi {p : Nat} (hp : 2 ≤ p) (i j : Nat) : Depends (RSI (p : Int) : Operator (XR K)) numbers vSBuf i j ↔ p ≤ j ∧ i ≤ j := by
  rw [show (numbers : List K → Val (XR K)) = finSeries from rfl, (rsi_reals (by omega)).depends_iff fun _ _ => vSBuf_inj]
  constructor
  · rintro ⟨hij, l, a, hl, h⟩
    refine ⟨?_, hij⟩
    by_contra hpj
    rw [rsi, rsi, if_pos (by simp; omega), if_pos (by simp; omega)] at h
    exact h rfl
  · rintro ⟨hpj, hij⟩
    refine ⟨hij, List.replicate (j + 1) 0, 1, by simp, fun h => ?_⟩
    rw [(rsi_nan_iff hp (l := List.replicate (j + 1) (0 : K)) (by simp) hpj).2 (by simp), rsi_nan_iff hp (j := j) (by simp) hpj] at h
    rcases eq_or_lt_of_le hij with rfl | hlt
    · have := h (i - 1) (by omega)
      rw [List.getElem_set, if_pos (by omega), List.getElem_set_ne (by omega)] at this
      simp at this
    · have := h i hlt
      rw [List.getElem_set_ne (by omega), List.getElem_set_self] at this
      simp at this
theorem daysK_zeros (n : Nat) : daysK (List.replicate n (0 : K)) = n := by
  induction n with
  | zero => rfl
  | succ n ih =>
    have h0 : peakK (List.replicate n (0 : K)) = 0 := by
      cases n with
      | zero => rfl
      | succ n => rw [peakK_replicate]; simp
    rw [List.replicate_succ, daysK, List.reverse_replicate, h0, ih, if_neg (by simp)]
    push_cast; rfl

example : Depends (RSI 3 : Operator (XR ℚ)) numbers vSBuf 0 9 ∧ ¬ Depends (RSI 3 : Operator (XR ℚ)) numbers vSBuf 0 2 :=
  ⟨(C104_rsi (p := 3) (by decide) 0 9).2 (by decide), fun h => absurd ((C104_rsi (p := 3) (by decide) 0 2).1 h) (by decide)⟩

theorem daysK_impulse (m : Nat) (l : List K) (h : ∀ x ∈ l, x = 0) : daysK (List.replicate m (0 : K) ++ 1 :: l) = m := by
  induction m with
  | zero =>
    have h0 : peakK l.reverse = 0 := by
      rcases (peakK_greatest l.reverse).1 with h1 | h1
      · exact h1
      · exact h _ (List.mem_reverse.1 h1)
    rw [List.replicate_zero, List.nil_append, daysK, h0, if_pos]
    · rfl
    · norm_num
  | succ m ih =>
    rw [List.replicate_succ, List.cons_append, daysK, ih, max_eq_right (peakK_nonneg _), if_neg (by simp)]
    push_cast; rfl

/-- **C104 Drawdown**: all samples so far. -/
theorem C104_drawdown (i j : Nat) : Depends (Drawdown : Operator (XR K)) numbers (fun l : List (K × Int) => .tup [numbers (l.map Prod.fst), vIBuf (l.map Prod.snd)]) i j ↔ i ≤ j := by
  have hs := dd_reals (K := K)
  rw [show (fun l : List (K × Int) => numInts (l.map (Prod.map XR.fin id))) = finInts from funext numInts_fin] at hs
  rw [show (numbers : List K → Val (XR K)) = finSeries from rfl, hs.depends_iff fun l m h => ?_]
  · refine and_iff_left_of_imp fun hij => ⟨List.replicate (j + 1) 0, 1, by simp, fun h => ?_⟩
    have h2 := congrArg Prod.snd h
    simp only [ddK, List.reverse_replicate, daysK_zeros] at h2
    have e : ((List.replicate (j + 1) (0 : K)).set i 1).reverse = List.replicate (j - i) 0 ++ 1 :: List.replicate i 0 := by
      rw [show List.replicate (j + 1) (0 : K) = List.replicate i 0 ++ 0 :: List.replicate (j - i) 0 by
        rw [← List.replicate_succ, List.replicate_append_replicate]; congr 1; omega, List.set_append_right _ _ (by simp)]
      simp
    rw [e, daysK_impulse _ _ fun x hx => (List.mem_replicate.1 hx).2] at h2
    omega
  · injection h with _ h
    injection h with h1 h
    injection h with h2 _
    have e1 := finSeries_inj h1
    have e2 := vIBuf_inj h2
    exact List.ext_getElem? fun k => by
      have a := congrArg (·[k]?) e1
      have b := congrArg (·[k]?) e2
      simp only [List.getElem?_map] at a b
      cases hl : l[k]? <;> cases hm : m[k]? <;> simp_all [Prod.ext_iff]

example : Depends (Drawdown : Operator (XR ℚ)) numbers (fun l : List (ℚ × Int) => .tup [numbers (l.map Prod.fst), vIBuf (l.map Prod.snd)]) 0 9 :=
  (C104_drawdown 0 9).2 (by decide)

/-- **C104 HeikinAshi**: a candle and the one before. -/
theorem C104_heikin_ashi (i j : Nat) : Depends (HeikinAshi : Operator (XR K)) finCandles4 finCandles4 i j ↔ i = j ∨ i + 1 = j := by
  rw [ha_reals.depends_iff fun l m h => ?_]
  · constructor
    · rintro ⟨hij, l, a, hl, h⟩
      by_contra hne
      obtain ⟨l, x, rfl⟩ : ∃ k b, l = k ++ [b] := ⟨_, _, (List.dropLast_append_getLast (by rw [← List.length_pos_iff]; omega)).symm⟩
      rw [List.length_append, List.length_singleton] at hl
      obtain ⟨l, y, rfl⟩ : ∃ k b, l = k ++ [b] := ⟨_, _, (List.dropLast_append_getLast (by rw [← List.length_pos_iff]; omega)).symm⟩
      rw [List.length_append, List.length_singleton] at hl
      rw [List.set_append_left _ _ (by simp; omega), List.set_append_left _ _ (by omega)] at h
      simp at h
    · rintro (rfl | rfl)
      · refine ⟨le_rfl, List.replicate i ⟨0, 0, 0, 0⟩ ++ [⟨0, 0, 0, 0⟩], ⟨0, 0, 0, 1⟩, by simp, fun h => ?_⟩
        rw [List.set_append_right _ _ (by simp)] at h
        have e : ((List.replicate i (⟨0, 0, 0, 0⟩ : OHLC K)).getLastD ⟨0, 0, 0, 0⟩).opn = 0 := by
          cases i with
          | zero => rfl
          | succ i => rw [List.replicate_succ']; simp
        rw [List.getLastD_eq_getLast?] at e
        simp [haK, e] at h
      · refine ⟨by omega, List.replicate i ⟨0, 0, 0, 0⟩ ++ [⟨0, 0, 0, 0⟩] ++ [⟨0, 0, 0, 0⟩], ⟨1, 0, 0, 0⟩, by simp, fun h => ?_⟩
        rw [List.set_append_left _ _ (by simp), List.set_append_right _ _ (by simp)] at h
        simp [haK] at h
  · simp only [finCandles4, candles4] at h
    injection h with _ h
    injection h with h1 h
    injection h with h2 h
    injection h with h3 h
    injection h with h4 _
    have h1 := vSBuf_inj h1
    have h2 := vSBuf_inj h2
    have h3 := vSBuf_inj h3
    have h4 := vSBuf_inj h4
    exact List.ext_getElem? fun k => by
      have a := congrArg (·[k]?) h1
      have b := congrArg (·[k]?) h2
      have c := congrArg (·[k]?) h3
      have d := congrArg (·[k]?) h4
      simp only [List.getElem?_map] at a b c d
      cases hl : l[k]? with
      | none => cases hm : m[k]? <;> simp_all
      | some u =>
        cases hm : m[k]? with
        | none => simp_all
        | some v =>
          rw [hl, hm] at a b c d
          simp [OHLC.map] at a b c d
          obtain ⟨u1, u2, u3, u4⟩ := u
          obtain ⟨v1, v2, v3, v4⟩ := v
          simp_all

example : Depends (HeikinAshi : Operator (XR ℚ)) finCandles4 finCandles4 4 5 ∧ ¬ Depends (HeikinAshi : Operator (XR ℚ)) finCandles4 finCandles4 3 5 :=
  ⟨(C104_heikin_ashi 4 5).2 (by decide), fun h => absurd ((C104_heikin_ashi 3 5).1 h) (by decide)⟩
end

/-- **C104 MovingStandardDeviation**: the samples in the full window. -/
theorem C104_msd {p : Nat} (hp : 2 ≤ p) (i j : Nat) : Depends (MSD (p : Int) : Operator (XR ℝ)) numbers numbers i j ↔ p ≤ j + 1 ∧ i ≤ j ∧ j < i + p := by
  rw [show (numbers : List ℝ → Val (XR ℝ)) = finSeries from rfl, (msd_reals (by omega)).depends_iff fun _ _ => finSeries_inj]
  constructor
  · rintro ⟨hij, l, a, hl, h⟩
    by_contra hne
    rw [movingStdR, movingStdR, List.length_set] at h
    split at h
    · exact h rfl
    · rw [window_set hl hij, if_neg (by omega)] at h; exact h rfl
  · rintro ⟨hpj, hij, hw⟩
    refine ⟨hij, List.replicate (j + 1) 0, 1, by simp, ?_⟩
    rw [movingStdR, movingStdR, List.length_set, if_neg (by simp; omega), if_neg (by simp; omega), window_set (j := j) (by simp) hij, if_pos hw, window_zeros]
    have h0 : stdDev (List.replicate (min p (j + 1)) 0) = 0 := by
      rw [stdDev, Real.sqrt_eq_zero (variance_nonneg _), variance_eq_zero]
      intro x hx y hy
      rw [(List.mem_replicate.1 hx).2, (List.mem_replicate.1 hy).2]
    rw [h0, stdDev, Ne, Real.sqrt_eq_zero (variance_nonneg _), variance_eq_zero]
    intro h
    have h1 : (1 : ℝ) ∈ (List.replicate (min p (j + 1)) (0 : ℝ)).set (j - i) 1 := List.mem_set (by simp; omega) 1
    have h2 : (0 : ℝ) ∈ (List.replicate (min p (j + 1)) (0 : ℝ)).set (j - i) 1 := by
      refine List.mem_iff_getElem.2 ⟨if j - i = 0 then 1 else 0, by simp; split <;> omega, ?_⟩
      rw [List.getElem_set, if_neg (by split <;> omega), List.getElem_replicate]
    exact one_ne_zero (h _ h1 _ h2)

example : Depends (MSD 3 : Operator (XR ℝ)) numbers numbers 3 5 ∧ ¬ Depends (MSD 3 : Operator (XR ℝ)) numbers numbers 0 1 :=
  ⟨(C104_msd (p := 3) (by decide) 3 5).2 (by decide), fun h => absurd ((C104_msd (p := 3) (by decide) 0 1).1 h) (by decide)⟩

theorem thirdMoment_pair (l : List ℝ) (h : l.length ≤ 2) : thirdMoment l = 0 := by
  match l, h with
  | [], _ => simp [thirdMoment, avg]
  | [a], _ => simp [thirdMoment, avg]
  | [a, b], _ => simp [thirdMoment, avg]; ring

theorem thirdMoment_impulse {m k : Nat} (hm : 3 ≤ m) (hk : k < m) : thirdMoment ((List.replicate m (0 : ℝ)).set k 1) ≠ 0 := by
  have hm' : (3 : ℝ) ≤ m := by exact_mod_cast hm
  have e : (List.replicate m (0 : ℝ)).set k 1 = List.replicate k 0 ++ 1 :: List.replicate (m - k - 1) 0 := by
    rw [show List.replicate m (0 : ℝ) = List.replicate k 0 ++ 0 :: List.replicate (m - k - 1) 0 by
        rw [← List.replicate_succ, List.replicate_append_replicate]; congr 1; omega, List.set_append_right _ _ (by simp)]
    simp
  have hc : ((m - k - 1 : ℕ) : ℝ) = m - k - 1 := by rw [Nat.sub_sub, Nat.cast_sub (by omega)]; push_cast; ring
  have ha : avg ((List.replicate m (0 : ℝ)).set k 1) = 1 / m := by rw [avg, sum_impulse hk]; simp
  rw [thirdMoment, ha, avg, e]
  simp only [List.map_append, List.map_replicate, List.map_cons, List.sum_append, List.sum_cons, List.sum_replicate, nsmul_eq_mul, hc, List.length_append, List.length_cons, List.length_replicate, zero_sub]
  have : (k : ℝ) * (-(1 / (m : ℝ))) ^ 3 + ((1 - 1 / (m : ℝ)) ^ 3 + ((m : ℝ) - k - 1) * (-(1 / (m : ℝ))) ^ 3) = (m - 1) * (m - 2) / m ^ 2 := by
    field_simp; ring
  rw [this]
  have h1 : (0 : ℝ) < ((k + (m - k - 1 + 1) : ℕ) : ℝ) := by exact_mod_cast (by omega)
  have h2 : (0 : ℝ) < (m - 1) * (m - 2) := mul_pos (by linarith) (by linarith)
  positivity

/-- **C104 Skewness**: the samples in the window, if there are at least three. -/
theorem C104_skewness {p : Nat} (hp : 0 < p) (i j : Nat) : Depends (Skewness (p : Int) : Operator (XR ℝ)) numbers numbers i j ↔ 3 ≤ p ∧ 2 ≤ j ∧ i ≤ j ∧ j < i + p := by
  rw [show (numbers : List ℝ → Val (XR ℝ)) = finSeries from rfl, (skew_reals hp).depends_iff fun _ _ => finSeries_inj]
  constructor
  · rintro ⟨hij, l, a, hl, h⟩
    by_contra hne
    by_cases hw : j < i + p
    · have h0 : ∀ l : List ℝ, l.length = j + 1 → skewOf (window p l) = 0 := by
        intro l hl
        rw [skewOf]
        split
        · rfl
        · rw [skew, thirdMoment_pair _ (by rw [window_length]; omega), zero_div]
      exact h (by rw [h0 _ (by simpa using hl), h0 _ hl])
    · rw [window_set hl hij, if_neg hw] at h; exact h rfl
  · rintro ⟨h3, h2, hij, hw⟩
    refine ⟨hij, List.replicate (j + 1) 0, 1, by simp, ?_⟩
    have hz : ∀ x ∈ List.replicate (min p (j + 1)) (0 : ℝ), x = 0 := fun x hx => (List.mem_replicate.1 hx).2
    rw [window_set (j := j) (by simp) hij, if_pos hw, window_zeros, skewOf, skewOf]
    have h0 : stdDev (List.replicate (min p (j + 1)) (0 : ℝ)) = 0 := by
      rw [stdDev, Real.sqrt_eq_zero (variance_nonneg _), variance_eq_zero]
      intro x hx y hy
      rw [hz x hx, hz y hy]
    have ht := thirdMoment_impulse (m := min p (j + 1)) (k := j - i) (by omega) (by omega)
    have h1 : stdDev ((List.replicate (min p (j + 1)) (0 : ℝ)).set (j - i) 1) ≠ 0 := by
      rw [stdDev, Ne, Real.sqrt_eq_zero (variance_nonneg _), variance_eq_zero]
      intro h
      have m1 : (1 : ℝ) ∈ (List.replicate (min p (j + 1)) (0 : ℝ)).set (j - i) 1 := List.mem_set (by simp; omega) 1
      have m2 : (0 : ℝ) ∈ (List.replicate (min p (j + 1)) (0 : ℝ)).set (j - i) 1 := by
        refine List.mem_iff_getElem.2 ⟨if j - i = 0 then 1 else 0, by simp; split <;> omega, ?_⟩
        rw [List.getElem_set, if_neg (by split <;> omega), List.getElem_replicate]
      exact one_ne_zero (h _ m1 _ m2)
    rw [if_pos h0, if_neg h1, skew]
    exact div_ne_zero ht (pow_ne_zero _ h1)

example : Depends (Skewness 3 : Operator (XR ℝ)) numbers numbers 3 5 ∧ ¬ Depends (Skewness 2 : Operator (XR ℝ)) numbers numbers 5 5 :=
  ⟨(C104_skewness (p := 3) (by decide) 3 5).2 (by decide), fun h => absurd ((C104_skewness (p := 2) (by decide) 5 5).1 h) (by decide)⟩
end TS
