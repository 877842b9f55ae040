import Verif.Props.Images
/-
C98, continued: local extrema, average true range and relative strength index.
-/
namespace TS
open XR
variable {K : Type} [Field K] [LinearOrder K] [IsStrictOrderedRing K] [Transc K] [FloorRing K] {A : Type}

theorem mem_window_take {p : Nat} {xs : List A} {i : Nat} (hi : i < xs.length) {y : A} : y ∈ window p (xs.take (i + 1)) ↔ ∃ (j : Nat) (hj : j ≤ i), i < j + p ∧ xs[j] = y := by
  rw [mem_window_iff]
  simp only [List.length_take]
  rw [min_eq_left (by omega : i + 1 ≤ xs.length)]
  constructor
  · rintro ⟨j, h1, h2⟩
    rw [List.getElem?_take] at h2
    split at h2
    · rename_i h3
      obtain ⟨h4, h5⟩ := List.getElem?_eq_some_iff.1 h2
      exact ⟨j, by omega, by omega, h5⟩
    · exact absurd h2 (by simp)
  · rintro ⟨j, h1, h2, rfl⟩
    exact ⟨j, by omega, by rw [List.getElem?_take, if_pos (by omega), List.getElem?_eq_getElem]⟩

/-- **C98 Local maximum**: the outputs are exactly the series in which each output lies within `p` consecutive ones none of which is less. -/
theorem C98_local_max {p : Nat} (hp : 0 < p) (os : List K) : Image (LocalMaximum (p : Int)) numbers numbers os ↔
    os ≠ [] ∧ ∀ i o, os[i]? = some o → ∃ j, j ≤ i ∧ i < j + p ∧ ∀ k o', j ≤ k → k < j + p → os[k]? = some o' → o ≤ o' := by
  rw [show (numbers : List K → Val (XR K)) = finSeries from rfl, (localMax_reals hp).image fun _ _ => finSeries_inj]
  constructor
  · rintro ⟨xs, hx, rfl⟩
    refine ⟨by rw [← List.length_pos_iff, scan_length, List.length_pos_iff]; exact hx, fun i o ho => ?_⟩
    obtain ⟨hi, rfl⟩ := List.getElem?_eq_some_iff.1 ho
    rw [scan_length] at hi
    have ne (k : Nat) (hk : k < xs.length) : window p (xs.take (k + 1)) ≠ [] := window_ne_nil hp (by rw [← List.length_pos_iff]; simp; omega)
    obtain ⟨j, hj, hj', e⟩ := (mem_window_take hi).1 (greatestK_greatest (ne i hi)).1
    refine ⟨j, hj, hj', fun k o' h1 h2 h3 => ?_⟩
    obtain ⟨hk, rfl⟩ := List.getElem?_eq_some_iff.1 h3
    rw [scan_length] at hk
    rw [scan_getElem, scan_getElem, List.nil_append, List.nil_append, ← e]
    exact (greatestK_greatest (ne k hk)).2 _ ((mem_window_take hk).2 ⟨j, h1, h2, rfl⟩)
  · rintro ⟨ho, h⟩
    let x (j : Nat) : K := leastK ((os.drop j).take p)
    have least (j : Nat) (hj : j < os.length) : IsLeastOf (x j) ((os.drop j).take p) := leastK_least (by rw [← List.length_pos_iff]; simp; omega)
    have mem (j k : Nat) (h1 : j ≤ k) (h2 : k < j + p) (hk : k < os.length) : x j ≤ os[k] :=
      (least j (by omega)).2 _ (List.mem_take_iff_getElem.2 ⟨k - j, by simp; omega, by rw [List.getElem_drop]; congr 1; omega⟩)
    refine ⟨(List.range os.length).map x, by simpa using ho, List.ext_getElem (by simp) fun i h1 h2 => ?_⟩
    rw [scan_getElem, List.nil_append]
    refine greatest_eq ⟨?_, fun y hy => ?_⟩
    · rw [mem_window_take (by simpa using h2)]
      obtain ⟨j, hj, hj', hm⟩ := h i _ (List.getElem?_eq_getElem h2)
      refine ⟨j, hj, hj', ?_⟩
      simp only [List.getElem_map, List.getElem_range]
      refine le_antisymm (mem j i hj hj' h2) ?_
      obtain ⟨k, hk, e⟩ := List.mem_take_iff_getElem.1 (least j (by omega)).1
      rw [← e]
      rw [List.getElem_drop]
      exact hm (j + k) _ (by omega) (by omega) (List.getElem?_eq_getElem (by simp at hk; omega))
    · rw [mem_window_take (by simpa using h2)] at hy
      obtain ⟨j, hj, hj', rfl⟩ := hy
      simp only [List.getElem_map, List.getElem_range]
      exact mem j i hj hj' h2
example := (C98_local_max (K := ℚ) (p := 2) (by norm_num) [4, 4, 1]).2 ⟨by simp, fun i o ho => by
  obtain rfl | rfl | rfl : i = 0 ∨ i = 1 ∨ i = 2 := by have := (List.getElem?_eq_some_iff.1 ho).1; simp at this; omega
  · exact ⟨0, by omega, by omega, fun k o' _ hk h => by
    obtain rfl | rfl : k = 0 ∨ k = 1 := by omega
    all_goals simp at h ho; subst h ho; norm_num⟩
  · exact ⟨0, by omega, by omega, fun k o' _ hk h => by
    obtain rfl | rfl : k = 0 ∨ k = 1 := by omega
    all_goals simp at h ho; subst h ho; norm_num⟩
  · exact ⟨2, by omega, by omega, fun k o' _ hk h => by
    obtain rfl | rfl : k = 2 ∨ k = 3 := by omega
    all_goals simp at h ho <;> subst h ho <;> norm_num⟩⟩

/-- **C98 Local minimum**: the outputs are exactly the series in which each output lies within `p` consecutive ones none of which is greater. -/
theorem C98_local_min {p : Nat} (hp : 0 < p) (os : List K) : Image (LocalMinimum (p : Int)) numbers numbers os ↔
    os ≠ [] ∧ ∀ i o, os[i]? = some o → ∃ j, j ≤ i ∧ i < j + p ∧ ∀ k o', j ≤ k → k < j + p → os[k]? = some o' → o' ≤ o := by
  rw [show (numbers : List K → Val (XR K)) = finSeries from rfl, (localMin_reals hp).image fun _ _ => finSeries_inj]
  constructor
  · rintro ⟨xs, hx, rfl⟩
    refine ⟨by rw [← List.length_pos_iff, scan_length, List.length_pos_iff]; exact hx, fun i o ho => ?_⟩
    obtain ⟨hi, rfl⟩ := List.getElem?_eq_some_iff.1 ho
    rw [scan_length] at hi
    have ne (k : Nat) (hk : k < xs.length) : window p (xs.take (k + 1)) ≠ [] := window_ne_nil hp (by rw [← List.length_pos_iff]; simp; omega)
    obtain ⟨j, hj, hj', e⟩ := (mem_window_take hi).1 (leastK_least (ne i hi)).1
    refine ⟨j, hj, hj', fun k o' h1 h2 h3 => ?_⟩
    obtain ⟨hk, rfl⟩ := List.getElem?_eq_some_iff.1 h3
    rw [scan_length] at hk
    rw [scan_getElem, scan_getElem, List.nil_append, List.nil_append, ← e]
    exact (leastK_least (ne k hk)).2 _ ((mem_window_take hk).2 ⟨j, h1, h2, rfl⟩)
  · rintro ⟨ho, h⟩
    let x (j : Nat) : K := greatestK ((os.drop j).take p)
    have greatest (j : Nat) (hj : j < os.length) : IsGreatestOf (x j) ((os.drop j).take p) := greatestK_greatest (by rw [← List.length_pos_iff]; simp; omega)
    have mem (j k : Nat) (h1 : j ≤ k) (h2 : k < j + p) (hk : k < os.length) : os[k] ≤ x j :=
      (greatest j (by omega)).2 _ (List.mem_take_iff_getElem.2 ⟨k - j, by simp; omega, by rw [List.getElem_drop]; congr 1; omega⟩)
    refine ⟨(List.range os.length).map x, by simpa using ho, List.ext_getElem (by simp) fun i h1 h2 => ?_⟩
    rw [scan_getElem, List.nil_append]
    refine least_eq ⟨?_, fun y hy => ?_⟩
    · rw [mem_window_take (by simpa using h2)]
      obtain ⟨j, hj, hj', hm⟩ := h i _ (List.getElem?_eq_getElem h2)
      refine ⟨j, hj, hj', ?_⟩
      simp only [List.getElem_map, List.getElem_range]
      refine le_antisymm ?_ (mem j i hj hj' h2)
      obtain ⟨k, hk, e⟩ := List.mem_take_iff_getElem.1 (greatest j (by omega)).1
      rw [← e]
      rw [List.getElem_drop]
      exact hm (j + k) _ (by omega) (by omega) (List.getElem?_eq_getElem (by simp at hk; omega))
    · rw [mem_window_take (by simpa using h2)] at hy
      obtain ⟨j, hj, hj', rfl⟩ := hy
      simp only [List.getElem_map, List.getElem_range]
      exact mem j i hj hj' h2
example := (C98_local_min (K := ℚ) (p := 2) (by norm_num) [1, 1, 4]).2 ⟨by simp, fun i o ho => by
  obtain rfl | rfl | rfl : i = 0 ∨ i = 1 ∨ i = 2 := by have := (List.getElem?_eq_some_iff.1 ho).1; simp at this; omega
  · exact ⟨0, by omega, by omega, fun k o' _ hk h => by
    obtain rfl | rfl : k = 0 ∨ k = 1 := by omega
    all_goals simp at h ho; subst h ho; norm_num⟩
  · exact ⟨0, by omega, by omega, fun k o' _ hk h => by
    obtain rfl | rfl : k = 0 ∨ k = 1 := by omega
    all_goals simp at h ho; subst h ho; norm_num⟩
  · exact ⟨2, by omega, by omega, fun k o' _ hk h => by
    obtain rfl | rfl : k = 2 ∨ k = 3 := by omega
    all_goals simp at h ho <;> subst h ho <;> norm_num⟩⟩

omit [LinearOrder K] [IsStrictOrderedRing K] [Transc K] [FloorRing K] in
theorem recursiveAvgK_snoc {p : Nat} {f : K → K → K} {l : List K} (h : p ≤ l.length) (x : K) : recursiveAvgK p f (l ++ [x]) = f (recursiveAvgK p f l) x := by
  rw [recursiveAvgK, List.drop_append_of_le_length h, List.take_append_of_le_length h, List.foldl_append, ← recursiveAvgK, List.foldl_cons, List.foldl_nil]

/-- Each output is not negative and at least the `(p - 1) / p`-th part of the previous one. -/
def SlowDecay (p : Nat) (os : List K) : Prop := (∀ o ∈ os, 0 ≤ o) ∧ ∀ (i : Nat) (a b : K), os[i]? = some a → os[i + 1]? = some b → (p - 1) * a ≤ p * b

omit [IsStrictOrderedRing K] [Transc K] [FloorRing K] in
theorem SlowDecay.pre {p : Nat} {os : List K} {o : K} (h : SlowDecay p (os ++ [o])) : SlowDecay p os :=
  ⟨fun x hx => h.1 x (List.mem_append_left _ hx), fun i a b ha hb => h.2 i a b (by rw [List.getElem?_append_left (List.getElem?_eq_some_iff.1 ha).1]; exact ha)
    (by rw [List.getElem?_append_left (List.getElem?_eq_some_iff.1 hb).1]; exact hb)⟩

/-- **C98 ATR**: the outputs are exactly the series that begin with `p - 1` zeros, are not negative and never decay faster than by the factor `(p - 1) / p`. -/
theorem C98_atr {p : Nat} (hp : 0 < p) (os : List K) : Image (ATR (p : Int)) finCandles numbers os ↔ os ≠ [] ∧ Silent (p - 1) os ∧ (∀ o ∈ os, 0 ≤ o) ∧
    ∀ (i : Nat) (a b : K), os[i]? = some a → os[i + 1]? = some b → (p - 1) * a ≤ p * b := by
  have hp0 : (0 : K) < p := by exact_mod_cast hp
  rw [show (numbers : List K → Val (XR K)) = finSeries from rfl, (atr_reals hp).image fun _ _ => finSeries_inj]
  have zero (xs : List (CLH K)) (h : xs.length ≤ p - 1) : atrK p xs = 0 := by
    rw [atrK, recursiveAvgK_le (by rw [trueRangesK_length]; omega), movingAvgK, if_pos (by rw [trueRangesK_length]; omega)]
  constructor
  · rintro ⟨xs, hx, rfl⟩
    refine ⟨by rw [← List.length_pos_iff, scan_length, List.length_pos_iff]; exact hx, silent_scan (fun xs _ h => zero xs h) xs, fun o ho => ?_, fun i a b ha hb => ?_⟩
    · obtain ⟨i, hi, rfl⟩ := List.mem_iff_getElem.1 ho
      rw [scan_getElem]
      exact atrK_nonneg hp _
    · obtain ⟨ha', rfl⟩ := List.getElem?_eq_some_iff.1 ha
      obtain ⟨hb', rfl⟩ := List.getElem?_eq_some_iff.1 hb
      clear ha hb
      have ha : i < xs.length := by simpa using ha'
      have hb : i + 1 < xs.length := by simpa using hb'
      rw [scan_getElem, scan_getElem, List.nil_append, List.nil_append]
      by_cases h : i + 1 < p
      · rw [zero (xs.take (i + 1)) (by simp; omega), mul_zero]
        exact mul_nonneg hp0.le (atrK_nonneg hp _)
      · rw [List.take_add_one (i := i + 1), List.getElem?_eq_getElem hb, Option.toList_some]
        set l := xs.take (i + 1) with el
        have hl : l.length = i + 1 := by simp [el]; omega
        have h2 := atrK_nonneg hp (l ++ [xs[i + 1]])
        have ht : 0 ≤ trueRangeK (lastCloseK l) xs[i + 1].low xs[i + 1].high := by
          rw [trueRangeK]; split
          · exact le_max_right _ _
          · exact le_max_of_le_right (le_max_of_le_left (abs_nonneg _))
        rw [atrK, atrK, trueRangesK_snoc, recursiveAvgK_snoc (by rw [trueRangesK_length]; omega)]
        set m := recursiveAvgK p (fun m x => m + 1 / (p : K) * (x - m)) (trueRangesK l)
        have : (p : K) * (m + 1 / p * (trueRangeK (lastCloseK l) xs[i + 1].low xs[i + 1].high - m)) = (p - 1) * m + trueRangeK (lastCloseK l) xs[i + 1].low xs[i + 1].high := by
          field_simp
          ring
        rw [this]
        linarith
  · rintro ⟨ho, hs⟩
    obtain ⟨xs, -, rfl⟩ := scan_onto (y := atrK p) (P := fun os => Silent (p - 1) os ∧ SlowDecay p os) (fun l => lastCloseK l = 0 ∧ (l.length ≤ p - 1 → ∀ t ∈ trueRangesK l, t = 0))
      ⟨rfl, fun _ t ht => by simp [trueRangesK] at ht⟩ (fun _ _ h => ⟨h.1.pre, h.2.pre⟩) (fun l o hl hs => by
        have tr (t : K) (ht : 0 ≤ t) : trueRangesK (l ++ [⟨0, 0, t⟩]) = trueRangesK l ++ [t] := by
          rw [trueRangesK_snoc, hl.1, trueRangeK, if_pos rfl, sub_zero, max_eq_left ht]
        have inv (t : K) (ht : 0 ≤ t) (h : l.length < p - 1 → t = 0) : lastCloseK (l ++ [⟨0, 0, t⟩]) = 0 ∧ ((l ++ [(⟨0, 0, t⟩ : CLH K)]).length ≤ p - 1 → ∀ t' ∈ trueRangesK (l ++ [⟨0, 0, t⟩]), t' = 0) := by
          refine ⟨by simp [lastCloseK], fun hlen t' ht' => ?_⟩
          simp at hlen
          rw [tr t ht, List.mem_append] at ht'
          rcases ht' with ht' | ht'
          · exact hl.2 (by omega) _ ht'
          · rw [List.mem_singleton.1 ht']
            exact h (by omega)
        have ho : 0 ≤ o := hs.2.1 o (by simp)
        rcases Nat.lt_trichotomy l.length (p - 1) with h | h | h
        · exact ⟨⟨0, 0, 0⟩, inv 0 le_rfl fun _ => rfl, by rw [hs.1.last (by simpa using h)]; exact zero _ (by simp; omega)⟩
        · refine ⟨⟨0, 0, p * o⟩, inv _ (by positivity) fun h' => by omega, ?_⟩
          rw [atrK_first hp (by simp; omega), tr _ (by positivity), List.sum_append, List.sum_eq_zero (hl.2 h.le)]
          simp [hp0.ne']
        · have key : (p - 1) * atrK p l ≤ p * o := by
            refine hs.2.2 (l.length - 1) _ _ ?_ (by rw [show l.length - 1 + 1 = (scan (atrK p) [] l).length by rw [scan_length]; omega]; simp)
            rw [List.getElem?_append_left (by simp; omega), List.getElem?_eq_getElem (by simp; omega), scan_getElem, List.nil_append, List.take_of_length_le (by omega)]
          refine ⟨⟨0, 0, p * o - (p - 1) * atrK p l⟩, inv _ (by linarith) fun h' => by omega, ?_⟩
          rw [atrK, tr _ (by linarith), recursiveAvgK_snoc (by rw [trueRangesK_length]; omega), ← atrK]
          field_simp
          ring) os hs
    exact ⟨xs, by rintro rfl; exact ho rfl, rfl⟩
example := (C98_atr (K := ℚ) (p := 2) (by norm_num) [0, 4, 2, 7]).2 ⟨by simp, silent_one (by norm_num), by norm_num, fun i a b ha hb => by
  obtain rfl | rfl | rfl : i = 0 ∨ i = 1 ∨ i = 2 := by have := (List.getElem?_eq_some_iff.1 hb).1; simp at this; omega
  all_goals simp at ha hb; subst ha hb; norm_num⟩

omit [LinearOrder K] [IsStrictOrderedRing K] [Transc K] [FloorRing K] in
theorem wilderAvg_snoc {p : Nat} {l : List K} (h : p ≤ l.length) (x : K) : wilderAvg p (l ++ [x]) = (wilderAvg p l * ((p : K) - 1) + x) / p := by
  rw [wilderAvg, List.drop_append_of_le_length h, List.take_append_of_le_length h, List.foldl_append, ← wilderAvg, List.foldl_cons, List.foldl_nil]

omit [LinearOrder K] [IsStrictOrderedRing K] [Transc K] [FloorRing K] in
theorem moves_snoc {l : List K} (h : l ≠ []) (x : K) : moves (l ++ [x]) l.length = moves l (l.length - 1) ++ [x - l.getLastD 0] := by
  obtain ⟨l, a, rfl⟩ := (List.eq_nil_or_concat l).resolve_left h
  rw [List.concat_eq_append]
  simp only [moves, List.length_append, List.length_cons, List.length_nil, zero_add, List.range_succ, List.map_append, List.map_cons, List.map_nil, Nat.add_sub_cancel]
  congr 1
  · refine List.map_congr_left fun k hk => ?_
    have := List.mem_range.1 hk
    simp only [List.getD_eq_getElem?_getD]
    rw [List.getElem?_append_left (by simp; omega), List.getElem?_append_left (l₁ := l ++ [a]) (by simp; omega)]
  · simp [List.getD_eq_getElem?_getD]

omit [IsStrictOrderedRing K] [Transc K] [FloorRing K] in
theorem share_div {c : K} (hc : c ≠ 0) (g l : K) : share (g / c) (l / c) = share g l := by
  simp only [share]
  rw [← add_div, mul_div_assoc', div_div_div_cancel_right₀ hc]
  simp only [div_eq_zero_iff, hc, or_false]

theorem rsi_next {p : Nat} (hp : 0 < p) {l : List K} (hl : p < l.length) (x : K) : rsi p ((l ++ [x]).map fin) =
    share (gainAt p l (l.length - 1) * ((p : K) - 1) + max 0 (x - l.getLastD 0)) (lossAt p l (l.length - 1) * ((p : K) - 1) + max 0 (-(x - l.getLastD 0))) := by
  have hp0 : (p : K) ≠ 0 := by positivity
  have hm : p ≤ (moves l (l.length - 1)).length := by simp [moves]; omega
  rw [rsi_share hp (i := l.length) (by simp) hl.le, gainAt, lossAt, moves_snoc (by rintro rfl; simp at hl), List.map_append, List.map_append, List.map_singleton, List.map_singleton,
    wilderAvg_snoc (by simpa using hm), wilderAvg_snoc (by simpa using hm), ← gainAt, ← lossAt, share_div hp0]

omit [Transc K] in
theorem share_next {q G L : K} (hq : 0 < q) (hG : 0 ≤ G) (hL : 0 ≤ L) (o : XR K) : (∃ d : K, share (G * q + max 0 d) (L * q + max 0 (-d)) = o) ↔ RsiNext (share G L) o := by
  rcases (add_nonneg hG hL).eq_or_lt with h0 | h0
  · have g0 : G = 0 := by linarith
    have l0 : L = 0 := by linarith
    subst g0 l0
    have e (d : K) : share (0 * q + max 0 d) (0 * q + max 0 (-d)) = if d = 0 then nan else if 0 < d then fin 100 else fin 0 := by
      rw [zero_mul, zero_add, zero_add]
      rcases lt_trichotomy d 0 with k | rfl | k
      · rw [if_neg k.ne, if_neg k.not_gt, max_eq_left k.le, max_eq_right (by linarith), share, zero_add, if_neg (by linarith)]
        simp
      · simp [share]
      · rw [if_neg k.ne', if_pos k, max_eq_right k.le, max_eq_left (by linarith), share, add_zero, if_neg k.ne', mul_div_cancel_right₀ _ k.ne']
    have e0 : share (0 : K) 0 = nan := by simp [share]
    constructor
    · rintro ⟨d, rfl⟩
      rw [e, e0]
      left
      split_ifs <;> simp
    · rw [e0]
      rintro (⟨-, rfl | rfl | rfl⟩ | ⟨r, s, h, -⟩)
      · exact ⟨0, by rw [e, if_pos rfl]⟩
      · exact ⟨-1, by rw [e, if_neg (by norm_num), if_neg (by norm_num)]⟩
      · exact ⟨1, by rw [e, if_neg (by norm_num), if_pos (by norm_num)]⟩
      · cases h
  · have e0 : share G L = fin (100 * G / (G + L)) := by rw [share, if_neg h0.ne']
    have hGq := mul_nonneg hG hq.le
    have hLq := mul_nonneg hL hq.le
    have hq0 := mul_pos h0 hq
    have r1 : 100 * G / (G + L) ≤ 100 := by rw [div_le_iff₀ h0]; linarith
    constructor
    · rintro ⟨d, rfl⟩
      rw [e0]
      have m1 := le_max_left 0 d
      have m2 := le_max_left 0 (-d)
      have hs : 0 < G * q + max 0 d + (L * q + max 0 (-d)) := by linarith
      refine .inr ⟨_, 100 * (G * q + max 0 d) / (G * q + max 0 d + (L * q + max 0 (-d))), rfl, by rw [share, if_neg hs.ne'], by positivity, ?_, fun h => ?_, fun h => ?_⟩
      · rw [div_le_iff₀ hs]; linarith
      · have : 0 < G := by
          rcases hG.eq_or_lt with e | e
          · rw [← e] at h; simp at h
          · exact e
        have := mul_pos this hq
        positivity
      · have : 0 < L := by
          rw [div_lt_iff₀ h0] at h; linarith
        have := mul_pos this hq
        rw [div_lt_iff₀ hs]; linarith
    · rw [e0]
      rintro (⟨h, -⟩ | ⟨r, s, h, rfl, h1, h2, h3, h4⟩)
      · cases h
      injection h with h
      have hr : r * (G + L) = 100 * G := by rw [← h]; field_simp
      rcases le_total s r with k | k
      · -- a loss
        rcases h1.eq_or_lt with rfl | h1'
        · have : r = 0 := le_antisymm (not_lt.1 fun h => lt_irrefl _ (h3 h)) k
          subst this
          have : G = 0 := by linarith
          subst this
          refine ⟨0, ?_⟩
          rw [neg_zero, max_self, add_zero, add_zero, zero_mul, share, if_neg (by rw [zero_add] at hq0 ⊢; exact hq0.ne')]
          simp
        · have hd : 0 ≤ 100 * (G * q) / s - (G + L) * q := by
            rw [sub_nonneg, le_div_iff₀ h1']
            have := mul_le_mul_of_nonneg_right k hq0.le
            nlinarith
          have hGp : 0 < G := by
            have : 0 < r := lt_of_lt_of_le h1' k
            have := mul_pos this h0
            linarith
          refine ⟨-(100 * (G * q) / s - (G + L) * q), ?_⟩
          rw [neg_neg, max_eq_left (by linarith), max_eq_right hd, add_zero, share]
          have e : G * q + (L * q + (100 * (G * q) / s - (G + L) * q)) = 100 * (G * q) / s := by ring
          have : 0 < 100 * (G * q) / s := by positivity
          rw [e, if_neg this.ne']
          congr 1
          field_simp
      · -- a gain
        rcases h2.eq_or_lt with rfl | h2'
        · have : r = 100 := le_antisymm (by rw [← h]; exact r1) (not_lt.1 fun h => lt_irrefl _ (h4 h))
          subst this
          have : L = 0 := by linarith
          subst this
          refine ⟨0, ?_⟩
          rw [add_zero] at hq0
          rw [neg_zero, max_self, add_zero, add_zero, zero_mul, share, add_zero, if_neg hq0.ne', mul_div_cancel_right₀ _ hq0.ne']
        · have h2'' := sub_pos.2 h2'
          have hd : 0 ≤ 100 * (L * q) / (100 - s) - (G + L) * q := by
            rw [sub_nonneg, le_div_iff₀ h2'']
            have := mul_le_mul_of_nonneg_right k hq0.le
            nlinarith
          have hLp : 0 < L := by
            have : 0 < (100 - r) * (G + L) := mul_pos (by linarith) h0
            linarith
          refine ⟨100 * (L * q) / (100 - s) - (G + L) * q, ?_⟩
          rw [max_eq_right hd, max_eq_left (by linarith), add_zero, share]
          have e : G * q + (100 * (L * q) / (100 - s) - (G + L) * q) + L * q = 100 * (L * q) / (100 - s) := by ring
          have : 0 < 100 * (L * q) / (100 - s) := by positivity
          rw [e, if_neg this.ne']
          congr 1
          have := hLp.ne'
          have := h2''.ne'
          field_simp
          ring

/-- **C98 RSI** with a period of at least 2: the outputs are exactly the series that begin with `p` zeros, continue with not-a-number or any number from 0 to 100, and stay strictly between 0 and 100 once there. -/
theorem C98_rsi {p : Nat} (hp : 2 ≤ p) (os : List (XR K)) : Image (RSI (p : Int)) numbers vSBuf os ↔ os ≠ [] ∧ (∀ i, i < p → ∀ o, os[i]? = some o → o = fin 0) ∧
    (∀ o, os[p]? = some o → o = nan ∨ ∃ r, 0 ≤ r ∧ r ≤ 100 ∧ o = fin r) ∧ ∀ i, p ≤ i → ∀ a b, os[i]? = some a → os[i + 1]? = some b → RsiNext a b := by
  have hq : (0 : K) < (p : K) - 1 := by have : (2 : K) ≤ p := by exact_mod_cast hp
                                        linarith
  rw [show (numbers : List K → Val (XR K)) = finSeries from rfl, (rsi_reals (by omega)).image fun _ _ => vSBuf_inj]
  have zero (l : List K) (h : l.length ≤ p) : rsi p (l.map fin) = fin 0 := by
    rw [rsi, if_pos (by simpa using h)]
    simp
  have shr (l : List K) (h : p < l.length) : rsi p (l.map fin) = share (gainAt p l (l.length - 1)) (lossAt p l (l.length - 1)) := rsi_share (by omega) (by omega) (by omega)
  have nn (l : List K) := (⟨gainAt_nonneg (by omega) _ _, lossAt_nonneg (by omega) _ _⟩ : 0 ≤ gainAt p l (l.length - 1) ∧ 0 ≤ lossAt p l (l.length - 1))
  constructor
  · rintro ⟨xs, hx, rfl⟩
    have get (i : Nat) (o : XR K) (h : (scan (fun l : List K => rsi p (l.map fin)) [] xs)[i]? = some o) : i < xs.length ∧ o = rsi p ((xs.take (i + 1)).map fin) := by
      obtain ⟨hi, rfl⟩ := List.getElem?_eq_some_iff.1 h
      exact ⟨by simpa using hi, by rw [scan_getElem, List.nil_append]⟩
    refine ⟨by rw [← List.length_pos_iff, scan_length, List.length_pos_iff]; exact hx, fun i hi o ho => ?_, fun o ho => ?_, fun i hi a b ha hb => ?_⟩
    · rw [(get i o ho).2]
      exact zero _ (by simp; omega)
    · obtain ⟨h1, rfl⟩ := get p o ho
      rw [shr _ (by simp; omega)]
      exact share_range (nn _).1 (nn _).2
    · obtain ⟨h1, rfl⟩ := get i a ha
      obtain ⟨h2, rfl⟩ := get _ b hb
      rw [List.take_add_one (i := i + 1), List.getElem?_eq_getElem h2, Option.toList_some, shr (xs.take (i + 1)) (by simp; omega), ← share_next hq (nn _).1 (nn _).2]
      exact ⟨_, (rsi_next (by omega) (by simp; omega) _).symm⟩
  · rintro ⟨ho, h0, h1, h2⟩
    -- the first `p + 1` samples
    obtain ⟨S, hS, eS⟩ : ∃ S : List K, S.length = p + 1 ∧ ∀ o, os[p]? = some o → rsi p (S.map fin) = o := by
      rcases e : os[p]? with _ | o
      · exact ⟨List.replicate (p + 1) 0, by simp, by simp⟩
      · rcases h1 o e with rfl | ⟨r, hr0, hr1, rfl⟩
        · refine ⟨0 :: 0 :: List.replicate (p - 1) 0, by simp; omega, fun _ h => ?_⟩
          injection h with h
          rw [rsi_three hp, ← h]
          simp [share]
        · refine ⟨0 :: r :: List.replicate (p - 1) (r - (100 - r)), by simp; omega, fun _ h => ?_⟩
          injection h with h
          rw [← h, rsi_three hp, max_eq_right (by linarith), max_eq_left (by linarith), max_eq_left (by linarith), max_eq_right (by linarith), share, if_neg (by norm_num)]
          congr 1
          field_simp
          ring
    obtain ⟨xs, -, e⟩ := scan_onto (y := fun l : List K => rsi p (l.map fin)) (P := fun l => l <+: os) (fun l => l.length ≤ p + 1 → l = S.take l.length)
      (fun _ => rfl) (fun l o h => (List.prefix_append l [o]).trans h) (fun l o hl hs => by
        have eo : os[l.length]? = some o := by
          obtain ⟨t, rfl⟩ := hs
          simp
        by_cases hlen : l.length ≤ p
        · have hl := hl (by omega)
          have e : l ++ [S[l.length]] = S.take (l.length + 1) := by
            rw [List.take_add_one, ← hl, List.getElem?_eq_getElem (by omega), Option.toList_some]
          refine ⟨S[l.length], fun _ => by simpa using e, ?_⟩
          show rsi p ((l ++ [S[l.length]]).map fin) = o
          rcases hlen.eq_or_lt with h | h
          · rw [e, List.take_of_length_le (by omega)]
            exact eS o (by rw [← h]; exact eo)
          · rw [zero _ (by simp; omega)]
            exact (h0 _ h o eo).symm
        · have ea : os[l.length - 1]? = some (rsi p (l.map fin)) := by
            obtain ⟨t, rfl⟩ := hs
            rw [List.append_assoc, List.getElem?_append_left (by simp; omega), List.getElem?_eq_getElem (by simp; omega), scan_getElem, List.nil_append, List.take_of_length_le (by omega)]
          have := h2 (l.length - 1) (by omega) _ o ea (by rw [show l.length - 1 + 1 = l.length by omega]; exact eo)
          rw [shr l (by omega), ← share_next hq (nn _).1 (nn _).2] at this
          obtain ⟨d, hd⟩ := this
          refine ⟨l.getLastD 0 + d, fun h => by simp at h; omega, ?_⟩
          show rsi p ((l ++ [l.getLastD 0 + d]).map fin) = o
          rw [rsi_next (by omega) (by omega), add_sub_cancel_left]
          exact hd) os (List.prefix_refl os)
    exact ⟨xs, by rintro rfl; exact ho e.symm, e⟩
example := (C98_rsi (K := ℚ) (p := 2) le_rfl [fin 0, fin 0, nan, fin 100, fin 30]).2 ⟨by simp, fun i hi o ho => by
  obtain rfl | rfl : i = 0 ∨ i = 1 := by omega
  all_goals simp at ho; exact ho.symm, fun o ho => by simp at ho; exact .inl ho.symm, fun i hi a b ha hb => by
  obtain rfl | rfl : i = 2 ∨ i = 3 := by have := (List.getElem?_eq_some_iff.1 hb).1; simp at this; omega
  all_goals simp at ha hb; subst ha hb
  · exact .inl ⟨rfl, by simp⟩
  · exact .inr ⟨100, 30, rfl, rfl, by norm_num⟩⟩

/-- **C98 RSI** with period 1: the outputs are exactly the series of not-a-number, 0 and 100 that begin with 0. -/
theorem C98_rsi_one (os : List (XR K)) : Image (RSI 1) numbers vSBuf os ↔ os[0]? = some (fin 0) ∧ ∀ o ∈ os, o = nan ∨ o = fin 0 ∨ o = fin 100 := by
  have key (l : List K) (a b : K) : rsi 1 ((l ++ [a, b]).map fin) = if a = b then nan else if a < b then fin 100 else fin 0 := by
    rw [rsi_one]
    rcases lt_trichotomy a b with k | rfl | k
    · have k1 := sub_pos.2 k
      rw [if_neg k.ne, if_pos k, max_eq_right k1.le, max_eq_left (by linarith), share, add_zero, if_neg k1.ne', mul_div_cancel_right₀ _ k1.ne']
    · simp [share]
    · have k1 := sub_pos.2 k
      rw [if_neg k.ne', if_neg k.not_gt, max_eq_right k1.le, max_eq_left (by linarith), share, zero_add, if_neg k1.ne']
      simp
  have one (x : K) : rsi 1 ([x].map fin) = fin 0 := by simp [rsi]
  rw [show (numbers : List K → Val (XR K)) = finSeries from rfl, show (1 : Int) = ((1 : Nat) : Int) from rfl, (rsi_reals one_pos).image fun _ _ => vSBuf_inj]
  constructor
  · rintro ⟨xs, hx, rfl⟩
    have h0 := List.length_pos_iff.2 hx
    refine ⟨?_, fun o ho => ?_⟩
    · rw [List.getElem?_eq_getElem (by simpa using h0), scan_getElem, List.nil_append]
      obtain ⟨x, xs, rfl⟩ := List.exists_cons_of_ne_nil hx
      exact congrArg some (one x)
    · obtain ⟨i, hi, rfl⟩ := List.mem_iff_getElem.1 ho
      rw [scan_getElem, List.nil_append]
      rw [scan_length] at hi
      rcases i with _ | i
      · obtain ⟨x, xs, rfl⟩ := List.exists_cons_of_ne_nil hx
        exact .inr (.inl (one x))
      · rw [List.take_add_one, List.take_add_one, List.getElem?_eq_getElem hi, List.getElem?_eq_getElem (by omega), List.append_assoc]
        simp only [Option.toList_some, List.singleton_append]
        rw [key]
        split_ifs <;> simp
  · rintro ⟨h0, h⟩
    obtain ⟨xs, -, e⟩ := scan_onto (y := fun l : List K => rsi 1 (l.map fin)) (P := fun l => l <+: os) (fun _ => True)
      trivial (fun l o h => (List.prefix_append l [o]).trans h) (fun l o _ hs => by
        have eo : os[l.length]? = some o := by
          obtain ⟨t, rfl⟩ := hs
          simp
        rcases List.eq_nil_or_concat l with rfl | ⟨l, a, rfl⟩
        · rw [List.length_nil, h0] at eo
          injection eo with eo
          exact ⟨0, trivial, by rw [← eo]; exact one 0⟩
        · simp only [List.concat_eq_append, List.append_assoc, List.singleton_append, key, true_and]
          rcases h o (List.mem_of_getElem? eo) with rfl | rfl | rfl
          · exact ⟨a, by simp⟩
          · exact ⟨a - 1, by rw [if_neg (by linarith), if_neg (by linarith)]⟩
          · exact ⟨a + 1, by rw [if_neg (by linarith), if_pos (by linarith)]⟩) os (List.prefix_refl os)
    exact ⟨xs, by rintro rfl; rw [← e] at h0; simp [scan] at h0, e⟩
example := (C98_rsi_one (K := ℚ) [fin 0, nan, fin 100]).2 ⟨rfl, by simp⟩

end TS
