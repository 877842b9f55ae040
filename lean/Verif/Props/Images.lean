import Verif.Props.Possible
import Verif.Props.Recover
/-
C98: exactly which series can be the outputs.
-/
namespace TS
open XR
variable {K : Type} [Field K] [LinearOrder K] [IsStrictOrderedRing K] [Transc K] [FloorRing K] {A B : Type}

omit [Field K] [LinearOrder K] [IsStrictOrderedRing K] [Transc K] [FloorRing K] in
theorem StreamsAs.image {op : Operator (XR K)} {ser : List A → Val (XR K)} {outs : List B → Val (XR K)} {y : List A → B} (h : StreamsAs op ser outs y) (inj : ∀ a b, outs a = outs b → a = b) {os : List B} :
    Image op ser outs os ↔ ∃ xs, xs ≠ [] ∧ scan y [] xs = os := by
  obtain ⟨st, h1, -⟩ := h
  constructor
  · rintro ⟨xs, sf, s0, hx, e⟩
    rw [h1 xs hx] at e
    injection e with e
    exact ⟨xs, hx, inj _ _ (congrArg (·.1) e)⟩
  · rintro ⟨xs, hx, rfl⟩
    exact ⟨xs, _, _, hx, h1 xs hx⟩

/-- choosing the samples one after the other -/
theorem scan_onto {y : List A → B} {P : List B → Prop} (Inv : List A → Prop) (h0 : Inv []) (pre : ∀ os o, P (os ++ [o]) → P os)
    (step : ∀ xs o, Inv xs → P (scan y [] xs ++ [o]) → ∃ x, Inv (xs ++ [x]) ∧ y (xs ++ [x]) = o) (os : List B) (h : P os) : ∃ xs, Inv xs ∧ scan y [] xs = os := by
  induction os using List.reverseRecOn with
  | nil => exact ⟨[], h0, rfl⟩
  | append_singleton os o ih =>
    obtain ⟨xs, hi, rfl⟩ := ih (pre os o h)
    obtain ⟨x, hx, e⟩ := step xs o hi h
    exact ⟨xs ++ [x], hx, by rw [scan_snoc, e]⟩

omit [LinearOrder K] [IsStrictOrderedRing K] [Transc K] [FloorRing K] in
theorem Silent.pre {n : Nat} {os : List K} {o : K} (h : Silent n (os ++ [o])) : Silent n os := fun i hi v hv =>
  h i hi v (by rw [List.getElem?_append_left (List.getElem?_eq_some_iff.1 hv).1]; exact hv)

omit [LinearOrder K] [IsStrictOrderedRing K] [Transc K] [FloorRing K] in
theorem silent_scan {n : Nat} {y : List A → K} (h : ∀ xs, xs ≠ [] → xs.length ≤ n → y xs = 0) (xs : List A) : Silent n (scan y [] xs) := fun i hi o ho => by
  obtain ⟨hl, rfl⟩ := List.getElem?_eq_some_iff.1 ho
  rw [scan_getElem, List.nil_append]
  rw [scan_length] at hl
  exact h _ (by rw [← List.length_pos_iff]; simp; omega) (by simp; omega)

omit [LinearOrder K] [IsStrictOrderedRing K] [Transc K] [FloorRing K] in
theorem Silent.last {n : Nat} {os : List K} {o : K} (h : Silent n (os ++ [o])) (hl : os.length < n) : o = 0 := h os.length hl o (by simp)

omit [LinearOrder K] [IsStrictOrderedRing K] [Transc K] [FloorRing K] in
theorem silent_one {n : Nat} (hn : n ≤ 1) {os : List K} : Silent n (0 :: os) := fun i hi o ho => by
  obtain rfl : i = 0 := by omega
  exact (Option.some.inj ho).symm

/-- Silent at first, then each output can be chosen freely. -/
theorem image_free {op : Operator (XR K)} {y : List K → K} (h : StreamsAs op finSeries finSeries y) {n : Nat} (h0 : ∀ xs, xs ≠ [] → xs.length ≤ n → y xs = 0)
    (h1 : ∀ xs o, n ≤ xs.length → ∃ x, y (xs ++ [x]) = o) (os : List K) : Image op numbers numbers os ↔ os ≠ [] ∧ Silent n os := by
  rw [show (numbers : List K → Val (XR K)) = finSeries from rfl, h.image fun _ _ => finSeries_inj]
  constructor
  · rintro ⟨xs, hx, rfl⟩
    exact ⟨by rw [← List.length_pos_iff, scan_length, List.length_pos_iff]; exact hx, silent_scan h0 xs⟩
  · rintro ⟨ho, hs⟩
    obtain ⟨xs, -, rfl⟩ := scan_onto (y := y) (fun _ => True) trivial (fun _ _ => Silent.pre) (fun xs o _ hs => by
      by_cases hl : xs.length < n
      · exact ⟨0, trivial, by rw [hs.last (by simpa using hl)]; exact h0 _ (by simp) (by simp; omega)⟩
      · obtain ⟨x, hx⟩ := h1 xs o (not_lt.1 hl)
        exact ⟨x, trivial, hx⟩) os hs
    exact ⟨xs, by rintro rfl; exact ho rfl, rfl⟩

omit [Transc K] in
theorem movingAvgK_onto {p : Nat} (hp : 0 < p) (xs : List K) (hl : p - 1 ≤ xs.length) (o : K) : ∃ x, movingAvgK p (xs ++ [x]) = o := by
  have hp0 : (p : K) ≠ 0 := by positivity
  refine ⟨p * o - (window (p - 1) xs).sum, ?_⟩
  have hw (x : K) : window p (xs ++ [x]) = x :: window (p - 1) xs := by
    obtain ⟨q, rfl⟩ : ∃ q, p = q + 1 := ⟨p - 1, by omega⟩
    simp [window]
  rw [movingAvgK, if_neg (by simp; omega), hw, avg, List.sum_cons, List.length_cons, window_length, show min (p - 1) xs.length + 1 = p by omega]
  field_simp
  ring

/-- **C98 SMA**: the outputs are exactly the series that begin with `p - 1` zeros. -/
theorem C98_sma {p : Nat} (hp : 0 < p) (os : List K) : Image (SMA (p : Int)) numbers numbers os ↔ os ≠ [] ∧ Silent (p - 1) os :=
  image_free (sma_reals hp) (fun xs _ hl => by rw [movingAvgK, if_pos (by omega)]) (fun xs o hl => movingAvgK_onto hp xs hl o) os
example := (C98_sma (K := ℚ) (p := 2) (by norm_num) [0, 7, -3]).2 ⟨by simp, silent_one (by norm_num)⟩

omit [Transc K] in
theorem recursiveAvgK_onto {p : Nat} (hp : 0 < p) {w : K} (hw : w ≠ 0) (xs : List K) (hl : p - 1 ≤ xs.length) (o : K) : ∃ x, recursiveAvgK p (fun m x => m + w * (x - m)) (xs ++ [x]) = o := by
  by_cases h : xs.length < p
  · obtain ⟨x, hx⟩ := movingAvgK_onto hp xs hl o
    exact ⟨x, by rw [recursiveAvgK_le (by simp; omega), hx]⟩
  · set m := recursiveAvgK p (fun m x => m + w * (x - m)) xs with em
    refine ⟨m + (o - m) / w, ?_⟩
    rw [recursiveAvgK, List.drop_append_of_le_length (by omega), List.take_append_of_le_length (by omega), List.foldl_append, ← recursiveAvgK, ← em, List.foldl_cons, List.foldl_nil]
    field_simp
    ring

/-- **C98 EMA**: likewise. -/
theorem C98_ema {p : Nat} (hp : 0 < p) (os : List K) : Image (EMA (p : Int)) numbers numbers os ↔ os ≠ [] ∧ Silent (p - 1) os :=
  image_free (ema_reals hp) (fun xs _ hl => by rw [recursiveAvgK_le (by omega), movingAvgK, if_pos (by omega)]) (fun xs o hl => recursiveAvgK_onto hp (by positivity) xs hl o) os
example := (C98_ema (K := ℚ) (p := 2) (by norm_num) [0, 7, -3]).2 ⟨by simp, silent_one (by norm_num)⟩

/-- **C98 RMA**: likewise. -/
theorem C98_rma {p : Nat} (hp : 0 < p) (os : List K) : Image (RMA (p : Int)) numbers numbers os ↔ os ≠ [] ∧ Silent (p - 1) os :=
  image_free (rma_reals hp) (fun xs _ hl => by rw [recursiveAvgK_le (by omega), movingAvgK, if_pos (by omega)])
    (fun xs o hl => recursiveAvgK_onto hp (by have : (p : K) ≠ 0 := by exact_mod_cast hp.ne'
                                              positivity) xs hl o) os
example := (C98_rma (K := ℚ) (p := 2) (by norm_num) [0, 7, -3]).2 ⟨by simp, silent_one (by norm_num)⟩

/-- **C98 Momentum**: the outputs are exactly the series that begin with `p` zeros. -/
theorem C98_momentum {p : Nat} (hp : 0 < p) (os : List K) : Image (Momentum (p : Int)) numbers numbers os ↔ os ≠ [] ∧ Silent p os :=
  image_free (momentum_reals hp) (fun xs _ hl => by rw [momentumK, if_pos hl]) (fun xs o hl =>
    ⟨o + xs.reverse[p - 1]?.getD 0, by rw [momentumK, if_neg (by simp; omega), List.getLastD_concat, lagged_snoc' 0 hp, add_sub_cancel_right]⟩) os
example := (C98_momentum (K := ℚ) (p := 1) (by norm_num) [0, 7, -3]).2 ⟨by simp, silent_one (by norm_num)⟩

/-- **C98 Lag**: likewise. -/
theorem C98_lag {p : Nat} (hp : 0 < p) (os : List K) : Image (Lag (p : Int)) numbers numbers os ↔ os ≠ [] ∧ Silent p os := by
  rw [show (numbers : List K → Val (XR K)) = finSeries from rfl, (lag_reals hp).image fun _ _ => finSeries_inj]
  constructor
  · rintro ⟨xs, hx, rfl⟩
    refine ⟨by rw [← List.length_pos_iff, scan_length, List.length_pos_iff]; exact hx, silent_scan (fun xs _ hl => ?_) xs⟩
    rw [lagged, List.getElem?_eq_none (by simpa using hl), Option.getD_none]
  · rintro ⟨ho, hs⟩
    have hl : (os.drop p ++ List.replicate (min p os.length) (0 : K)).length = os.length := by simp; omega
    refine ⟨os.drop p ++ List.replicate (min p os.length) 0, by rw [← List.length_pos_iff, hl, List.length_pos_iff]; exact ho, List.ext_getElem (by rw [scan_length, hl]) fun i h1 h2 => ?_⟩
    rw [scan_getElem, List.nil_append, lagged_take (by rw [hl]; exact h2)]
    split
    · rename_i h
      rw [List.getElem_append_left (by simp; omega), List.getElem_drop]
      congr 1
      omega
    · exact (hs i (by omega) _ (List.getElem?_eq_getElem h2)).symm
example := (C98_lag (K := ℚ) (p := 1) (by norm_num) [0, 7, -3]).2 ⟨by simp, silent_one (by norm_num)⟩

/-- **C98 Global minimum**: the outputs are exactly the decreasing series. -/
theorem C98_global_min (os : List K) : Image GlobalMinimum numbers numbers os ↔ os ≠ [] ∧ os.Pairwise (· ≥ ·) := by
  rw [show (numbers : List K → Val (XR K)) = finSeries from rfl, globalMin_reals.image fun _ _ => finSeries_inj]
  constructor
  · rintro ⟨xs, hx, rfl⟩
    refine ⟨by rw [← List.length_pos_iff, scan_length, List.length_pos_iff]; exact hx, List.pairwise_iff_getElem.2 fun i j hi hj hij => ?_⟩
    rw [scan_length] at hi hj
    rw [scan_getElem, scan_getElem, List.nil_append, List.nil_append]
    have ne (k : Nat) (hk : k < xs.length) : xs.take (k + 1) ≠ [] := by rw [← List.length_pos_iff]; simp; omega
    exact (leastK_least (ne j hj)).2 _ (List.take_subset_take_left xs (by omega) (leastK_least (ne i hi)).1)
  · rintro ⟨ho, hp⟩
    refine ⟨os, ho, List.ext_getElem (by simp) fun i h1 h2 => ?_⟩
    rw [scan_getElem, List.nil_append]
    refine least_eq ⟨List.mem_take_iff_getElem.2 ⟨i, by omega, rfl⟩, fun x hx => ?_⟩
    obtain ⟨j, hj, rfl⟩ := List.mem_take_iff_getElem.1 hx
    rcases (show j < i ∨ j = i by omega) with h | rfl
    · exact List.pairwise_iff_getElem.1 hp j i _ h2 h
    · exact le_rfl
example := (C98_global_min (K := ℚ) [4, 4, 1]).2 ⟨by simp, by norm_num⟩

/-- **C98 Global maximum**: the outputs are exactly the increasing series. -/
theorem C98_global_max (os : List K) : Image GlobalMaximum numbers numbers os ↔ os ≠ [] ∧ os.Pairwise (· ≤ ·) := by
  rw [show (numbers : List K → Val (XR K)) = finSeries from rfl, globalMax_reals.image fun _ _ => finSeries_inj]
  constructor
  · rintro ⟨xs, hx, rfl⟩
    refine ⟨by rw [← List.length_pos_iff, scan_length, List.length_pos_iff]; exact hx, List.pairwise_iff_getElem.2 fun i j hi hj hij => ?_⟩
    rw [scan_length] at hi hj
    rw [scan_getElem, scan_getElem, List.nil_append, List.nil_append]
    have ne (k : Nat) (hk : k < xs.length) : xs.take (k + 1) ≠ [] := by rw [← List.length_pos_iff]; simp; omega
    exact (greatestK_greatest (ne j hj)).2 _ (List.take_subset_take_left xs (by omega) (greatestK_greatest (ne i hi)).1)
  · rintro ⟨ho, hp⟩
    refine ⟨os, ho, List.ext_getElem (by simp) fun i h1 h2 => ?_⟩
    rw [scan_getElem, List.nil_append]
    refine greatest_eq ⟨List.mem_take_iff_getElem.2 ⟨i, by omega, rfl⟩, fun x hx => ?_⟩
    obtain ⟨j, hj, rfl⟩ := List.mem_take_iff_getElem.1 hx
    rcases (show j < i ∨ j = i by omega) with h | rfl
    · exact List.pairwise_iff_getElem.1 hp j i _ h2 h
    · exact le_rfl
example := (C98_global_max (K := ℚ) [1, 4, 4]).2 ⟨by simp, by norm_num⟩

omit [IsStrictOrderedRing K] [Transc K] [FloorRing K] in
theorem returnK_take {p i : Nat} {xs : List K} (hi : i < xs.length) : returnK p (xs.take (i + 1)) = if h : p ≤ i then (if xs[i - p]'(by omega) = 0 then 0 else xs[i] / xs[i - p]'(by omega) - 1) else 0 := by
  have hg : (xs.take (i + 1)).getLastD 0 = xs[i] := by
    rw [List.take_succ_eq_append_getElem hi, List.getLastD_concat]
  rw [returnK, lagged_take hi, hg]
  have hn : (xs.take (i + 1)).length = i + 1 := by simp; omega
  rw [hn]
  by_cases h : p ≤ i
  · simp only [h, dif_pos, show ¬ (i + 1 ≤ p) by omega, false_or]
  · simp [h]

/-- **C98 Return**: the outputs are exactly the series that begin with `p` zeros and in which `p` steps after every -1 there is a zero. -/
theorem C98_return {p : Nat} (hp : 0 < p) (os : List K) : Image (Return (p : Int)) numbers numbers os ↔ os ≠ [] ∧ Silent p os ∧ ∀ i, os[i]? = some (-1) → ∀ o, os[i + p]? = some o → o = 0 := by
  rw [show (numbers : List K → Val (XR K)) = finSeries from rfl, (return_reals hp).image fun _ _ => finSeries_inj]
  constructor
  · rintro ⟨xs, hx, rfl⟩
    refine ⟨by rw [← List.length_pos_iff, scan_length, List.length_pos_iff]; exact hx, silent_scan (fun xs _ hl => by rw [returnK, if_pos (.inl hl)]) xs, fun i hi o ho => ?_⟩
    obtain ⟨h1, e1⟩ := List.getElem?_eq_some_iff.1 hi
    obtain ⟨h2, rfl⟩ := List.getElem?_eq_some_iff.1 ho
    rw [scan_length] at h1 h2
    rw [scan_getElem, List.nil_append, returnK_take h1] at e1
    rw [scan_getElem, List.nil_append, returnK_take h2, dif_pos (by omega)]
    by_cases h : p ≤ i
    · rw [dif_pos h] at e1
      split at e1
      · norm_num at e1
      · rename_i hne
        have hz : xs[i] = 0 := by
          have : xs[i] / xs[i - p] = 0 := by linarith
          exact (div_eq_zero_iff.1 this).resolve_right hne
        rw [if_pos (by simpa using hz)]
    · rw [dif_neg h] at e1
      norm_num at e1
  · rintro ⟨ho, hs⟩
    obtain ⟨xs, -, rfl⟩ := scan_onto (y := returnK p) (P := fun os => Silent p os ∧ ∀ i, os[i]? = some (-1) → ∀ o, os[i + p]? = some o → o = 0)
      (fun xs => ∀ i : Nat, xs[i]? = some 0 → (scan (returnK p) [] xs)[i]? = some (-1)) (by simp)
      (fun os o h => ⟨h.1.pre, fun i hi v hv => h.2 i (by rw [List.getElem?_append_left (List.getElem?_eq_some_iff.1 hi).1]; exact hi) v
        (by rw [List.getElem?_append_left (List.getElem?_eq_some_iff.1 hv).1]; exact hv)⟩)
      (fun xs o hi h => by
        have inv (x : K) (hx : x = 0 → returnK p (xs ++ [x]) = -1) : ∀ i : Nat, (xs ++ [x])[i]? = some 0 → (scan (returnK p) [] (xs ++ [x]))[i]? = some (-1) := fun i h0 => by
          rw [scan_snoc]
          rcases lt_trichotomy i xs.length with k | rfl | k
          · rw [List.getElem?_append_left k] at h0
            rw [List.getElem?_append_left (by simpa using k)]
            exact hi i h0
          · simp at h0
            have := hx h0
            rw [List.getElem?_append_right (by simp)]
            simp [this]
          · rw [List.getElem?_eq_none (by simp; omega)] at h0
            cases h0
        have out (x : K) : returnK p (xs ++ [x]) = if h : p ≤ xs.length then (if xs[xs.length - p]'(by omega) = 0 then 0 else x / xs[xs.length - p]'(by omega) - 1) else 0 := by
          have := returnK_take (p := p) (i := xs.length) (xs := xs ++ [x]) (by simp)
          rw [List.take_of_length_le (by simp)] at this
          rw [this]
          by_cases hl : p ≤ xs.length
          · simp only [hl, dif_pos, List.getElem_append_left (show xs.length - p < xs.length by omega)]
            simp
          · simp [hl]
        by_cases hl : p ≤ xs.length
        · have hlt : xs.length - p < xs.length := by omega
          by_cases hv : xs[xs.length - p] = 0
          · refine ⟨1, inv 1 (by simp), ?_⟩
            rw [out, dif_pos hl, if_pos hv]
            have h1 := hi (xs.length - p) (by rw [List.getElem?_eq_getElem hlt, hv])
            refine (h.2 (xs.length - p) (by rw [List.getElem?_append_left (by simpa using hlt)]; exact h1) o ?_).symm
            rw [show xs.length - p + p = (scan (returnK p) [] xs).length by simp; omega]
            simp
          · have e : returnK p (xs ++ [(o + 1) * xs[xs.length - p]]) = o := by
              rw [out, dif_pos hl, if_neg hv, mul_div_cancel_right₀ _ hv, add_sub_cancel_right]
            refine ⟨_, inv _ fun h0 => ?_, e⟩
            rw [e]
            linarith [(mul_eq_zero.1 h0).resolve_right hv]
        · refine ⟨1, inv 1 (by simp), ?_⟩
          rw [out, dif_neg hl, h.1.last (by simp; omega)]) os hs
    exact ⟨xs, by rintro rfl; exact ho rfl, rfl⟩
example := (C98_return (K := ℚ) (p := 1) (by norm_num) [0, 7, -1, 0]).2 ⟨by simp, silent_one (by norm_num), by
  intro i hi o ho
  rcases i with _ | _ | _ | _ | i
  · norm_num at hi
  · norm_num at hi
  · simpa using ho.symm
  · norm_num at hi
  · cases hi⟩

/-! ### Zero crossover -/

/-- the last number that is not zero -/
def lastTurn (d : Int) (os : List Int) : Int := os.foldl (fun d o => if o = 0 then d else o) d

theorem lastTurn_snoc (d : Int) (os : List Int) (o : Int) : lastTurn d (os ++ [o]) = if o = 0 then lastTurn d os else o := by simp [lastTurn]

theorem lastTurn_at (d : Int) (os : List Int) : ∃ i, i ≤ os.length ∧ (d :: os)[i]? = some (lastTurn d os) ∧ ∀ k, i < k → k ≤ os.length → (d :: os)[k]? = some 0 := by
  induction os using List.reverseRecOn with
  | nil => exact ⟨0, le_rfl, rfl, fun k h1 h2 => by simp at h2; omega⟩
  | append_singleton os o ih =>
    rw [lastTurn_snoc]
    obtain ⟨i, hi, e, h⟩ := ih
    split
    · rename_i ho
      refine ⟨i, by simp; omega, by rw [← List.cons_append, List.getElem?_append_left (by simp; omega)]; exact e, fun k h1 h2 => ?_⟩
      rw [← List.cons_append]
      rcases (show k ≤ os.length ∨ k = os.length + 1 by simp at h2; omega) with h3 | rfl
      · rw [List.getElem?_append_left (by simp; omega)]; exact h k h1 h3
      · rw [List.getElem?_append_right (by simp)]; simp [ho]
    · refine ⟨os.length + 1, by simp, by rw [← List.cons_append, List.getElem?_append_right (by simp)]; simp, fun k h1 h2 => by simp at h2; omega⟩

theorem lastTurn_sign {d : Int} (hd : d = 1 ∨ d = -1) {os : List Int} (h : ∀ o ∈ os, o = -1 ∨ o = 0 ∨ o = 1) : lastTurn d os = 1 ∨ lastTurn d os = -1 := by
  induction os using List.reverseRecOn with
  | nil => exact hd
  | append_singleton os o ih =>
    rw [lastTurn_snoc]
    split
    · exact ih fun o ho => h o (by simp [ho])
    · rcases h o (by simp) with h | h | h
      · exact .inr h
      · contradiction
      · exact .inl h

theorem Alternates.pre {os : List Int} {o : Int} (h : Alternates (os ++ [o])) : Alternates os := fun i j hij a b ha hb h1 h2 hk => by
  have hj := (List.getElem?_eq_some_iff.1 hb).1
  refine h i j hij a b (by rw [List.getElem?_append_left (by omega)]; exact ha) (by rw [List.getElem?_append_left hj]; exact hb) h1 h2 fun k h3 h4 => ?_
  rw [List.getElem?_append_left (by omega)]
  exact hk k h3 h4

/-- The direction before an alternating sequence can be chosen such that it is turned first. -/
theorem Alternates.before {os : List Int} (h : Alternates os) (hv : ∀ o ∈ os, o = -1 ∨ o = 0 ∨ o = 1) : ∃ d, (d = 1 ∨ d = -1) ∧ Alternates (d :: os) := by
  have key (d : Int) (hd : ∀ (j : Nat) b, os[j]? = some b → b ≠ 0 → (∀ k, k < j → os[k]? = some 0) → b = -d) : Alternates (d :: os) := fun i j hij a b ha hb h1 h2 hk => by
    obtain ⟨j, rfl⟩ : ∃ m, j = m + 1 := ⟨j - 1, by omega⟩
    rw [List.getElem?_cons_succ] at hb
    rcases i with _ | i
    · simp at ha
      rw [← ha]
      exact hd j b hb h2 fun k hk' => by simpa using hk (k + 1) (by omega) (by omega)
    · rw [List.getElem?_cons_succ] at ha
      exact h i j (by omega) a b ha hb h1 h2 fun k h3 h4 => by simpa using hk (k + 1) (by omega) (by omega)
  by_cases hz : ∃ j : Nat, ∃ b, os[j]? = some b ∧ b ≠ 0 ∧ ∀ k, k < j → os[k]? = some 0
  · obtain ⟨j, b, hb, h0, hk⟩ := hz
    refine ⟨-b, ?_, key (-b) fun j' b' hb' h0' hk' => ?_⟩
    · rcases hv b (List.mem_of_getElem? hb) with e | e | e <;> simp_all
    · rcases lt_trichotomy j j' with l | rfl | l
      · have := hk' j l
        rw [hb] at this
        exact absurd (Option.some.inj this) h0
      · rw [hb] at hb'
        simp [Option.some.inj hb']
      · have := hk j' l
        rw [hb'] at this
        exact absurd (Option.some.inj this) h0'
  · exact ⟨1, .inl rfl, key 1 fun j b hb h0 hk => absurd ⟨j, b, hb, h0, hk⟩ hz⟩

omit [Transc K] [FloorRing K] in
theorem turn_onto {d : Int} (hd : d = 1 ∨ d = -1) (os : List Int) (h0 : os[0]? = some 0) (hv : ∀ o ∈ os, o = -1 ∨ o = 0 ∨ o = 1) (ha : Alternates (d :: os)) :
    ∃ xs : List K, xs ≠ [] ∧ scan (fun l => turnAt l (l.length - 1)) [] xs = os ∧ lastSign xs = lastTurn d os := by
  induction os using List.reverseRecOn with
  | nil => simp at h0
  | append_singleton os o ih =>
    rcases eq_or_ne os [] with rfl | hn
    · obtain rfl : o = 0 := by simpa using h0
      refine ⟨[(d : K)], by simp, by simp [scan, turnAt], ?_⟩
      rcases hd with rfl | rfl <;> simp [lastSign, lastTurn, sgn]
    · obtain ⟨xs, hx, e, hs⟩ := ih (by rw [List.getElem?_append_left (List.length_pos_iff.2 hn)] at h0; exact h0) (fun o ho => hv o (by simp [ho])) (by rw [← List.cons_append] at ha; exact ha.pre)
      have hl : os.length = xs.length := by rw [← e]; simp
      have hlen := List.length_pos_iff.2 hx
      have ht : turnAt (xs ++ [(o : K)]) ((xs ++ [(o : K)]).length - 1) = if (o : K) = 0 ∨ sgn (o : K) = lastSign xs then 0 else sgn (o : K) := by
        simp [turnAt, show xs ≠ [] from hx]
      have hlast : lastSign (xs ++ [(o : K)]) = if (o : K) = 0 then lastSign xs else sgn (o : K) := by simp [lastSign]
      have hsg : sgn (o : K) = o := by rcases hv o (by simp) with rfl | rfl | rfl <;> simp [sgn]
      refine ⟨xs ++ [(o : K)], by simp, ?_, ?_⟩
      · rw [scan_snoc, e]
        congr 2
        rw [ht, hsg, hs]
        by_cases h : o = 0
        · simp [h]
        · rw [if_neg]
          rw [not_or]
          refine ⟨by exact_mod_cast h, fun hc => ?_⟩
          obtain ⟨i, hi, e1, e2⟩ := lastTurn_at d os
          have sg := lastTurn_sign hd (os := os) fun o ho => hv o (by simp [ho])
          have := ha i (os.length + 1) (by omega) (lastTurn d os) o (by rw [← List.cons_append, List.getElem?_append_left (by simp; omega)]; exact e1)
            (by rw [← List.cons_append, List.getElem?_append_right (by simp)]; simp) (by rcases sg with h | h <;> rw [h] <;> decide) h
            (fun k h1 h2 => by rw [← List.cons_append, List.getElem?_append_left (by simp; omega)]; exact e2 k h1 (by omega))
          omega
      · rw [hlast, lastTurn_snoc, hsg, hs]
        simp

/-- **C98 Zero crossover**: the outputs are exactly the series of -1, 0 and 1 that begin with 0 and in which the numbers that are not zero alternate. -/
theorem C98_zero_crossover (os : List Int) : Image (ZeroCrossoverSignal : Operator (XR K)) numbers vIBuf os ↔ os[0]? = some 0 ∧ (∀ o ∈ os, o = -1 ∨ o = 0 ∨ o = 1) ∧ Alternates os := by
  constructor
  · rintro ⟨xs, sf, s0, hx, e⟩
    obtain ⟨os', sf', s0', ds, e', hl, h0, -, -, -, hv, ha⟩ := C33_zero_crossover (K := K) hx
    rw [show numbers xs = finSeries xs from rfl, e'] at e
    injection e with e
    obtain rfl : os' = os := vIBuf_inj (congrArg (·.1) e)
    exact ⟨h0, hv, ha⟩
  · rintro ⟨h0, hv, ha⟩
    rw [show (numbers : List K → Val (XR K)) = finSeries from rfl, zc_reals.image fun _ _ => vIBuf_inj]
    obtain ⟨d, hd, h⟩ := ha.before hv
    obtain ⟨xs, hx, e, -⟩ := turn_onto (K := K) hd os h0 hv h
    exact ⟨xs, hx, e⟩
example := (C98_zero_crossover (K := ℚ) [0, 1]).2 ⟨rfl, by simp, fun i j hij a b h1 h2 h3 h4 _ => by
  have := (List.getElem?_eq_some_iff.1 h2).1
  obtain ⟨rfl, rfl⟩ : i = 0 ∧ j = 1 := by simp at this; omega
  simp at h1
  exact absurd h1.symm h3⟩

end TS
