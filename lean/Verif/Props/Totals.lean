import Verif.Props.Subsample
import Verif.Props.Images3
/-
C102: what the outputs add up to.
-/
namespace TS
open XR

section
variable {α : Type} {A B T : Type}

theorem StreamsAs.totals {op : Operator α} {ser : List A → Val α} {outs : List B → Val α} {y : List A → B} (h : StreamsAs op ser outs y) {ok : A → Prop} {f : List B → T} {g : List A → T}
    (key : ∀ xs : List A, (∀ x ∈ xs, ok x) → f (scan y [] xs) = g xs) : Totals op ser outs ok f g := fun xs hx hok => by
  obtain ⟨st, h, -⟩ := h
  exact ⟨_, _, _, h xs hx, by simp, key xs hok⟩

theorem scan_induction {y : List A → B} {ok : A → Prop} {f : List B → T} {g : List A → T} (h0 : f [] = g [])
    (hs : ∀ h a, (∀ x ∈ h ++ [a], ok x) → f (scan y [] h) = g h → f (scan y [] h ++ [y (h ++ [a])]) = g (h ++ [a])) (xs : List A) : (∀ x ∈ xs, ok x) → f (scan y [] xs) = g xs := by
  induction xs using List.reverseRecOn with
  | nil => intro _; simpa [scan_nil] using h0
  | append_singleton h a ih =>
    intro hok
    rw [scan_snoc]
    exact hs h a hok (ih fun x hx => hok x (by simp [hx]))

theorem drop_snoc (h : List A) (a : A) (p : Nat) : (h ++ [a]).drop p = if p ≤ h.length then h.drop p ++ [a] else [] := by
  split
  · rw [List.drop_append_of_le_length (by omega)]
  · rw [List.drop_eq_nil_of_le (by simp; omega)]

theorem take_lag_snoc (z : A) (h : List A) (a : A) {p : Nat} (hp : 0 < p) : (h ++ [a]).take ((h ++ [a]).length - p) = if p ≤ h.length then h.take (h.length - p) ++ [lagged z p (h ++ [a])] else [] := by
  split
  next hl =>
    have e : (h ++ [a]).length - p = h.length - p + 1 := by simp; omega
    have := lagged_take (z := z) (p := p) (xs := h ++ [a]) (i := h.length) (by simp)
    rw [List.take_of_length_le (by simp), dif_pos hl] at this
    rw [this, e, List.take_succ_eq_append_getElem (by simp), List.take_append_of_le_length (by omega)]
  · rw [show (h ++ [a]).length - p = 0 by simp; omega, List.take_zero]

theorem lagged_short (z : A) (h : List A) {p : Nat} (hl : h.length ≤ p) : lagged z p h = z := by
  rw [lagged, List.getElem?_eq_none (by simpa using hl)]; rfl
end

section
variable {K : Type} [Field K] [LinearOrder K] [IsStrictOrderedRing K] [Transc K] [FloorRing K]

/-- **C102 Lag**: the outputs add up to all but the last `p` samples. -/
theorem C102_lag {p : Nat} (hp : 0 < p) : Totals (Lag (p : Int) : Operator (XR K)) numbers numbers (fun _ => True) List.sum (fun xs => (xs.take (xs.length - p)).sum) :=
  (lag_reals hp).totals <| scan_induction (by simp) fun h a _ ih => by
    rw [take_lag_snoc 0 h a hp, List.sum_append, ih]
    split
    · simp
    next hl => rw [lagged_short 0 _ (by simp; omega), show h.length - p = 0 by omega]; simp

/-- **C102 Momentum**: the outputs add up to the last samples minus the first ones. -/
theorem C102_momentum {p : Nat} (hp : 0 < p) : Totals (Momentum (p : Int) : Operator (XR K)) numbers numbers (fun _ => True) List.sum (fun xs => (xs.drop p).sum - (xs.take (xs.length - p)).sum) :=
  (momentum_reals hp).totals <| scan_induction (by simp) fun h a _ ih => by
    rw [take_lag_snoc 0 h a hp, drop_snoc, List.sum_append, ih, momentumK]
    by_cases hl : p ≤ h.length
    · rw [if_pos hl, if_pos hl, if_neg (by simp; omega), List.getLastD_concat]
      simp only [List.sum_append, List.sum_singleton]
      ring
    · rw [if_neg hl, if_neg hl, if_pos (by simp; omega), show h.length - p = 0 by omega, List.drop_eq_nil_of_le (by omega)]
      simp

/-- **C102 Return**: compounded, the outputs lead from the first samples to the last ones. -/
theorem C102_return {p : Nat} (hp : 0 < p) : Totals (Return (p : Int) : Operator (XR K)) numbers numbers (fun x => x ≠ 0) (fun os => (os.map fun r => 1 + r).prod) (fun xs => (xs.drop p).prod / (xs.take (xs.length - p)).prod) :=
  (return_reals hp).totals <| scan_induction (ok := fun x : K => x ≠ 0) (f := fun os : List K => (os.map fun r => 1 + r).prod) (g := fun xs => (xs.drop p).prod / (xs.take (xs.length - p)).prod) (by simp) fun h a hok ih => by
    rw [take_lag_snoc 0 h a hp, drop_snoc, List.map_append, List.prod_append, ih, returnK]
    by_cases hl : p ≤ h.length
    · have h7 : lagged 0 p (h ++ [a]) ≠ 0 := by
        have := lagged_take (z := 0) (p := p) (xs := h ++ [a]) (i := h.length) (by simp)
        rw [List.take_of_length_le (by simp), dif_pos hl] at this
        rw [this]
        exact hok _ (List.getElem_mem _)
      rw [if_pos hl, if_pos hl, if_neg (by simp only [h7, or_false, List.length_append, List.length_singleton]; omega), List.getLastD_concat]
      simp only [List.prod_append, List.prod_singleton, List.map_cons, List.map_nil]
      generalize lagged 0 p (h ++ [a]) = b
      rw [add_sub_cancel, div_mul_div_comm]
    · rw [if_neg hl, if_neg hl, if_pos (by left; simp; omega), show h.length - p = 0 by omega, List.drop_eq_nil_of_le (by omega)]
      simp

/-- **C102 SimpleMovingAverage**: `p` times the sum of the outputs is the sum over the `p` positions in the window of the samples that have been there when it was full. -/
theorem C102_sma {p : Nat} (hp : 0 < p) : Totals (SMA (p : Int) : Operator (XR K)) numbers numbers (fun _ => True) (fun os => p * os.sum) (fun xs => ((List.range p).map fun j => ((xs.drop j).take (xs.length + 1 - p)).sum).sum) :=
  (sma_reals hp).totals <| scan_induction (ok := fun _ => True) (f := fun os : List K => p * os.sum) (g := fun xs => ((List.range p).map fun j => ((xs.drop j).take (xs.length + 1 - p)).sum).sum) (by simp) fun h a _ ih => by
    rw [List.sum_append, mul_add, ih, movingAvgK]
    by_cases hl : p ≤ h.length + 1
    · have hw : (window p (h ++ [a])).sum = ((List.range p).map fun j => (h ++ [a]).getD (j + (h.length + 1 - p)) 0).sum := by
        rw [window, List.take_reverse, List.sum_reverse]
        congr 1
        refine List.ext_getElem (by simp; omega) fun j h1 h2 => ?_
        simp only [List.length_map, List.length_range] at h2
        rw [List.getElem_drop, List.getElem_map, List.getElem_range, List.getD_eq_getElem?_getD, List.getElem?_eq_getElem (by simp; omega), Option.getD_some]
        congr 1
        simp only [List.length_append, List.length_singleton]
        omega
      rw [if_neg (by simp; omega), List.sum_singleton, avg, hw, window_length, show min p (h ++ [a]).length = p by simp; omega, mul_div_cancel₀ _ (by exact_mod_cast hp.ne'), ← List.sum_map_add]
      congr 1
      refine List.map_congr_left fun j hj => ?_
      have hj := List.mem_range.1 hj
      rw [show (h ++ [a]).length + 1 - p = h.length + 1 - p + 1 by simp; omega, List.take_succ_eq_append_getElem (by simp; omega), List.sum_append, List.sum_singleton, List.getElem_drop,
        List.getD_eq_getElem?_getD, List.getElem?_eq_getElem (by simp; omega), Option.getD_some]
      congr 2
      rw [List.drop_append_of_le_length (by omega), List.take_append_of_le_length (by simp; omega)]
    · rw [if_pos (by simp; omega), show h.length + 1 - p = 0 by omega, show (h ++ [a]).length + 1 - p = 0 by simp; omega]
      simp

omit [Transc K] [FloorRing K] in
theorem rec_totals {p : Nat} (hp : 0 < p) (w : K) : ∀ xs : List K, (∀ x ∈ xs, True) →
    (fun os : List K => os.getLastD 0 - os.getD (p - 1) 0 + w * (os.dropLast.drop (p - 1)).sum) (scan (recursiveAvgK p (fun m x => m + w * (x - m))) [] xs) = w * (xs.drop p).sum :=
  scan_induction (f := fun os : List K => os.getLastD 0 - os.getD (p - 1) 0 + w * (os.dropLast.drop (p - 1)).sum) (g := fun xs => w * (xs.drop p).sum) (by simp) fun h a _ ih => by
    have ih : (scan (recursiveAvgK p (fun m x => m + w * (x - m))) [] h).getLastD 0 - (scan (recursiveAvgK p (fun m x => m + w * (x - m))) [] h).getD (p - 1) 0 +
      w * ((scan (recursiveAvgK p (fun m x => m + w * (x - m))) [] h).dropLast.drop (p - 1)).sum = w * (h.drop p).sum := ih
    show (_ ++ [_]).getLastD 0 - (_ ++ [_]).getD (p - 1) 0 + w * ((_ ++ [_]).dropLast.drop (p - 1)).sum = _
    rw [List.getLastD_concat, List.dropLast_concat, drop_snoc]
    by_cases hl : p ≤ h.length
    · have hne : h ≠ [] := by rintro rfl; simp at hl; omega
      obtain ⟨l, b, rfl⟩ : ∃ l b, h = l ++ [b] := ⟨_, _, (List.dropLast_append_getLast hne).symm⟩
      have e : recursiveAvgK p (fun m x => m + w * (x - m)) (l ++ [b] ++ [a]) = recursiveAvgK p (fun m x => m + w * (x - m)) (l ++ [b]) + w * (a - recursiveAvgK p (fun m x => m + w * (x - m)) (l ++ [b])) := by
        rw [recursiveAvgK, drop_snoc, if_pos hl, List.take_append_of_le_length hl, List.foldl_append]
        rfl
      rw [if_pos hl, List.sum_append, List.sum_singleton, e]
      rw [scan_snoc, List.getLastD_concat, List.dropLast_concat] at ih
      rw [scan_snoc, drop_snoc, if_pos (by simp at hl; simp; omega), List.sum_append, List.sum_singleton]
      have e' : (scan (recursiveAvgK p fun m x => m + w * (x - m)) [] (l ++ [b]) ++ [recursiveAvgK p (fun m x => m + w * (x - m)) (l ++ [b]) + w * (a - recursiveAvgK p (fun m x => m + w * (x - m)) (l ++ [b]))]).getD (p - 1) 0 = (scan (recursiveAvgK p fun m x => m + w * (x - m)) [] (l ++ [b])).getD (p - 1) 0 := by
        rw [List.getD_eq_getElem?_getD, List.getElem?_append_left (by rw [scan_length]; omega), List.getD_eq_getElem?_getD]
      rw [scan_snoc] at e'
      rw [e']
      generalize recursiveAvgK p (fun m x => m + w * (x - m)) (l ++ [b]) = m at ih ⊢
      linear_combination ih
    · rw [if_neg hl, List.drop_eq_nil_of_le (by simp; omega)]
      by_cases h1 : h.length + 1 = p
      · rw [List.getD_eq_getElem?_getD, List.getElem?_append_right (by simp; omega)]
        simp [show p - 1 - h.length = 0 by omega]
      · rw [List.getD_eq_getElem?_getD, List.getElem?_eq_none (by simp; omega), recursiveAvgK, List.drop_eq_nil_of_le (by simp; omega), List.foldl_nil, movingAvgK, if_pos (by simp; omega)]
        simp

/-- **C102 ExponentialMovingAverage**: weighted, the samples after the warm-up are the averages before them plus the change of the average. -/
theorem C102_ema {p : Nat} (hp : 0 < p) : Totals (EMA (p : Int) : Operator (XR K)) numbers numbers (fun _ => True)
    (fun os => os.getLastD 0 - os.getD (p - 1) 0 + 2 / ((p : K) + 1) * (os.dropLast.drop (p - 1)).sum) (fun xs => 2 / ((p : K) + 1) * (xs.drop p).sum) :=
  (ema_reals hp).totals (rec_totals hp _)

/-- **C102 RollingMovingAverage** -/
theorem C102_rma {p : Nat} (hp : 0 < p) : Totals (RMA (p : Int) : Operator (XR K)) numbers numbers (fun _ => True)
    (fun os => os.getLastD 0 - os.getD (p - 1) 0 + 1 / (p : K) * (os.dropLast.drop (p - 1)).sum) (fun xs => 1 / (p : K) * (xs.drop p).sum) :=
  (rma_reals hp).totals (rec_totals hp _)

/-- **C102 Zero crossover**: twice the sum of the signals is the difference between the last direction and that of the first sample. -/
theorem C102_zero_crossover : Totals (ZeroCrossoverSignal : Operator (XR K)) numbers vIBuf (fun _ => True) (fun os => 2 * os.sum) (fun xs => lastSign xs - lastSign (xs.take 1)) :=
  zc_reals.totals <| scan_induction (ok := fun _ => True) (f := fun os : List Int => 2 * os.sum) (g := fun xs : List K => lastSign xs - lastSign (xs.take 1)) (by simp) fun h a _ ih => by
    rw [List.sum_append, mul_add, ih]
    rcases eq_or_ne h [] with rfl | hh
    · simp [turnAt]
    · have h1 : h.length ≠ 0 := by simpa using hh
      have := lastSign_step (xs := h ++ [a]) (i := h.length) (by simp) h1
      rw [List.take_of_length_le (by simp), List.take_left] at this
      rw [List.take_append_of_le_length (by omega), this]
      simp only [List.length_append, List.length_singleton, Nat.add_sub_cancel, List.sum_singleton]
      split
      next h2 => rw [h2]; ring
      next h2 =>
        have h3 := (turnAt_sign h2).2
        rw [List.take_left] at h3
        omega

omit [IsStrictOrderedRing K] [Transc K] [FloorRing K] in
theorem signal_totals {A : Type} {u : List A → K} {n : Nat} (hn : 0 < n) (xs : List A) :
    2 * (scan (fun l => if l.length ≤ n then 0 else turnAt (scan u [] l) (l.length - 1)) [] xs).sum = lastSign (scan u [] xs) - lastSign ((scan u [] xs).take n) :=
  scan_induction (ok := fun _ => True) (f := fun os : List Int => 2 * os.sum) (g := fun xs : List A => lastSign (scan u [] xs) - lastSign ((scan u [] xs).take n)) (by simp [scan_nil]) (fun h a _ ih => by
    rw [List.sum_append, mul_add, ih, List.sum_singleton]
    by_cases hl : h.length + 1 ≤ n
    · rw [if_pos (by simpa using hl), List.take_of_length_le (by simp; omega), List.take_of_length_le (by simp; omega)]
      ring
    · have hh : h.length ≠ 0 := by omega
      have hs := lastSign_step (xs := scan u [] (h ++ [a])) (i := h.length) (by simp) hh
      have e : (scan u [] (h ++ [a])).take h.length = scan u [] h := by
        rw [scan_snoc]
        exact List.take_left' (by simp)
      rw [List.take_of_length_le (by simp), e] at hs
      have e' : (scan u [] (h ++ [a])).take n = (scan u [] h).take n := by rw [scan_snoc, List.take_append_of_le_length (by simp; omega)]
      rw [if_neg (by simpa using hl), hs, e', List.length_append, List.length_singleton, Nat.add_sub_cancel]
      split
      next h2 => rw [h2]; ring
      next h2 =>
        have h3 := (turnAt_sign h2).2
        rw [e] at h3
        omega) xs fun _ _ => trivial

/-- **C102 SimpleMovingAverageCrossoverSignal**: twice the sum of the signals is the change of the direction of the crossover since the end of the warm-up. -/
theorem C102_crossover_signal {slow fast : Nat} (hs : 0 < slow) (hf : 0 < fast) {xs : List K} (hx : xs ≠ []) : ∃ os us s1 s2 s3 s4,
    call (SMACrossoverSignal (slow : Int) fast : Operator (XR K)) (numbers xs) none = .ok (vIBuf os, s1, s2) ∧ call (SMACrossover (slow : Int) fast : Operator (XR K)) (numbers xs) none = .ok (numbers us, s3, s4) ∧
      os.length = xs.length ∧ us.length = xs.length ∧ 2 * os.sum = lastSign us - lastSign (us.take slow) := by
  obtain ⟨st, h, -⟩ := smaSignal_reals (K := K) hs hf
  obtain ⟨st', h', -⟩ := crossover_reals (K := K) hs hf
  exact ⟨_, _, _, _, _, _, h xs hx, h' xs hx, by simp, by simp, signal_totals hs xs⟩

/-- **C102 MACDSignal**: the same with the histogram of MACD. -/
theorem C102_macd_signal {slow fast m : Nat} (hs : 0 < slow) (hf : 0 < fast) (hm : 2 ≤ m) {xs : List K} (hx : xs ≠ []) : ∃ os us s1 s2 s3 s4,
    call (MACDSignal (slow : Int) fast m : Operator (XR K)) (numbers xs) none = .ok (vIBuf os, s1, s2) ∧ call (MACD (slow : Int) fast m : Operator (XR K)) (numbers xs) none = .ok (finSeries5 us, s3, s4) ∧
      os.length = xs.length ∧ us.length = xs.length ∧ 2 * os.sum = lastSign (us.map fun u => u.2.2.2.2) - lastSign ((us.map fun u => u.2.2.2.2).take (slow + m - 2)) := by
  obtain ⟨st, h, -⟩ := macdSignal_reals (K := K) hs hf (m := m) (by omega)
  obtain ⟨st', h', -⟩ := macd_reals (K := K) hs hf (m := m) (by omega)
  refine ⟨_, _, _, _, _, _, h xs hx, h' xs hx, by simp, by simp, ?_⟩
  have e : (scan (macdAllK slow fast m) [] xs).map (fun u => u.2.2.2.2) = scan (macdHistK slow fast m) [] xs := by
    simp only [scan, List.map_map]; rfl
  rw [e, ← signal_totals (by omega) xs]
  congr 3
  funext l
  exact if_congr (by omega) rfl rfl
end

/-- **C102 LogarithmicReturn**: the outputs add up to the logarithms of the last samples minus those of the first ones. -/
theorem C102_logReturn {p : Nat} (hp : 0 < p) : Totals (LogReturn (p : Int) : Operator (XR ℝ)) numbers numbers (fun x => 0 < x) List.sum
    (fun xs => ((xs.drop p).map Real.log).sum - ((xs.take (xs.length - p)).map Real.log).sum) := fun xs hx hok => by
  obtain ⟨sf, s0, h⟩ := (C37_logReturn_streams (α := XR ℝ) XR.zero_eq_zero hp).on (y' := logGrowth p) XR.fin XR.fin (P := fun x => 0 < x) (fun l _ hl => logReturn_on p hl) hx hok
  refine ⟨_, sf, s0, h, by simp, ?_⟩
  refine scan_induction (g := fun xs => ((xs.drop p).map Real.log).sum - ((xs.take (xs.length - p)).map Real.log).sum) (by simp) (fun h a hok ih => ?_) xs hok
  beta_reduce at ih ⊢
  rw [take_lag_snoc 0 h a hp, drop_snoc, List.sum_append, ih, logGrowth]
  by_cases hl : p ≤ h.length
  · have h7 : 0 < lagged 0 p (h ++ [a]) := by
      have := lagged_take (z := (0 : ℝ)) (p := p) (xs := h ++ [a]) (i := h.length) (by simp)
      rw [List.take_of_length_le (by simp), dif_pos hl] at this
      rw [this]
      exact hok _ (List.getElem_mem _)
    have h8 : 0 < a := hok a (by simp)
    have e : (h ++ [a])[(h ++ [a]).length - 1 - p]'(by simp) = lagged 0 p (h ++ [a]) := by
      have := lagged_take (z := (0 : ℝ)) (p := p) (xs := h ++ [a]) (i := h.length) (by simp)
      rw [List.take_of_length_le (by simp), dif_pos hl] at this
      rw [this]
      simp
    have e1 : (h ++ [a])[(h ++ [a]).length - 1]'(by simp) = a := by simp
    rw [if_pos hl, if_pos hl, dif_pos (by simp; omega), e, e1, List.sum_singleton, Real.log_div h8.ne' h7.ne']
    simp only [List.map_append, List.map_cons, List.map_nil, List.sum_append, List.sum_singleton]
    ring
  · rw [if_neg hl, if_neg hl, dif_neg (by simp; omega), show h.length - p = 0 by omega, List.drop_eq_nil_of_le (by omega)]
    simp

example := C102_lag (K := ℚ) (p := 2) (by norm_num) [4, 1, 3] (by simp) (by simp)
example := C102_momentum (K := ℚ) (p := 2) (by norm_num) [4, 1, 3] (by simp) (by simp)
example := C102_return (K := ℚ) (p := 2) (by norm_num) [4, 1, 3] (by simp) (by simp)
example := C102_sma (K := ℚ) (p := 2) (by norm_num) [4, 1, 3] (by simp) (by simp)
example := C102_ema (K := ℚ) (p := 2) (by norm_num) [4, 1, 3] (by simp) (by simp)
example := C102_rma (K := ℚ) (p := 2) (by norm_num) [4, 1, 3] (by simp) (by simp)
example := C102_zero_crossover (K := ℚ) [4, -1, 3] (by simp) (by simp)
example := C102_crossover_signal (K := ℚ) (slow := 3) (fast := 2) (by norm_num) (by norm_num) (xs := [4, -1, 3, 5]) (by simp)
example := C102_macd_signal (K := ℚ) (slow := 3) (fast := 2) (m := 2) (by norm_num) (by norm_num) (by norm_num) (xs := [4, -1, 3, 5]) (by simp)
example := C102_logReturn (p := 2) (by norm_num) [4, 1, 3] (by simp) (by simp)
end TS
