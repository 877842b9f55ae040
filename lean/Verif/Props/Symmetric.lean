import Verif.Spec.Recover
import Verif.Props.Extrema
import Verif.Props.Correlation
import Verif.Props.Recover
/-
C78: statistics of a window do not depend on the order of its samples.
-/
namespace TS
open PyVal XR
set_option linter.unusedSectionVars false

section
variable {α A B : Type} {op : Operator α} {ser : List A → Val α} {outs : List B → Val α} {y : List A → B}

theorem StreamsAs.unordered (H : StreamsAs op ser outs y) {p : Nat} (e : ∀ h t t' : List A, t.Perm t' → t ≠ [] → t.length ≤ p → y (h ++ t) = y (h ++ t')) : Unordered op ser outs p := by
  intro h t t' hp ht hl
  obtain ⟨st, h1, -⟩ := H
  have ht' : t' ≠ [] := fun h => ht (by simpa [h] using hp)
  have key : ∀ l : List A, l ≠ [] → scan y [] l = scan y [] l.dropLast ++ [y l] := fun l hl => by
    conv_lhs => rw [← List.dropLast_append_getLast hl]
    rw [scan_append, scan_cons, scan_nil, List.nil_append, List.dropLast_append_getLast hl]
  refine ⟨y (h ++ t), scan y [] (h ++ t).dropLast, scan y [] (h ++ t').dropLast, st (h ++ t), st (h ++ t'), st [], ?_, ?_⟩
  · rw [h1 _ (by simp [ht]), key _ (by simp [ht])]
  · rw [h1 _ (by simp [ht']), key _ (by simp [ht']), e h t t' hp ht hl]

theorem window_perm {p : Nat} {h t t' : List A} (hp : t.Perm t') (hl : t.length ≤ p) : (window p (h ++ t)).Perm (window p (h ++ t')) := by
  rw [window, window, List.reverse_append, List.reverse_append, List.take_append, List.take_append, List.take_of_length_le (l := t.reverse) (by simpa), List.take_of_length_le (l := t'.reverse) (by simpa [← hp.length_eq])]
  rw [List.length_reverse, List.length_reverse, hp.length_eq]
  exact ((List.reverse_perm _).trans (hp.trans (List.reverse_perm _).symm)).append_right _

theorem StreamsAs.ordered (H : StreamsAs op ser outs y) (ho : ∀ l m, outs l = outs m → l = m) {p : Nat} (h t t' : List A) (hp : t.Perm t') (ht : t ≠ []) (hl : t.length ≤ p)
    (e : y (h ++ t) ≠ y (h ++ t')) : ¬ Unordered op ser outs p := by
  intro U
  obtain ⟨o, os, os', sf, sf', s0, h1, h2⟩ := U h t t' hp ht hl
  have ht' : t' ≠ [] := fun h => ht (by simpa [h] using hp)
  obtain ⟨st, i1, -⟩ := H
  have key : ∀ l : List A, l ≠ [] → scan y [] l = scan y [] l.dropLast ++ [y l] := fun l hl => by
    conv_lhs => rw [← List.dropLast_append_getLast hl]
    rw [scan_append, scan_cons, scan_nil, List.nil_append, List.dropLast_append_getLast hl]
  have e1 := ho _ _ (Prod.ext_iff.1 (Except.ok.inj (h1.symm.trans (i1 _ (by simp [ht]))))).1
  have e2 := ho _ _ (Prod.ext_iff.1 (Except.ok.inj (h2.symm.trans (i1 _ (by simp [ht']))))).1
  rw [key _ (by simp [ht])] at e1
  rw [key _ (by simp [ht'])] at e2
  have e1 := List.append_inj' e1 rfl
  have e2 := List.append_inj' e2 rfl
  simp only [List.cons.injEq, and_true] at e1 e2
  exact e (e1.2.symm.trans e2.2)

/-- a function of the length and of the window that does not depend on the order -/
theorem StreamsAs.unordered_window {p : Nat} {f : Nat → List A → B} (H : StreamsAs op ser outs fun l => f l.length (window p l)) (e : ∀ n w w', w.Perm w' → f n w = f n w') :
    Unordered op ser outs p := H.unordered fun h t t' hp _ hl => by
  rw [List.length_append, List.length_append, hp.length_eq]
  exact e _ _ _ (window_perm hp hl)

end

section
variable {K : Type} [Field K]

theorem avg_perm {l m : List K} (h : l.Perm m) : avg l = avg m := by rw [avg, avg, h.sum_eq, h.length_eq]
theorem variance_perm {l m : List K} (h : l.Perm m) : variance l = variance m := by rw [variance, variance, avg_perm h]; exact avg_perm (h.map _)
theorem thirdMoment_perm {l m : List K} (h : l.Perm m) : thirdMoment l = thirdMoment m := by rw [thirdMoment, thirdMoment, avg_perm h]; exact avg_perm (h.map _)
theorem covariance_perm {l m : List (K × K)} (h : l.Perm m) : covariance l = covariance m := by
  rw [covariance, covariance, avg_perm (h.map Prod.fst), avg_perm (h.map Prod.snd)]; exact avg_perm (h.map _)
theorem stdDev_perm {l m : List ℝ} (h : l.Perm m) : stdDev l = stdDev m := by rw [stdDev, stdDev, variance_perm h]
end

section
variable {K : Type} [Field K] [LinearOrder K] [IsStrictOrderedRing K] [Transc K] [FloorRing K]

theorem leastK_perm {l m : List K} (h : l.Perm m) : leastK l = leastK m := by
  rcases eq_or_ne l [] with rfl | hl
  · rw [h.nil_eq]
  · have := leastK_least hl
    refine (least_eq (l := m) ⟨h.mem_iff.1 this.1, fun x hx => this.2 x (h.mem_iff.2 hx)⟩).symm
theorem greatestK_perm {l m : List K} (h : l.Perm m) : greatestK l = greatestK m := by
  rcases eq_or_ne l [] with rfl | hl
  · rw [h.nil_eq]
  · have := greatestK_greatest hl
    refine (greatest_eq (l := m) ⟨h.mem_iff.1 this.1, fun x hx => this.2 x (h.mem_iff.2 hx)⟩).symm

/-- **C78 The order of the samples in the window does not matter**: simple averages and sliding extrema. -/
theorem C78_averages {p : Nat} (hp : 0 < p) : Unordered (SMA (p : Int)) (finSeries (K := K)) finSeries p ∧
    Unordered (LocalMinimum (p : Int)) (finSeries (K := K)) finSeries p ∧ Unordered (LocalMaximum (p : Int)) (finSeries (K := K)) finSeries p :=
  ⟨StreamsAs.unordered_window (f := fun n w => if n < p then 0 else avg w) (sma_reals hp) fun n w w' h => by rw [avg_perm h],
    StreamsAs.unordered_window (f := fun _ w => leastK w) (localMin_reals hp) fun n w w' h => leastK_perm h,
    StreamsAs.unordered_window (f := fun _ w => greatestK w) (localMax_reals hp) fun n w w' h => greatestK_perm h⟩
example := (C78_averages (K := ℚ) (p := 3) (by norm_num)).1 [5, 6] [1, 2, 3] [3, 1, 2] (by decide) (by simp) (by simp)

/-- **C78, extrema so far**: the order of all the samples does not matter. -/
theorem C78_extrema (p : Nat) : Unordered GlobalMinimum (finSeries (K := K)) finSeries p ∧ Unordered GlobalMaximum (finSeries (K := K)) finSeries p :=
  ⟨globalMin_reals.unordered fun h _ _ hp _ _ => leastK_perm (hp.append_left h), globalMax_reals.unordered fun h _ _ hp _ _ => greatestK_perm (hp.append_left h)⟩
example := (C78_extrema (K := ℚ) 3).1 [5, 6] [1, 2, 3] [3, 1, 2] (by decide) (by simp) (by simp)

theorem recursiveAvgK_ordered {p : Nat} {w : K} (hw : w ≠ 0) :
    recursiveAvgK p (fun m x => m + w * (x - m)) (List.replicate p 0 ++ [1, 0]) ≠ recursiveAvgK p (fun m x => m + w * (x - m)) (List.replicate p 0 ++ [0, 1]) := by
  rw [recursiveAvgK_append (by simp), recursiveAvgK_append (by simp)]
  set m := recursiveAvgK p (fun m x => m + w * (x - m)) (List.replicate p 0)
  intro e
  simp only [List.foldl_cons, List.foldl_nil] at e
  have : w * w = 0 := by linear_combination -e
  exact hw (mul_self_eq_zero.1 this)

/-- **C78, what depends on the order**: recursive averages, changes and delays are no statistics of the last two samples. -/
theorem C78_ordered {p : Nat} (hp : 0 < p) : ¬ Unordered (EMA (p : Int)) (finSeries (K := K)) finSeries 2 ∧ ¬ Unordered (RMA (p : Int)) (finSeries (K := K)) finSeries 2 ∧
    ¬ Unordered (Momentum (p : Int)) (finSeries (K := K)) finSeries 2 ∧ ¬ Unordered (Lag (p : Int)) (finSeries (K := K)) finSeries (p + 1) := by
  refine ⟨(ema_reals hp).ordered (fun _ _ => finSeries_inj) _ _ _ (.swap _ _ _) (by simp) (by simp) (recursiveAvgK_ordered (ema_weight_ne p)),
    (rma_reals hp).ordered (fun _ _ => finSeries_inj) _ _ _ (.swap _ _ _) (by simp) (by simp) (recursiveAvgK_ordered (rma_weight_ne hp)),
    (momentum_reals hp).ordered (fun _ _ => finSeries_inj) (List.replicate p 0) [1, 0] [0, 1] (.swap _ _ _) (by simp) (by simp) ?_,
    (lag_reals hp).ordered (fun _ _ => finSeries_inj) [] (1 :: List.replicate p 0) (List.replicate p 0 ++ [1]) (List.perm_append_singleton _ _).symm (by simp) (by simp) ?_⟩
  · obtain ⟨n, rfl⟩ : ∃ n, p = n + 1 := ⟨p - 1, by omega⟩
    rw [momentumK, momentumK, if_neg (by simp), if_neg (by simp), lagged, lagged]
    rcases n with _ | n
    · simp
      norm_num
    · simp [List.getElem?_replicate]
  · obtain ⟨n, rfl⟩ : ∃ n, p = n + 1 := ⟨p - 1, by omega⟩
    rw [lagged, lagged]
    simp [List.getElem?_replicate, List.getElem?_append]
example := C78_ordered (K := ℚ) (p := 3) (by norm_num)

end

/-- **C78, deviations and moments**, real numbers. -/
theorem C78_moments {p : Nat} (hp : 0 < p) (k : ℚ) : Unordered (MSD (p : Int)) (finSeries (K := ℝ)) finSeries p ∧ Unordered (Skewness (p : Int)) (finSeries (K := ℝ)) finSeries p ∧
    Unordered (BollingerBands (p : Int) k) (finSeries (K := ℝ)) finSeries3 p :=
  ⟨StreamsAs.unordered_window (f := fun n w => if n < p then 0 else stdDev w) (msd_reals hp) fun n w w' h => by rw [stdDev_perm h],
    StreamsAs.unordered_window (f := fun _ w => skewOf w) (skew_reals hp) fun n w w' h => by rw [skewOf, skewOf, skew, skew, stdDev_perm h, thirdMoment_perm h],
    StreamsAs.unordered_window (f := fun n w => ((if n < p then 0 else avg w) - (if n < p then 0 else stdDev w) * k, (if n < p then 0 else avg w),
      (if n < p then 0 else avg w) + (if n < p then 0 else stdDev w) * k)) (bollinger_reals hp k) fun n w w' h => by rw [stdDev_perm h, avg_perm h]⟩
example := (C78_moments (p := 3) (by norm_num) 2).1 [5, 6] [1, 2, 3] [3, 1, 2] (by simpa using (List.perm_append_comm (l₁ := [(1 : ℝ), 2]) (l₂ := [3]))) (by simp) (by simp)

/-- **C78, correlation**: the pairs may come in any order. -/
theorem C78_correlation {p : Nat} (hp : 0 < p) : Unordered (Correlation (p : Int)) finPairs (vSBuf (α := XR ℝ)) p := by
  have H : StreamsAs (Correlation (p : Int)) finPairs (vSBuf (α := XR ℝ)) fun l => corrOf p (l.map (Prod.map XR.fin XR.fin)) := by
    have := (C41_correlation_scalar (α := XR ℝ) hp).comap (Prod.map XR.fin XR.fin) id (y' := fun l => corrOf p (l.map (Prod.map XR.fin XR.fin))) fun _ _ => rfl
    simp only [← finPairs_eq, List.map_id] at this
    exact this
  refine StreamsAs.unordered_window (p := p)
    (f := fun n w => if n ≤ p then XR.fin 0 else (pearson ((w.map Prod.fst).map XR.fin) ((w.map Prod.snd).map XR.fin) : XR ℝ))
    (H.congr fun l _ => ?_) fun n w w' h => ?_
  · simp [corrOf, ← window_map, Function.comp_def]
  · rcases eq_or_ne w [] with rfl | hw
    · rw [h.nil_eq]
    · have hw' : w' ≠ [] := fun e => hw (by simpa [e] using h)
      rw [pearson_fin hw, pearson_fin hw', covariance_perm h, stdDev_perm (h.map Prod.fst), stdDev_perm (h.map Prod.snd)]
example := C78_correlation (p := 2) (by norm_num) [(5, 6)] [(1, 2), (3, 4)] [(3, 4), (1, 2)] (by simpa using (List.perm_append_comm (l₁ := [((1 : ℝ), (2 : ℝ))]) (l₂ := [(3, 4)]))) (by simp) (by simp)

end TS
