import Verif.Spec.Energy
import Verif.Props.Variation
import Verif.Props.Filters
import Mathlib.Analysis.Convex.Jensen
/-
C92: moving averages and delays do not add energy to a signal.
-/
namespace TS
open PyVal
set_option linter.unusedSectionVars false

section
variable {K : Type} [Field K] [LinearOrder K] [IsStrictOrderedRing K] [Transc K] [FloorRing K]

theorem convex_sq : ConvexOn K Set.univ (fun x : K => x ^ 2) := ⟨convex_univ, fun x _ y _ a b ha hb hab => by
  simp only [smul_eq_mul]
  obtain rfl : b = 1 - a := by linarith
  nlinarith [mul_nonneg (mul_nonneg ha hb) (sq_nonneg (x - y))]⟩

/-- If a potential `W` pays for the outputs that the samples do not pay for. -/
theorem energy_scan {φ : K → K} {y W : List K → K} (hW : ∀ g, 0 ≤ W g) (base : W [] = 0) (step : ∀ (g : List K) (x : K), φ (y (g ++ [x])) + W (g ++ [x]) ≤ W g + φ x) (xs : List K) :
    ((scan y [] xs).map φ).sum ≤ (xs.map φ).sum := by
  have key : ∀ xs : List K, ((scan y [] xs).map φ).sum + W xs ≤ (xs.map φ).sum := by
    intro xs
    induction xs using List.reverseRecOn with
    | nil => simp [scan, base]
    | append_singleton l x ih =>
      rw [scan_snoc]
      simp only [List.map_append, List.map_cons, List.map_nil, List.sum_append, List.sum_cons, List.sum_nil, add_zero]
      linarith [step l x]
  linarith [key xs, hW xs]

/-- the sample `j` steps before the newest one, 0 before the first -/
def ago (l : List K) (j : Nat) : K := l.reverse.getD j 0

theorem ago_snoc (l : List K) (x : K) (j : Nat) : ago (l ++ [x]) (j + 1) = ago l j := by simp [ago]
theorem ago_zero (l : List K) (x : K) : ago (l ++ [x]) 0 = x := by simp [ago]
theorem ago_nil (j : Nat) : ago ([] : List K) j = 0 := by simp [ago]

theorem avg_window_ago {p : Nat} {l : List K} (hl : p ≤ l.length) : avg (window p l) = ∑ j ∈ Finset.range p, (1 / (p : K)) * ago l j := by
  have e : window p l = (List.range p).map (ago l) := by
    refine List.ext_getElem (by simp [window]; omega) fun i h1 h2 => ?_
    simp at h2
    simp only [window, List.getElem_take, List.getElem_map, List.getElem_range, ago]
    rw [List.getD_eq_getElem?_getD, List.getElem?_eq_getElem (by simp; omega), Option.getD_some]
  rw [avg, e, ← Finset.mul_sum, List.length_map, List.length_range, Finset.sum_range, ← List.sum_ofFn]
  rw [show (List.range p).map (ago l) = List.ofFn fun i : Fin p => ago l i from List.ext_getElem (by simp) (by simp)]
  ring

/-- Jensen's inequality for the average of a window -/
theorem jensen_window {φ : K → K} (hφ : ConvexOn K Set.univ φ) {p : Nat} (hp : 0 < p) {l : List K} (hl : p ≤ l.length) :
    φ (avg (window p l)) ≤ (∑ j ∈ Finset.range p, φ (ago l j)) / p := by
  have hpK : (p : K) ≠ 0 := by exact_mod_cast hp.ne'
  rw [avg_window_ago hl]
  have := hφ.map_sum_le (t := Finset.range p) (w := fun _ => 1 / (p : K)) (p := ago l) (fun _ _ => by positivity) (by simp [hpK]) (fun _ _ => Set.mem_univ _)
  simp only [smul_eq_mul] at this
  refine this.trans (le_of_eq ?_)
  rw [← Finset.mul_sum]; ring

theorem energy_sma {φ : K → K} (hφ : ConvexOn K Set.univ φ) (h0 : ∀ x, 0 ≤ φ x) (hz : φ 0 = 0) {p : Nat} (hp : 0 < p) (xs : List K) :
    ((scan (movingAvgK p) [] xs).map φ).sum ≤ (xs.map φ).sum := by
  have hpK : (0 : K) < p := by exact_mod_cast hp
  -- each sample pays its share to the averages of the `p` windows it is in
  refine energy_scan (W := fun g => (∑ j ∈ Finset.range p, ((p : K) - 1 - j) * φ (ago g j)) / p) (fun g => ?_) ?_ (fun g x => ?_) xs
  · refine div_nonneg (Finset.sum_nonneg fun j hj => mul_nonneg ?_ (h0 _)) hpK.le
    have : j + 1 ≤ p := Finset.mem_range.1 hj
    have : (j : K) + 1 ≤ p := by exact_mod_cast this
    linarith
  · simp [ago_nil, hz]
  · have h1 : φ (movingAvgK p (g ++ [x])) ≤ (∑ j ∈ Finset.range p, φ (ago (g ++ [x]) j)) / p := by
      rw [movingAvgK]
      split
      · rw [hz]; exact div_nonneg (Finset.sum_nonneg fun _ _ => h0 _) hpK.le
      · exact jensen_window hφ hp (by omega)
    refine (add_le_add_left h1 _).trans (le_of_eq ?_)
    rw [← add_div, ← Finset.sum_add_distrib]
    obtain ⟨q, rfl⟩ : ∃ q, p = q + 1 := ⟨p - 1, by omega⟩
    rw [Finset.sum_range_succ', Finset.sum_range_succ _ q]
    simp only [ago_snoc, ago_zero]
    have : ∀ j, φ (ago g j) + (((q + 1 : Nat) : K) - 1 - ((j + 1 : Nat) : K)) * φ (ago g j) = (((q + 1 : Nat) : K) - 1 - j) * φ (ago g j) := fun j => by push_cast; ring
    simp only [this]
    rw [div_add' _ _ _ hpK.ne']
    congr 1
    push_cast
    ring

theorem energy_recursive {φ : K → K} (hφ : ConvexOn K Set.univ φ) (h0 : ∀ x, 0 ≤ φ x) (hz : φ 0 = 0) {p : Nat} (hp : 0 < p) {w : K} (hw : 0 ≤ w) (hw1 : w ≤ 1) (hwp : 1 ≤ w * p) (xs : List K) :
    ((scan (recursiveAvgK p (fun m x => m + w * (x - m))) [] xs).map φ).sum ≤ (xs.map φ).sum := by
  have hpK : (0 : K) < p := by exact_mod_cast hp
  have hw0 : 0 < w := by
    rcases hw.lt_or_eq with h | h
    · exact h
    · rw [← h] at hwp; linarith
  have hsum : ∀ g : List K, 0 ≤ (g.map φ).sum := fun g => List.sum_nonneg (by simp only [List.mem_map]; rintro _ ⟨x, -, rfl⟩; exact h0 x)
  refine energy_scan (W := fun g => if g.length < p then (g.map φ).sum else (1 - w) / w * φ (recursiveAvgK p (fun m x => m + w * (x - m)) g)) (fun g => ?_) ?_ (fun g x => ?_) xs
  · split
    · exact hsum g
    · exact mul_nonneg (div_nonneg (by linarith) hw) (h0 _)
  · simp [hp]
  · by_cases h1 : (g ++ [x]).length < p
    · rw [if_pos h1, if_pos (by simp at h1; omega), recursiveAvgK, List.drop_eq_nil_of_le h1.le, List.take_of_length_le h1.le, List.foldl_nil, movingAvgK, if_pos h1, hz]
      simp
    rw [if_neg h1]
    rw [show φ (recursiveAvgK p (fun m x => m + w * (x - m)) (g ++ [x])) + (1 - w) / w * φ (recursiveAvgK p (fun m x => m + w * (x - m)) (g ++ [x])) =
      φ (recursiveAvgK p (fun m x => m + w * (x - m)) (g ++ [x])) / w by field_simp; ring, div_le_iff₀ hw0]
    by_cases h2 : g.length < p
    · rw [if_pos h2]
      have hl : (g ++ [x]).length = p := by simp at h1 ⊢; omega
      rw [recursiveAvgK, List.drop_eq_nil_of_le hl.le, List.take_of_length_le hl.le, List.foldl_nil, movingAvgK, if_neg h1]
      have e : (g.map φ).sum + φ x = ∑ j ∈ Finset.range p, φ (ago (g ++ [x]) j) := by
        rw [show (g.map φ).sum + φ x = ((g ++ [x]).map φ).sum by simp, ← List.sum_reverse, ← List.map_reverse, Finset.sum_range, ← List.sum_ofFn]
        congr 1
        refine List.ext_getElem (by simp [← hl]) fun i h3 h4 => ?_
        rw [List.getElem_map, List.getElem_ofFn, ago, List.getD_eq_getElem?_getD, List.getElem?_eq_getElem (by simpa using h3), Option.getD_some]
      refine (jensen_window hφ hp hl.ge).trans ?_
      rw [e, div_le_iff₀ hpK, mul_assoc]
      exact le_mul_of_one_le_right (e ▸ add_nonneg (hsum g) (h0 x)) hwp
    · rw [if_neg h2, recursiveAvgK_append (by omega)]
      simp only [List.foldl_cons, List.foldl_nil]
      generalize recursiveAvgK p (fun m x => m + w * (x - m)) g = e
      have := hφ.2 (Set.mem_univ e) (Set.mem_univ x) (sub_nonneg.2 hw1) hw (by ring)
      simp only [smul_eq_mul] at this
      rw [show (1 - w) * e + w * x = e + w * (x - e) by ring] at this
      refine this.trans (le_of_eq ?_)
      field_simp

theorem StreamsAs.damps {op : Operator (XR K)} {y : List K → K} (H : StreamsAs op finSeries finSeries y)
    (h : ∀ φ : K → K, ConvexOn K Set.univ φ → (∀ x, 0 ≤ φ x) → φ 0 = 0 → ∀ xs : List K, ((scan y [] xs).map φ).sum ≤ (xs.map φ).sum) : Damps op := by
  intro φ h1 h2 h3 xs hx
  obtain ⟨sf, s0, e⟩ := H.at' hx
  exact ⟨_, sf, s0, e, scan_length _ _ _, h φ h1 h2 h3 xs⟩

/-- **C92 Moving averages do not add energy.**  The outputs of `SimpleMovingAverage(p)` are in sum no larger than the samples, in every convex measure of size, -/
theorem C92_sma {p : Nat} (hp : 0 < p) : Damps (SMA (p : Int) : Operator (XR K)) := (sma_reals hp).damps fun _ h1 h2 h3 => energy_sma h1 h2 h3 hp
example := C92_sma (K := ℚ) (p := 3) (by norm_num) (· ^ 2) convex_sq (fun x => sq_nonneg x) (by norm_num) [3, 1, -4, 1, 5] (by simp)

/-- nor are those of `ExponentialMovingAverage(p)` -/
theorem C92_ema {p : Nat} (hp : 0 < p) : Damps (EMA (p : Int) : Operator (XR K)) :=
  (ema_reals hp).damps fun _ h1 h2 h3 => energy_recursive h1 h2 h3 hp (ema_weight hp).1 (ema_weight hp).2 (by
    have : (1 : K) ≤ p := by exact_mod_cast hp
    rw [div_mul_eq_mul_div, le_div_iff₀ (by linarith)]; linarith)
example := C92_ema (K := ℚ) (p := 3) (by norm_num) (· ^ 2) convex_sq (fun x => sq_nonneg x) (by norm_num) [3, 1, -4, 1, 5] (by simp)

/-- and `RollingMovingAverage(p)`. -/
theorem C92_rma {p : Nat} (hp : 0 < p) : Damps (RMA (p : Int) : Operator (XR K)) :=
  (rma_reals hp).damps fun _ h1 h2 h3 => energy_recursive h1 h2 h3 hp (rma_weight hp).1 (rma_weight hp).2 (by
    have : (p : K) ≠ 0 := by exact_mod_cast hp.ne'
    field_simp; exact le_refl _)
example := C92_rma (K := ℚ) (p := 3) (by norm_num) (· ^ 2) convex_sq (fun x => sq_nonneg x) (by norm_num) [3, 1, -4, 1, 5] (by simp)

/-- `Lag(p)` loses the last `p` samples. -/
theorem C92_lag {p : Nat} (hp : 0 < p) : Damps (Lag (p : Int) : Operator (XR K)) :=
  (lag_reals hp).damps fun φ _ h2 h3 xs => by
    refine energy_scan (W := fun g => ∑ j ∈ Finset.range p, φ (ago g j)) (fun g => Finset.sum_nonneg fun _ _ => h2 _) (by simp [ago_nil, h3]) (fun g x => ?_) xs
    have e : lagged 0 p (g ++ [x]) = ago (g ++ [x]) p := by rw [lagged, ago, List.getD_eq_getElem?_getD]
    rw [e]
    have := Finset.sum_range_succ (fun j => φ (ago (g ++ [x]) j)) p
    rw [add_comm, ← this, Finset.sum_range_succ']
    simp only [ago_snoc, ago_zero]
    exact le_refl _
example := C92_lag (K := ℚ) (p := 3) (by norm_num) (· ^ 2) convex_sq (fun x => sq_nonneg x) (by norm_num) [3, 1, -4, 1, 5] (by simp)

/-- **C92, pipelines** of operators that do not add energy do not add energy. -/
theorem C92_compose {f g : Operator (XR K)} (lf : Lib f (· = .leaf ()) (· = .leaf ())) (lg : Lib g (· = .leaf ()) (· = .leaf ())) (hf : Damps f) (hg : Damps g) : Damps (Compose [f, g]) := by
  intro φ h1 h2 h3 xs hx
  obtain ⟨os, sf, s0, e, hl, ho⟩ := hg φ h1 h2 h3 xs hx
  have hos : os ≠ [] := by rintro rfl; exact hx (List.length_eq_zero_iff.1 hl.symm)
  obtain ⟨os', sf', s0', e', hl', ho'⟩ := hf φ h1 h2 h3 os hos
  have := C10_compose_pipeline_library (ops := [f, g]) (Ds := fun _ => (· = .leaf ())) (v := finSeries xs) (z := finSeries os') (sfs := [sf, sf']) (s0s := [s0, s0']) (by simp) (by
    intro k hk
    match k, hk with
    | 0, _ => exact lg
    | 1, _ => exact lf) (by simp) (by simp) (.cons e (.cons e' (.nil _)))
  exact ⟨os', _, _, this, hl'.trans hl, ho'.trans ho⟩
example := C92_compose (K := ℚ) (f := EMA ((2 : Nat) : Int)) (g := SMA ((3 : Nat) : Int)) (Lib.weaken (Lib.basic (.ema _)) (by rintro _ rfl; rfl) fun _ h => h)
  (Lib.weaken (Lib.basic (.sma _)) (by rintro _ rfl; rfl) fun _ h => h) (C92_ema (by norm_num)) (C92_sma (by norm_num))

/-- the sum of the absolute values -/
theorem Damps.abs {op : Operator (XR K)} (h : Damps op) {xs : List K} (hx : xs ≠ []) : ∃ (os : List K) (sf s0 : Val (XR K)),
    call op (finSeries xs) none = .ok (finSeries os, sf, s0) ∧ os.length = xs.length ∧ (os.map fun x => |x|).sum ≤ (xs.map fun x => |x|).sum :=
  h _ ⟨convex_univ, fun x _ y _ a b ha hb _ => by
    simp only [smul_eq_mul]
    calc |a * x + b * y| ≤ |a * x| + |b * y| := abs_add_le _ _
      _ = _ := by rw [abs_mul, abs_mul, abs_of_nonneg ha, abs_of_nonneg hb]⟩ (fun x => abs_nonneg x) abs_zero xs hx

end

/-- Differences may add energy: on 1, -1, 1 `Momentum(1)` outputs 0, -2, 2. -/
theorem C92_momentum : ¬ Damps (Momentum 1 : Operator (XR ℚ)) := by
  intro h
  obtain ⟨os, sf, s0, e, hl, hv⟩ := h.abs (xs := [1, -1, 1]) (by simp)
  obtain ⟨sf', s0', e'⟩ := (momentum_reals (K := ℚ) (p := 1) (by norm_num)).at' (xs := [1, -1, 1]) (by simp)
  have e'' := e.symm.trans e'
  simp only [Except.ok.injEq, Prod.mk.injEq] at e''
  rw [finSeries_inj e''.1, show scan (momentumK 1) [] [1, -1, 1] = [(0 : ℚ), -2, 2] by decide +kernel] at hv
  norm_num at hv
example : output (call (Momentum 1) (series [1, -1, 1]) none) = .ok (series [0, -2, 2]) := by decide +kernel

/-- So may maxima: on 1, 0 `LocalMaximum(2)` outputs 1, 1. -/
theorem C92_local_max : ¬ Damps (LocalMaximum 2 : Operator (XR ℚ)) := by
  intro h
  obtain ⟨os, sf, s0, e, hl, hv⟩ := h.abs (xs := [1, 0]) (by simp)
  have e' : output (call (LocalMaximum 2) (finSeries [(1 : ℚ), 0]) none) = .ok (finSeries [1, 1]) := by decide +kernel
  rw [e] at e'
  rw [finSeries_inj (Except.ok.inj e')] at hv
  norm_num at hv
example : output (call (LocalMaximum 2) (series [1, 0]) none) = .ok (series [1, 1]) := by decide +kernel

end TS
