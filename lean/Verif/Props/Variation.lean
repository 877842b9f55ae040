import Verif.Spec.Variation
import Verif.Props.Between
import Verif.Props.Moments
import Verif.Props.Recover
import Verif.Lemmas.Follows
/-
C90: moving averages and extrema do not oscillate more than the samples.
-/
namespace TS
open PyVal
set_option linter.unusedSectionVars false

section
variable {K : Type} [Field K] [LinearOrder K] [IsStrictOrderedRing K] [Transc K] [FloorRing K]

theorem variation_snoc (l : List K) (a b : K) : variation (l ++ [a, b]) = variation (l ++ [a]) + |b - a| := by
  induction l with
  | nil => simp [variation]
  | cons c l ih =>
    cases l with
    | nil => simp [variation]
    | cons d l => simp only [List.cons_append, variation] at ih ⊢; rw [ih]; ring

theorem variation_nonneg (l : List K) : 0 ≤ variation l := by
  induction l with
  | nil => exact le_refl _
  | cons a l ih =>
    cases l with
    | nil => exact le_refl _
    | cons b l => exact add_nonneg (abs_nonneg _) ih

theorem variation_cons_le (a : K) (l : List K) : variation l ≤ variation (a :: l) := by
  cases l with
  | nil => exact le_refl _
  | cons b l => exact le_add_of_nonneg_left (abs_nonneg _)

theorem variation_drop (n : Nat) (l : List K) : variation (l.drop n) ≤ variation l := by
  induction n generalizing l with
  | zero => simp
  | succ n ih =>
    cases l with
    | nil => simp
    | cons a l => exact (ih l).trans (variation_cons_le a l)

theorem variation_append_le (l m : List K) : variation l ≤ variation (l ++ m) := by
  induction l with
  | nil => exact variation_nonneg _
  | cons a l ih =>
    cases l with
    | nil => exact variation_nonneg _
    | cons b l => exact add_le_add_right ih _

theorem variation_take (n : Nat) (l : List K) : variation (l.take n) ≤ variation l := by
  conv_rhs => rw [← List.take_append_drop n l]
  exact variation_append_le _ _

/-- A sample differs from the last one by no more than the variation. -/
theorem variation_reach {l : List K} {x : K} (hx : x ∈ l) (b : K) : |b - x| ≤ variation (l ++ [b]) := by
  induction l using List.reverseRecOn generalizing b with
  | nil => simp at hx
  | append_singleton l a ih =>
    rw [List.append_assoc, List.singleton_append, variation_snoc]
    rcases List.mem_append.1 hx with h | h
    · calc |b - x| = |(b - a) + (a - x)| := by ring_nf
        _ ≤ |b - a| + |a - x| := abs_add_le _ _
        _ ≤ _ := by rw [add_comm]; exact add_le_add_left (ih h a) _
    · simp only [List.mem_singleton] at h; subst h
      exact le_add_of_nonneg_left (variation_nonneg _)


/-- If a potential `W`, at most the variation when the outputs begin, pays for the moves of the outputs that the moves of the samples do not pay for. -/
theorem variation_scan {y W : List K → K} {p : Nat} (hp : 0 < p) (hW : ∀ g, 0 ≤ W g) (base : ∀ g : List K, g.length = p → W g ≤ variation g)
    (step : ∀ (g : List K) (a x : K), p ≤ (g ++ [a]).length → |y (g ++ [a, x]) - y (g ++ [a])| + W (g ++ [a, x]) ≤ W (g ++ [a]) + |x - a|) (xs : List K) :
    variation ((scan y [] xs).drop (p - 1)) ≤ variation xs := by
  have key : ∀ xs : List K, p ≤ xs.length → variation ((scan y [] xs).drop (p - 1)) + W xs ≤ variation xs := by
    intro xs
    induction xs using List.reverseRecOn with
    | nil => intro h; simp at h; omega
    | append_singleton l x ih =>
      intro h
      rcases Nat.lt_or_ge l.length p with hl | hl
      · have e : (l ++ [x]).length = p := by simp at h ⊢; omega
        have : variation ((scan y [] (l ++ [x])).drop (p - 1)) = 0 := by
          obtain ⟨z, hz⟩ := List.length_eq_one_iff.1 (show ((scan y [] (l ++ [x])).drop (p - 1)).length = 1 by rw [List.length_drop, scan_length, e]; omega)
          rw [hz]; rfl
        rw [this, zero_add]; exact base _ e
      · obtain ⟨g, a, rfl⟩ : ∃ g a, l = g ++ [a] := by
          rcases List.eq_nil_or_concat l with rfl | ⟨g, a, e⟩
          · simp at hl; omega
          · exact ⟨g, a, by simpa using e⟩
        have h1 := ih hl
        have h2 := step g a x hl
        have e : ∀ m : List K, (scan y [] (g ++ [a])).drop (p - 1) = (scan y [] g).drop (p - 1) ++ [y (g ++ [a])] := by
          intro _
          rw [scan_snoc, List.drop_append_of_le_length (by simp at hl ⊢; omega)]
        rw [scan_snoc, List.drop_append_of_le_length (by simp at hl ⊢; omega), e [], List.append_assoc, List.singleton_append, variation_snoc, ← e []]
        rw [List.append_assoc, List.singleton_append, variation_snoc]
        linarith
  rcases Nat.lt_or_ge xs.length p with h | h
  · rw [List.drop_eq_nil_of_le (by rw [scan_length]; omega)]; exact variation_nonneg _
  · linarith [key xs h, hW xs]

theorem last_snoc2 (g : List K) (a x : K) : (g ++ [a, x]).getLastD 0 = x := by rw [List.getLastD_eq_getLast?]; simp
theorem last_snoc1 (g : List K) (a : K) : (g ++ [a]).getLastD 0 = a := by rw [List.getLastD_eq_getLast?]; simp

theorem variation_avg {g : List K} (hg : g ≠ []) : |g.getLastD 0 - avg g| ≤ variation g := by
  rcases List.eq_nil_or_concat g with rfl | ⟨g, b, rfl⟩
  · exact absurd rfl hg
  · rw [List.concat_eq_append] at *
    rw [last_snoc1]
    have h : ∀ x ∈ g ++ [b], |b - x| ≤ variation (g ++ [b]) := by
      intro x hx
      rcases List.mem_append.1 hx with h | h
      · exact variation_reach h b
      · simp only [List.mem_singleton] at h; subst h; simpa using variation_nonneg _
    rw [abs_le]
    constructor
    · have := avg_le hg (b := b + variation (g ++ [b])) fun x hx => by linarith [(abs_le.1 (h x hx)).1]
      linarith
    · have := le_avg hg (b := b - variation (g ++ [b])) fun x hx => by linarith [(abs_le.1 (h x hx)).2]
      linarith

theorem variation_recursive {p : Nat} (hp : 0 < p) {w : K} (h0 : 0 ≤ w) (h1 : w ≤ 1) (xs : List K) :
    variation ((scan (recursiveAvgK p (fun m x => m + w * (x - m))) [] xs).drop (p - 1)) ≤ variation xs := by
  refine variation_scan (W := fun g => |g.getLastD 0 - recursiveAvgK p (fun m x => m + w * (x - m)) g|) hp (fun _ => abs_nonneg _) ?_ ?_ xs
  · intro g hg
    have e : recursiveAvgK p (fun m x => m + w * (x - m)) g = avg g := by
      rw [recursiveAvgK, List.drop_eq_nil_of_le hg.le, List.take_of_length_le hg.le, List.foldl_nil, movingAvgK, if_neg (by omega), window, List.take_of_length_le (by simp [hg]), avg_reverse]
    simp only [e]
    exact variation_avg (by rintro rfl; simp at hg; omega)
  · intro g a x hl
    simp only [last_snoc2, last_snoc1]
    rw [show g ++ [a, x] = (g ++ [a]) ++ [x] by simp, recursiveAvgK_append hl]
    generalize recursiveAvgK p (fun m x => m + w * (x - m)) (g ++ [a]) = e
    simp only [List.foldl_cons, List.foldl_nil]
    rw [show e + w * (x - e) - e = w * (x - e) by ring, show x - (e + w * (x - e)) = (1 - w) * (x - e) by ring, abs_mul, abs_mul, abs_of_nonneg h0, abs_of_nonneg (sub_nonneg.2 h1)]
    have := abs_add_le (x - a) (a - e)
    rw [show x - a + (a - e) = x - e by ring] at this
    linarith

theorem variation_extreme {y : List K → K} (lo : ∀ (g : List K) (a : K), a ≤ y (g ++ [a])) (up : ∀ (g : List K) (a x : K), y (g ++ [a, x]) ≤ max (y (g ++ [a])) x) (h1 : ∀ a, y [a] = a) (xs : List K) :
    variation (scan y [] xs) ≤ variation xs := by
  have := variation_scan (y := y) (W := fun g => |y g - g.getLastD 0|) (p := 1) (by omega) (fun _ => abs_nonneg _) ?_ ?_ xs
  · simpa using this
  · intro g hg
    obtain ⟨a, rfl⟩ := List.length_eq_one_iff.1 hg
    simp [h1, variation]
  · intro g a x _
    simp only [last_snoc2, last_snoc1]
    have e1 := lo g a
    have e2 := lo (g ++ [a]) x
    rw [List.append_assoc, List.singleton_append] at e2
    have e3 := up g a x
    rw [abs_of_nonneg (sub_nonneg.2 e1), abs_of_nonneg (sub_nonneg.2 e2)]
    rcases le_total (y (g ++ [a, x])) (y (g ++ [a])) with h | h
    · rw [abs_of_nonpos (sub_nonpos.2 h)]; linarith [neg_abs_le (x - a)]
    · rw [abs_of_nonneg (sub_nonneg.2 h)]
      rcases le_max_iff.1 e3 with h' | h' <;> linarith [le_abs_self (x - a), neg_abs_le (x - a)]

theorem variation_neg (l : List K) : variation (l.map (- ·)) = variation l := by
  induction l with
  | nil => rfl
  | cons a l ih =>
    cases l with
    | nil => rfl
    | cons b l =>
      simp only [List.map_cons, variation] at ih ⊢
      rw [ih, ← abs_neg]; congr 2; ring

theorem variation_reverse (l : List K) : variation l.reverse = variation l := by
  induction l with
  | nil => rfl
  | cons a l ih =>
    cases l with
    | nil => rfl
    | cons b l =>
      rw [List.reverse_cons, List.reverse_cons, List.append_assoc, List.singleton_append, variation_snoc, ← List.reverse_cons, ih, variation, abs_sub_comm, add_comm]

theorem variation_window (q : Nat) (l : List K) : variation (window q l) ≤ variation l := by
  rw [← variation_reverse l]; exact variation_take _ _

theorem variation_sma {p : Nat} (hp : 0 < p) (xs : List K) : variation ((scan (movingAvgK p) [] xs).drop (p - 1)) ≤ variation xs := by
  have hpK : (0 : K) < p := by exact_mod_cast hp
  refine variation_scan (W := fun g : List K => (∑ q ∈ Finset.range p, variation (window (q + 1) g)) / (p : K)) hp (fun _ => div_nonneg (Finset.sum_nonneg fun _ _ => variation_nonneg _) hpK.le) ?_ ?_ xs
  · intro g hg
    rw [div_le_iff₀ hpK, mul_comm]
    have := Finset.sum_le_card_nsmul (Finset.range p) (fun q => variation (window (q + 1) g)) (variation g) fun q _ => variation_window _ _
    simpa using this
  · intro g a x hl
    obtain ⟨q, rfl⟩ : ∃ q, p = q + 1 := ⟨p - 1, by omega⟩
    have w1 : ∀ n, window (n + 1) (g ++ [a]) = a :: window n g := fun n => window_snoc' (by omega) _ _
    have w2 : ∀ n, window (n + 1) (g ++ [a, x]) = x :: window n (g ++ [a]) := fun n => by
      rw [show g ++ [a, x] = (g ++ [a]) ++ [x] by simp]; exact window_snoc' (by omega) _ _
    have v : ∀ n, variation (window (n + 2) (g ++ [a, x])) = |x - a| + variation (window (n + 1) (g ++ [a])) := fun n => by
      rw [w2, w1, variation, abs_sub_comm]
    have hl' : q + 1 ≤ (g ++ [a]).length := hl
    have s1 : (∑ n ∈ Finset.range (q + 1), variation (window (n + 1) (g ++ [a, x]))) = q * |x - a| + ∑ n ∈ Finset.range q, variation (window (n + 1) (g ++ [a])) := by
      rw [Finset.sum_range_succ']
      have : variation (window (0 + 1) (g ++ [a, x])) = 0 := by rw [w2]; simp [window, variation]
      rw [this, add_zero, Finset.sum_congr rfl fun n _ => v n, Finset.sum_add_distrib]
      simp
    have s2 : |movingAvgK (q + 1) (g ++ [a, x]) - movingAvgK (q + 1) (g ++ [a])| ≤ (|x - a| + variation (window (q + 1) (g ++ [a]))) / ((q + 1 : Nat) : K) := by
      have hlen : q < (g ++ [a]).reverse.length := by rw [List.length_reverse]; omega
      have t : window (q + 1) (g ++ [a]) = window q (g ++ [a]) ++ [(g ++ [a]).reverse[q]] := by rw [window, window, List.take_succ_eq_append_getElem hlen]
      have n1 : ¬ (g ++ [a, x]).length < q + 1 := by simp at hl' ⊢; omega
      have l1 : (window (q + 1) (g ++ [a])).length = q + 1 := by rw [window, List.length_take, List.length_reverse]; omega
      have l2 : (window q (g ++ [a])).length = q := by rw [window, List.length_take, List.length_reverse]; omega
      have r := variation_reach (l := (window (q + 1) (g ++ [a])).reverse) (x := (g ++ [a]).reverse[q]) (by rw [t]; simp) x
      rw [← List.reverse_cons, variation_reverse, w1, variation, abs_sub_comm a x, ← w1] at r
      rw [movingAvgK, movingAvgK, if_neg n1, if_neg (by omega), avg, avg, w2, List.length_cons, l1, l2, ← sub_div, abs_div, abs_of_pos hpK]
      refine div_le_div_of_nonneg_right ?_ hpK.le
      convert r using 2
      conv_lhs => rw [t]
      rw [List.sum_cons, List.sum_append, List.sum_singleton]; ring
    simp only [s1]
    rw [Finset.sum_range_succ (fun n => variation (window (n + 1) (g ++ [a])))]
    refine (add_le_add_left s2 _).trans (le_of_eq ?_)
    field_simp
    push_cast
    ring


theorem StreamsAs.calms {op : Operator (XR K)} {y : List K → K} (H : StreamsAs op finSeries finSeries y) {n : Nat} (h : ∀ xs : List K, variation ((scan y [] xs).drop n) ≤ variation xs) : Calms op n := by
  intro xs hx
  obtain ⟨sf, s0, e⟩ := H.at' hx
  exact ⟨_, sf, s0, e, scan_length _ _ _, h xs⟩

/-- **C90 Averages do not oscillate more than the samples.**  Once `p` samples are in, the outputs of `SimpleMovingAverage(p)` travel no further than the
samples do, -/
theorem C90_sma {p : Nat} (hp : 0 < p) : Calms (SMA (p : Int) : Operator (XR K)) (p - 1) := (sma_reals hp).calms (variation_sma hp)
example := C90_sma (K := ℚ) (p := 3) (by norm_num) [3, 1, 4, 1, 5] (by simp)

/-- nor do those of `ExponentialMovingAverage(p)` -/
theorem C90_ema {p : Nat} (hp : 0 < p) : Calms (EMA (p : Int) : Operator (XR K)) (p - 1) :=
  (ema_reals hp).calms (variation_recursive hp (ema_weight hp).1 (ema_weight hp).2)
example := C90_ema (K := ℚ) (p := 3) (by norm_num) [3, 1, 4, 1, 5] (by simp)

/-- and `RollingMovingAverage(p)`. -/
theorem C90_rma {p : Nat} (hp : 0 < p) : Calms (RMA (p : Int) : Operator (XR K)) (p - 1) :=
  (rma_reals hp).calms (variation_recursive hp (rma_weight hp).1 (rma_weight hp).2)
example := C90_rma (K := ℚ) (p := 3) (by norm_num) [3, 1, 4, 1, 5] (by simp)

/-- The same goes for `Lag(p)` once its outputs are samples, -/
theorem C90_lag {p : Nat} (hp : 0 < p) : Calms (Lag (p : Int) : Operator (XR K)) p :=
  (lag_reals hp).calms fun xs => by
    have e : (scan (lagged 0 p) [] xs).drop p = xs.take (xs.length - p) := by
      refine List.ext_getElem (by simp) fun i h1 h2 => ?_
      have h3 : p + i < xs.length := by simp at h1; omega
      rw [List.getElem_drop, scan_getElem, List.getElem_take, List.nil_append, lagged_take h3, dif_pos (Nat.le_add_right p i)]
      congr 1; omega
    rw [e]
    exact variation_take _ _
example := C90_lag (K := ℚ) (p := 3) (by norm_num) [3, 1, 4, 1, 5] (by simp)

/-- and for the maxima and minima over a window or over everything, from the first output on. -/
theorem C90_local_max {p : Nat} (hp : 0 < p) : Calms (LocalMaximum (p : Int) : Operator (XR K)) 0 :=
  (localMax_reals hp).calms fun xs => variation_extreme (y := fun l => greatestK (window p l))
    (fun g a => (greatestK_greatest (window_ne_nil hp (by simp))).2 a (by rw [window_snoc' hp]; simp))
    (fun g a x => by
      have h := (greatestK_greatest (window_ne_nil hp (l := g ++ [a, x]) (by simp))).1
      rw [show g ++ [a, x] = (g ++ [a]) ++ [x] by simp] at h ⊢
      rw [window_snoc' hp] at h
      rcases List.mem_cons.1 h with h | h
      · rw [window_snoc' hp]; exact le_max_of_le_right h.le
      · rw [window_snoc' hp (g ++ [a])]
        exact le_max_of_le_left ((greatestK_greatest (window_ne_nil hp (by simp))).2 _ (window_sub (Nat.sub_le p 1) _ h)))
    (fun a => greatest_eq (by rw [show window p [a] = [a] by have := window_snoc' hp [] a; simpa [window] using this]; exact ⟨by simp, by simp⟩)) xs
example := C90_local_max (K := ℚ) (p := 3) (by norm_num) [3, 1, 4, 1, 5] (by simp)

theorem C90_global_max : Calms (GlobalMaximum : Operator (XR K)) 0 :=
  globalMax_reals.calms fun xs => variation_extreme (y := greatestK)
    (fun g a => (greatestK_greatest (by simp)).2 a (by simp))
    (fun g a x => by
      have h := (greatestK_greatest (l := g ++ [a, x]) (by simp)).1
      rw [show g ++ [a, x] = (g ++ [a]) ++ [x] by simp] at h ⊢
      rcases List.mem_append.1 h with h | h
      · exact le_max_of_le_left ((greatestK_greatest (by simp)).2 _ h)
      · exact le_max_of_le_right (List.mem_singleton.1 h).le)
    (fun a => greatest_eq ⟨by simp, by simp⟩) xs
example := C90_global_max (K := ℚ) [3, 1, 4, 1, 5] (by simp)

theorem variation_extreme' {y : List K → K} (lo : ∀ (g : List K) (a : K), y (g ++ [a]) ≤ a) (up : ∀ (g : List K) (a x : K), min (y (g ++ [a])) x ≤ y (g ++ [a, x])) (h1 : ∀ a, y [a] = a) (xs : List K) :
    variation (scan y [] xs) ≤ variation xs := by
  have e : scan (fun l => - y (l.map (- ·))) [] (xs.map (- ·)) = (scan y [] xs).map (- ·) := by
    refine List.ext_getElem (by simp) fun i h1 h2 => ?_
    rw [List.getElem_map, scan_getElem, scan_getElem]
    simp [← List.map_take]
  have := variation_extreme (y := fun l => - y (l.map (- ·))) (fun g a => by
      have := lo (g.map (- ·)) (-a)
      simp only [List.map_append, List.map_cons, List.map_nil]; linarith)
    (fun g a x => by
      have := up (g.map (- ·)) (-a) (-x)
      simp only [List.map_append, List.map_cons, List.map_nil]
      rcases min_le_iff.1 this with h | h
      · exact le_max_of_le_left (by linarith)
      · exact le_max_of_le_right (by linarith)) (fun a => by simp [h1]) (xs.map (- ·))
  rwa [e, variation_neg, variation_neg] at this

theorem C90_local_min {p : Nat} (hp : 0 < p) : Calms (LocalMinimum (p : Int) : Operator (XR K)) 0 :=
  (localMin_reals hp).calms fun xs => variation_extreme' (y := fun l => leastK (window p l))
    (fun g a => (leastK_least (window_ne_nil hp (by simp))).2 a (by rw [window_snoc' hp]; simp))
    (fun g a x => by
      have h := (leastK_least (window_ne_nil hp (l := g ++ [a, x]) (by simp))).1
      rw [show g ++ [a, x] = (g ++ [a]) ++ [x] by simp] at h ⊢
      rw [window_snoc' hp] at h
      rcases List.mem_cons.1 h with h | h
      · rw [← window_snoc' hp] at h; exact min_le_of_right_le h.ge
      · rw [window_snoc' hp (g ++ [a])]
        exact min_le_of_left_le ((leastK_least (window_ne_nil hp (by simp))).2 _ (window_sub (Nat.sub_le p 1) _ h)))
    (fun a => least_eq (by rw [show window p [a] = [a] by have := window_snoc' hp [] a; simpa [window] using this]; exact ⟨by simp, by simp⟩)) xs
example := C90_local_min (K := ℚ) (p := 3) (by norm_num) [3, 1, 4, 1, 5] (by simp)

theorem C90_global_min : Calms (GlobalMinimum : Operator (XR K)) 0 :=
  globalMin_reals.calms fun xs => variation_extreme' (y := leastK)
    (fun g a => (leastK_least (by simp)).2 a (by simp))
    (fun g a x => by
      have h := (leastK_least (l := g ++ [a, x]) (by simp)).1
      rw [show g ++ [a, x] = (g ++ [a]) ++ [x] by simp] at h ⊢
      rcases List.mem_append.1 h with h | h
      · exact min_le_of_left_le ((leastK_least (by simp)).2 _ h)
      · exact min_le_of_right_le (List.mem_singleton.1 h).ge)
    (fun a => least_eq ⟨by simp, by simp⟩) xs
example := C90_global_min (K := ℚ) [3, 1, 4, 1, 5] (by simp)

end

/-- The warm-up has to be left out: on 5, 5 the average over two samples outputs 0, 5. -/
theorem C90_warm_up : ¬ Calms (SMA 2 : Operator (XR ℚ)) 0 := by
  intro h
  obtain ⟨os, sf, s0, e, hl, hv⟩ := h [5, 5] (by simp)
  obtain ⟨sf', s0', e'⟩ := (sma_reals (K := ℚ) (p := 2) (by norm_num)).at' (xs := [5, 5]) (by simp)
  have e'' := e.symm.trans e'
  simp only [Except.ok.injEq, Prod.mk.injEq] at e''
  rw [finSeries_inj e''.1] at hv
  revert hv; decide +kernel
example : Calms (SMA 2 : Operator (XR ℚ)) 1 := C90_sma (p := 2) (by norm_num)

/-- Differences oscillate more: on 0, 1, 0, 1 `Momentum(1)` outputs 0, 1, -1, 1. -/
theorem C90_momentum : ¬ Calms (Momentum 1 : Operator (XR ℚ)) 1 := by
  intro h
  obtain ⟨os, sf, s0, e, hl, hv⟩ := h [0, 1, 0, 1] (by simp)
  obtain ⟨sf', s0', e'⟩ := (momentum_reals (K := ℚ) (p := 1) (by norm_num)).at' (xs := [0, 1, 0, 1]) (by simp)
  have e'' := e.symm.trans e'
  simp only [Except.ok.injEq, Prod.mk.injEq] at e''
  rw [finSeries_inj e''.1] at hv
  revert hv; decide +kernel

/-- The samples 3, 1, 4, 1, 5 travel 2 + 3 + 3 + 4 = 12, their averages over two samples 2, 5/2, 5/2, 3 only 1, their maxima over two samples 3, 3, 4, 4, 5 only 2. -/
example : output (call (SMA 2) (series [3, 1, 4, 1, 5]) none) = .ok (series [0, 2, 5 / 2, 5 / 2, 3]) ∧
    output (call (LocalMaximum 2) (series [3, 1, 4, 1, 5]) none) = .ok (series [3, 3, 4, 4, 5]) :=
  ⟨by decide +kernel, by decide +kernel⟩

end TS
