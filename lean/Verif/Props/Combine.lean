import Verif.Props.Totals
import Verif.Props.Perfect
import Verif.Props.Transforms
/-
C103: sums, mixtures and extrema of two series.
-/
namespace TS

section
variable {α : Type} {A B : Type}

theorem StreamsAs.combines {op : Operator α} {ser : List A → Val α} {outs : List B → Val α} {y : List A → B} (h : StreamsAs op ser outs y) {f : A → A → A} {rel : B → B → B → Prop}
    (key : ∀ zs : List (A × A), zs ≠ [] → rel (y (zs.map fun z => f z.1 z.2)) (y (zs.map Prod.fst)) (y (zs.map Prod.snd))) : Combines op ser outs f rel := fun zs hz => by
  obtain ⟨st, h, -⟩ := h
  refine ⟨_, _, _, _, _, _, _, _, _, h _ (by simpa using hz), h _ (by simpa using hz), h _ (by simpa using hz), by simp, by simp, by simp, fun i hi => ?_⟩
  have hi' : i < zs.length := by simpa using hi
  rw [scan_getElem, scan_getElem, scan_getElem, List.nil_append, List.nil_append, List.nil_append, ← List.map_take, ← List.map_take, ← List.map_take]
  exact key _ (by rw [← List.length_pos_iff, List.length_take]; omega)
end

section
variable {K : Type} [Field K] [LinearOrder K] [IsStrictOrderedRing K] [Transc K] [FloorRing K]

theorem greatestK_combine {f : K → K → K} {g : K → K → K} (h : ∀ x x' y y', x ≤ x' → y ≤ y' → f x y ≤ g x' y') {l : List (K × K)} (hl : l ≠ []) :
    greatestK (l.map fun z => f z.1 z.2) ≤ g (greatestK (l.map Prod.fst)) (greatestK (l.map Prod.snd)) := by
  have hm := (greatestK_greatest (l := l.map fun z => f z.1 z.2) (by simpa using hl)).1
  obtain ⟨z, hz, e⟩ := List.mem_map.1 hm
  rw [← e]
  exact h _ _ _ _ ((greatestK_greatest (by simpa using hl)).2 _ (List.mem_map.2 ⟨z, hz, rfl⟩)) ((greatestK_greatest (by simpa using hl)).2 _ (List.mem_map.2 ⟨z, hz, rfl⟩))

theorem leastK_combine {f : K → K → K} {g : K → K → K} (h : ∀ x x' y y', x' ≤ x → y' ≤ y → g x' y' ≤ f x y) {l : List (K × K)} (hl : l ≠ []) :
    g (leastK (l.map Prod.fst)) (leastK (l.map Prod.snd)) ≤ leastK (l.map fun z => f z.1 z.2) := by
  have hm := (leastK_least (l := l.map fun z => f z.1 z.2) (by simpa using hl)).1
  obtain ⟨z, hz, e⟩ := List.mem_map.1 hm
  rw [← e]
  exact h _ _ _ _ ((leastK_least (by simpa using hl)).2 _ (List.mem_map.2 ⟨z, hz, rfl⟩)) ((leastK_least (by simpa using hl)).2 _ (List.mem_map.2 ⟨z, hz, rfl⟩))

theorem greatestK_max {l : List (K × K)} (hl : l ≠ []) : greatestK (l.map fun z : K × K => max z.1 z.2) = max (greatestK (l.map Prod.fst)) (greatestK (l.map Prod.snd)) := by
  have hf (f : K × K → K) : l.map f ≠ [] := by simpa using hl
  have h (f : K × K → K) (h : ∀ z, f z ≤ max z.1 z.2) : greatestK (l.map f) ≤ greatestK (l.map fun z => max z.1 z.2) := by
    obtain ⟨z, hz, e⟩ := List.mem_map.1 (greatestK_greatest (hf f)).1
    rw [← e]
    exact (h z).trans ((greatestK_greatest (hf _)).2 _ (List.mem_map.2 ⟨z, hz, rfl⟩))
  exact le_antisymm (greatestK_combine (f := fun x y => max x y) (g := fun x y => max x y) (fun _ _ _ _ h h' => max_le_max h h') hl) (max_le (h _ fun z => le_max_left _ _) (h _ fun z => le_max_right _ _))

theorem leastK_min {l : List (K × K)} (hl : l ≠ []) : leastK (l.map fun z : K × K => min z.1 z.2) = min (leastK (l.map Prod.fst)) (leastK (l.map Prod.snd)) := by
  have hf (f : K × K → K) : l.map f ≠ [] := by simpa using hl
  have h (f : K × K → K) (h : ∀ z, min z.1 z.2 ≤ f z) : leastK (l.map fun z => min z.1 z.2) ≤ leastK (l.map f) := by
    obtain ⟨z, hz, e⟩ := List.mem_map.1 (leastK_least (hf f)).1
    rw [← e]
    exact ((leastK_least (hf _)).2 _ (List.mem_map.2 ⟨z, hz, rfl⟩)).trans (h z)
  exact le_antisymm (le_min (h _ fun z => min_le_left _ _) (h _ fun z => min_le_right _ _)) (leastK_combine (f := fun x y => min x y) (g := fun x y => min x y) (fun _ _ _ _ h h' => min_le_min h h') hl)

/-- **C103 Global extrema of weighted sums**: at most the weighted sum of the maxima, at least that of the minima. -/
theorem C103_global {a b : K} (ha : 0 ≤ a) (hb : 0 ≤ b) :
    Combines (GlobalMaximum : Operator (XR K)) numbers numbers (fun x y => a * x + b * y) (fun o o1 o2 => o ≤ a * o1 + b * o2) ∧
    Combines (GlobalMinimum : Operator (XR K)) numbers numbers (fun x y => a * x + b * y) (fun o o1 o2 => a * o1 + b * o2 ≤ o) :=
  ⟨globalMax_reals.combines fun zs hz => greatestK_combine (f := fun x y => a * x + b * y) (g := fun x y => a * x + b * y) (fun _ _ _ _ h h' => by gcongr) hz,
    globalMin_reals.combines fun zs hz => leastK_combine (f := fun x y => a * x + b * y) (g := fun x y => a * x + b * y) (fun _ _ _ _ h h' => by gcongr) hz⟩

/-- **C103 Local extrema of weighted sums** -/
theorem C103_local {p : Nat} (hp : 0 < p) {a b : K} (ha : 0 ≤ a) (hb : 0 ≤ b) :
    Combines (LocalMaximum (p : Int) : Operator (XR K)) numbers numbers (fun x y => a * x + b * y) (fun o o1 o2 => o ≤ a * o1 + b * o2) ∧
    Combines (LocalMinimum (p : Int) : Operator (XR K)) numbers numbers (fun x y => a * x + b * y) (fun o o1 o2 => a * o1 + b * o2 ≤ o) := by
  refine ⟨(localMax_reals hp).combines fun zs hz => ?_, (localMin_reals hp).combines fun zs hz => ?_⟩
  · rw [window_map, window_map, window_map]
    exact greatestK_combine (f := fun x y => a * x + b * y) (g := fun x y => a * x + b * y) (fun _ _ _ _ h h' => by gcongr) (window_ne_nil hp hz)
  · rw [window_map, window_map, window_map]
    exact leastK_combine (f := fun x y => a * x + b * y) (g := fun x y => a * x + b * y) (fun _ _ _ _ h h' => by gcongr) (window_ne_nil hp hz)

/-- **C103 Extrema of extrema**: the maximum of the greater samples is the greater maximum, the minimum of the smaller ones the smaller minimum. -/
theorem C103_extrema {p : Nat} (hp : 0 < p) :
    Combines (GlobalMaximum : Operator (XR K)) numbers numbers max (fun o o1 o2 => o = max o1 o2) ∧ Combines (GlobalMinimum : Operator (XR K)) numbers numbers min (fun o o1 o2 => o = min o1 o2) ∧
    Combines (LocalMaximum (p : Int) : Operator (XR K)) numbers numbers max (fun o o1 o2 => o = max o1 o2) ∧ Combines (LocalMinimum (p : Int) : Operator (XR K)) numbers numbers min (fun o o1 o2 => o = min o1 o2) := by
  refine ⟨globalMax_reals.combines fun zs hz => greatestK_max hz, globalMin_reals.combines fun zs hz => leastK_min hz, (localMax_reals hp).combines fun zs hz => ?_, (localMin_reals hp).combines fun zs hz => ?_⟩
  · rw [window_map, window_map, window_map]
    exact greatestK_max (window_ne_nil hp hz)
  · rw [window_map, window_map, window_map]
    exact leastK_min (window_ne_nil hp hz)
end

/-- the triangle inequality for standard deviations -/
theorem stdDev_add_le (l : List (ℝ × ℝ)) : stdDev (l.map fun z => z.1 + z.2) ≤ stdDev (l.map Prod.fst) + stdDev (l.map Prod.snd) := by
  rcases eq_or_ne l [] with rfl | hl
  · simp [stdDev, variance, avg]
  have e := variance_residual hl (-1)
  have e' : (l.map fun z => z.2 - -1 * z.1) = l.map fun z => z.1 + z.2 := List.map_congr_left fun z _ => by ring
  rw [e'] at e
  have hc := covariance_sq_le l
  have h1 : stdDev (l.map Prod.fst) ^ 2 = variance (l.map Prod.fst) := Real.sq_sqrt (variance_nonneg _)
  have h2 : stdDev (l.map Prod.snd) ^ 2 = variance (l.map Prod.snd) := Real.sq_sqrt (variance_nonneg _)
  have p1 : 0 ≤ stdDev (l.map Prod.fst) := Real.sqrt_nonneg _
  have p2 : 0 ≤ stdDev (l.map Prod.snd) := Real.sqrt_nonneg _
  have hc' : covariance l ≤ stdDev (l.map Prod.fst) * stdDev (l.map Prod.snd) := by
    refine (le_abs_self _).trans (abs_le_of_sq_le_sq ?_ (by positivity))
    rw [mul_pow, h1, h2]; exact hc
  rw [stdDev, Real.sqrt_le_left (by positivity), e, ← h1, ← h2]
  nlinarith

theorem stdDev_combine (a b : ℝ) (l : List (ℝ × ℝ)) : stdDev (l.map fun z => a * z.1 + b * z.2) ≤ |a| * stdDev (l.map Prod.fst) + |b| * stdDev (l.map Prod.snd) := by
  have := stdDev_add_le (l.map fun z => (a * z.1, b * z.2))
  simp only [List.map_map, Function.comp_def] at this
  have e1 := stdDev_smul (l.map Prod.fst) a
  have e2 := stdDev_smul (l.map Prod.snd) b
  simp only [List.map_map, Function.comp_def] at e1 e2
  rw [e1, e2] at this
  exact this

theorem movingStdR_combine {p : Nat} (a b : ℝ) (zs : List (ℝ × ℝ)) : movingStdR p (zs.map fun z => a * z.1 + b * z.2) ≤ |a| * movingStdR p (zs.map Prod.fst) + |b| * movingStdR p (zs.map Prod.snd) := by
  simp only [movingStdR, List.length_map]
  split
  · simp
  · rw [window_map, window_map, window_map]
    exact stdDev_combine a b _

theorem movingAvgK_combine {p : Nat} (a b : ℝ) (zs : List (ℝ × ℝ)) : movingAvgK p (zs.map fun z => a * z.1 + b * z.2) = a * movingAvgK p (zs.map Prod.fst) + b * movingAvgK p (zs.map Prod.snd) := by
  simp only [movingAvgK, List.length_map]
  split
  · simp
  · rw [window_map, window_map, window_map, avg_add (fun z : ℝ × ℝ => a * z.1) (fun z => b * z.2), avg_map_smul, avg_map_smul]

/-- **C103 MovingStandardDeviation of weighted sums**: at most the sum of the deviations times the absolute values of the weights. -/
theorem C103_msd {p : Nat} (hp : 0 < p) (a b : ℝ) : Combines (MSD (p : Int)) numbers numbers (fun x y => a * x + b * y) (fun o o1 o2 => o ≤ |a| * o1 + |b| * o2) :=
  (msd_reals hp).combines fun zs _ => movingStdR_combine a b zs

/-- **C103 MovingStandardDeviation of differences**: at least the difference of the deviations. -/
theorem C103_msd_difference {p : Nat} (hp : 0 < p) : Combines (MSD (p : Int)) numbers numbers (fun x y : ℝ => x - y) (fun o o1 o2 => |o1 - o2| ≤ o) :=
  (msd_reals hp).combines fun zs _ => by
    have h1 := movingStdR_combine (p := p) 1 1 (zs.map fun z => (z.1 - z.2, z.2))
    have h2 := movingStdR_combine (p := p) (-1) 1 (zs.map fun z => (z.1 - z.2, z.1))
    simp only [List.map_map, Function.comp_def, one_mul, abs_one, abs_neg, sub_add_cancel, neg_mul, neg_sub] at h1 h2
    change movingStdR p (zs.map Prod.fst) ≤ movingStdR p (zs.map fun z => z.1 - z.2) + movingStdR p (zs.map Prod.snd) at h1
    change movingStdR p (zs.map Prod.snd) ≤ movingStdR p (zs.map fun z => z.1 - z.2) + movingStdR p (zs.map Prod.fst) at h2
    rw [abs_le]
    constructor <;> linarith

/-- **C103 BollingerBands of weighted sums**: the bands of the sum lie between the sums of the bands. -/
theorem C103_bollinger {p : Nat} (hp : 0 < p) {k : ℚ} (hk : 0 ≤ k) {a b : ℝ} (ha : 0 ≤ a) (hb : 0 ≤ b) : Combines (BollingerBands (p : Int) k) numbers finSeries3 (fun x y : ℝ => a * x + b * y)
    (fun o o1 o2 => a * o1.1 + b * o2.1 ≤ o.1 ∧ o.2.1 = a * o1.2.1 + b * o2.2.1 ∧ o.2.2 ≤ a * o1.2.2 + b * o2.2.2) :=
  (bollinger_reals hp k).combines fun zs _ => by
    have h1 := movingStdR_combine (p := p) a b zs
    have h2 := movingAvgK_combine (p := p) a b zs
    rw [abs_of_nonneg ha, abs_of_nonneg hb] at h1
    have hk' : (0 : ℝ) ≤ k := by exact_mod_cast hk
    have h3 := mul_le_mul_of_nonneg_right h1 hk'
    refine ⟨?_, h2, ?_⟩
    · show _ ≤ movingAvgK p _ - movingStdR p _ * k
      rw [h2]; linarith
    · show movingAvgK p _ + movingStdR p _ * k ≤ _
      rw [h2]; linarith

example := (C103_global (K := ℚ) (a := 1) (b := 2) (by norm_num) (by norm_num)).1 [(1, 4), (3, -1)] (by simp)
example := (C103_local (K := ℚ) (p := 2) (by norm_num) (a := 1) (b := 2) (by norm_num) (by norm_num)).2 [(1, 4), (3, -1)] (by simp)
example := (C103_extrema (K := ℚ) (p := 2) (by norm_num)).1 [(1, 4), (3, -1)] (by simp)
example := C103_msd (p := 2) (by norm_num) 1 (-2) [(1, 4), (3, -1)] (by simp)
example := C103_msd_difference (p := 2) (by norm_num) [(1, 4), (3, -1)] (by simp)
example := C103_bollinger (p := 2) (by norm_num) (k := 2) (by norm_num) (a := 1) (b := 2) (by norm_num) (by norm_num) [(1, 4), (3, -1)] (by simp)
end TS
