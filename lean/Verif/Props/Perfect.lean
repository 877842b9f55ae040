import Verif.Props.Correlation
import Verif.Props.Trends
import Verif.Props.RiskRatio
/-
C80: when correlations are 1 or -1, and which delay a cross-correlation detects.
-/
namespace TS
open PyVal

/-! ### Lists of pairs -/

/-- The mean squared deviation from the line of slope `a` through the means. -/
theorem variance_residual {l : List (ℝ × ℝ)} (hl : l ≠ []) (a : ℝ) :
    variance (l.map fun z => z.2 - a * z.1) = variance (l.map Prod.snd) - 2 * a * covariance l + a ^ 2 * variance (l.map Prod.fst) := by
  have e : avg (l.map fun z => z.2 - a * z.1) = avg (l.map Prod.snd) - a * avg (l.map Prod.fst) := by
    have := avg_add (fun z : ℝ × ℝ => z.2) (fun z => (-a) * z.1) l
    rw [avg_map_smul] at this
    have e : (l.map fun z => z.2 - a * z.1) = l.map fun z => z.2 + (-a) * z.1 := List.map_congr_left fun z _ => by ring
    rw [e, this]
    change avg (l.map Prod.snd) + -a * avg (l.map Prod.fst) = _
    ring
  rw [variance, variance, variance, covariance, e]
  generalize avg (l.map Prod.snd) = m at *
  generalize avg (l.map Prod.fst) = m' at *
  simp only [List.map_map, Function.comp_def]
  have h1 := avg_add (fun z : ℝ × ℝ => (z.2 - m) ^ 2) (fun z => (-2 * a) * ((z.1 - m') * (z.2 - m)) + a ^ 2 * (z.1 - m') ^ 2) l
  have h2 := avg_add (fun z : ℝ × ℝ => (-2 * a) * ((z.1 - m') * (z.2 - m))) (fun z => a ^ 2 * (z.1 - m') ^ 2) l
  rw [avg_map_smul, avg_map_smul] at h2
  rw [h2] at h1
  have e2 : (l.map fun z => (z.2 - a * z.1 - (m - a * m')) ^ 2) = l.map fun z => (z.2 - m) ^ 2 + ((-2 * a) * ((z.1 - m') * (z.2 - m)) + a ^ 2 * (z.1 - m') ^ 2) :=
    List.map_congr_left fun z _ => by ring
  rw [e2, h1]
  ring

theorem Varies.ne_nil {l : List ℝ} (h : Varies l) : l ≠ [] := by
  rintro rfl
  obtain ⟨x, hx, -⟩ := h
  simp at hx

/-- a correlation of 1 or -1: all pairs lie on one line -/
theorem correlation_sign {l : List (ℝ × ℝ)} (h1 : Varies (l.map Prod.fst)) (h2 : Varies (l.map Prod.snd)) {e : ℝ} (he : e = 1 ∨ e = -1) :
    correlation l = e ↔ ∃ a b, 0 < e * a ∧ ∀ z ∈ l, z.2 = a * z.1 + b := by
  have hl : l ≠ [] := by simpa using h1.ne_nil
  have ee : e * e = 1 := by rcases he with rfl | rfl <;> norm_num
  have p1 := stdDev_pos ((varies_iff _).1 h1)
  have p2 := stdDev_pos ((varies_iff _).1 h2)
  have v1 : variance (l.map Prod.fst) = stdDev (l.map Prod.fst) ^ 2 := (Real.sq_sqrt (variance_nonneg _)).symm
  have v2 : variance (l.map Prod.snd) = stdDev (l.map Prod.snd) ^ 2 := (Real.sq_sqrt (variance_nonneg _)).symm
  rw [correlation, div_eq_iff (by positivity)]
  generalize hx : stdDev (l.map Prod.fst) = sx at *
  generalize hy : stdDev (l.map Prod.snd) = sy at *
  constructor
  · intro hc
    refine ⟨e * (sy / sx), ?_⟩
    have h0 : variance (l.map fun z => z.2 - (e * (sy / sx)) * z.1) = 0 := by
      rw [variance_residual hl, hc, v1, v2]
      field_simp
      linear_combination (-sy ^ 2) * ee
    rw [variance_eq_zero_avg] at h0
    refine ⟨avg (l.map fun z => z.2 - (e * (sy / sx)) * z.1), ?_, fun z hz => ?_⟩
    · rw [← mul_assoc, ee, one_mul]; positivity
    · have := h0 _ (List.mem_map.2 ⟨z, hz, rfl⟩)
      linarith
  · rintro ⟨a, b, ha, hz⟩
    have h0 : variance (l.map fun z => z.2 - a * z.1) = 0 := by
      rw [variance_eq_zero]
      simp only [List.mem_map]
      rintro _ ⟨z, hz1, rfl⟩ _ ⟨w, hw, rfl⟩
      rw [hz z hz1, hz w hw]; ring
    have ev : variance (l.map Prod.snd) = a ^ 2 * variance (l.map Prod.fst) := by
      have : l.map Prod.snd = ((l.map Prod.fst).map (a * ·)).map (· + b) := by
        rw [List.map_map, List.map_map]
        exact List.map_congr_left fun z hz1 => hz z hz1
      rw [this, variance_shift, variance_smul]
    rw [variance_residual hl, ev] at h0
    rw [v1, v2] at ev
    have ha0 : a ≠ 0 := by rintro rfl; simp at ha
    have hsy : sy = e * a * sx := by
      have : sy ^ 2 = (e * a * sx) ^ 2 := by rw [ev]; linear_combination (-(a ^ 2 * sx ^ 2)) * ee
      exact (pow_left_inj₀ p2.le (mul_pos ha p1).le two_ne_zero).1 this
    have hc : covariance l = a * sx ^ 2 := by
      rw [v1] at h0
      have : 2 * a * (covariance l - a * sx ^ 2) = 0 := by linear_combination -h0
      rcases mul_eq_zero.1 this with h | h
      · exact absurd h (by simpa using ha0)
      · linarith
    rw [hc, hsy]
    linear_combination (-(a * sx ^ 2)) * ee

/-- the coefficient of two windows -/
theorem pearson_sign {p : Nat} (u v : Nat → ℝ) (hu : ∃ j k, j < p ∧ k < p ∧ u j ≠ u k) (hv : ∃ j k, j < p ∧ k < p ∧ v j ≠ v k) {e : ℝ} (he : e = 1 ∨ e = -1) :
    pearson (List.ofFn fun j : Fin p => XR.fin (u j)) (List.ofFn fun j : Fin p => XR.fin (v j)) = (XR.fin e : XR ℝ) ↔ ∃ a b, 0 < e * a ∧ ∀ j < p, u j = a * v j + b := by
  set l : List (ℝ × ℝ) := List.ofFn fun j : Fin p => (v j, u j) with hl
  have e1 : l.map Prod.fst = List.ofFn fun j : Fin p => v j := by simp [hl, List.map_ofFn, Function.comp_def]
  have e2 : l.map Prod.snd = List.ofFn fun j : Fin p => u j := by simp [hl, List.map_ofFn, Function.comp_def]
  have w1 : Varies (l.map Prod.fst) := by
    obtain ⟨j, k, hj, hk, h⟩ := hv
    rw [e1]
    exact ⟨_, List.mem_ofFn.2 ⟨⟨j, hj⟩, rfl⟩, _, List.mem_ofFn.2 ⟨⟨k, hk⟩, rfl⟩, h⟩
  have w2 : Varies (l.map Prod.snd) := by
    obtain ⟨j, k, hj, hk, h⟩ := hu
    rw [e2]
    exact ⟨_, List.mem_ofFn.2 ⟨⟨j, hj⟩, rfl⟩, _, List.mem_ofFn.2 ⟨⟨k, hk⟩, rfl⟩, h⟩
  have m1 : (l.map Prod.swap).map Prod.fst = l.map Prod.snd := by simp
  have m2 : (l.map Prod.swap).map Prod.snd = l.map Prod.fst := by simp
  have key := pearson_varies (l := l.map Prod.swap) (by rwa [m1]) (by rwa [m2])
  rw [m1, m2, e1, e2, List.map_ofFn, List.map_ofFn, correlation_swap] at key
  simp only [Function.comp_def] at key
  rw [key, XR.fin.injEq, correlation_sign w1 w2 he]
  constructor
  · rintro ⟨a, b, ha, h⟩
    exact ⟨a, b, ha, fun j hj => h (v j, u j) (List.mem_ofFn.2 ⟨⟨j, hj⟩, rfl⟩)⟩
  · rintro ⟨a, b, ha, h⟩
    refine ⟨a, b, ha, fun z hz => ?_⟩
    obtain ⟨j, rfl⟩ := List.mem_ofFn.1 hz
    exact h j j.2

/-! ### The operators -/

/-- two series of real numbers -/
noncomputable abbrev realPairs (x y : Nat → ℝ) (n : Nat) : Val (XR ℝ) := finPairs ((List.range n).map fun i => (x i, y i))

theorem crossOf_pt {α : Type} [TFNum α] {p lag : Nat} (l : List (α × α)) : crossOf p lag (l.map (Prod.map pt pt)) = pt (crossOf p lag l) := by
  have e : lagPairs lag (l.map (Prod.map pt pt)) = (lagPairs lag l).map (Prod.map (pt (α := α)) pt) := by
    simp [lagPairs, List.map_map, Function.comp_def, ← List.map_drop, ← List.zip_map]
  rw [crossOf, e, corrOf_pt, crossOf]

theorem C42_cross_scalar {α : Type} [TFNum α] {p lag : Nat} (hp : 0 < p) (hl : 0 < lag) : StreamsAs (CrossCorrelation (p : Int) lag : Operator α) vSBuf2 vSBuf (crossOf p lag) := by
  have := (C42_cross_streams (α := α) hp hl []).comap (Prod.map pt pt) pt fun l _ => crossOf_pt l
  have e : (fun l : List (α × α) => vBuf2 (l.map (Prod.map pt pt))) = vSBuf2 := by
    funext l; simp [vBuf2, vSBuf2, vSBuf, Function.comp_def]
  rwa [e] at this
example := C42_cross_scalar (α := XR ℚ) (p := 2) (lag := 1) (by norm_num) (by norm_num)

theorem C42_auto_scalar {α : Type} [TFNum α] {p lag : Nat} (hp : 0 < p) (hl : 0 < lag) :
    StreamsAs (AutoCorrelation (p : Int) lag : Operator α) vSBuf vSBuf (fun h => crossOf p lag (h.map fun x => (x, x))) :=
  (C42_auto_streams (α := α) hp hl []).scalar fun l _ => by
    rw [← crossOf_pt, List.map_map, List.map_map]; rfl
example := C42_auto_scalar (α := XR ℚ) (p := 2) (lag := 1) (by norm_num) (by norm_num)

theorem crossOf_zero {E : Type} [Arith E] (p : Nat) (l : List (E × E)) : crossOf p 0 l = corrOf p l := by
  have e : ((l.map Prod.fst).drop 0).zip (l.map Prod.snd) = l := by simpa using (List.zip_of_prod (l := l.map Prod.fst) (l' := l.map Prod.snd) (xs := l) rfl rfl).symm
  rw [crossOf, lagPairs, e]

/-- **C80, correlation**: it is 1 exactly when the pairs of the window lie on a rising line, -1 exactly when on a falling one (both windows varying). -/
theorem C80_correlation {p n : Nat} (hp : 0 < p) (hn : 0 < n) (x y : Nat → ℝ) :
    ∃ os sf s0, call (Correlation (p : Int)) (realPairs x y n) none = .ok (vSBuf os, sf, s0) ∧ ∃ hl : os.length = n, ∀ i (hi : i < n), p ≤ i →
      (∃ j k, j < p ∧ k < p ∧ x (i - j) ≠ x (i - k)) → (∃ j k, j < p ∧ k < p ∧ y (i - j) ≠ y (i - k)) →
      (os[i] = XR.fin 1 ↔ ∃ a b, 0 < a ∧ ∀ j < p, x (i - j) = a * y (i - j) + b) ∧
      (os[i] = XR.fin (-1) ↔ ∃ a b, a < 0 ∧ ∀ j < p, x (i - j) = a * y (i - j) + b) := by

  obtain ⟨os, sf, s0, h1, hl, h2⟩ := (C41_correlation_scalar (α := XR ℝ) hp).at (xs := ((List.range n).map fun i => (x i, y i)).map (Prod.map XR.fin XR.fin)) (by simp; omega)
  rw [← finPairs_eq] at h1
  have hl' : os.length = n := by simpa using hl
  refine ⟨os, sf, s0, h1, hl', fun i hi hpi hx hy => ?_⟩
  have hi' : i < (((List.range n).map fun i => (x i, y i)).map (Prod.map XR.fin XR.fin)).length := by simpa using hi
  have h3 := h2 i hi'
  rw [← crossOf_zero, crossOf_take hi', dif_neg (by omega)] at h3
  simp only [List.getElem_map, List.getElem_range, Prod.map, Nat.sub_zero] at h3
  have s1 := pearson_sign (p := p) (fun j => x (i - j)) (fun j => y (i - j)) hx hy (.inl rfl)
  have s2 := pearson_sign (p := p) (fun j => x (i - j)) (fun j => y (i - j)) hx hy (.inr rfl)
  rw [h3, s1, s2]
  simp only [one_mul, neg_mul, neg_pos, and_self]
example := C80_correlation (p := 2) (n := 4) (by norm_num) (by norm_num) (fun i => (i : ℝ)) (fun i => 1 - 2 * i)

/-- **C80, cross-correlation**: the same for the first series and the second one `lag` steps earlier. -/
theorem C80_cross {p lag n : Nat} (hp : 0 < p) (hlag : 0 < lag) (hn : 0 < n) (x y : Nat → ℝ) :
    ∃ os sf s0, call (CrossCorrelation (p : Int) lag) (realPairs x y n) none = .ok (vSBuf os, sf, s0) ∧ ∃ hl : os.length = n, ∀ i (hi : i < n), lag + p ≤ i →
      (∃ j k, j < p ∧ k < p ∧ x (i - j) ≠ x (i - k)) → (∃ j k, j < p ∧ k < p ∧ y (i - lag - j) ≠ y (i - lag - k)) →
      (os[i] = XR.fin 1 ↔ ∃ a b, 0 < a ∧ ∀ j < p, x (i - j) = a * y (i - lag - j) + b) ∧
      (os[i] = XR.fin (-1) ↔ ∃ a b, a < 0 ∧ ∀ j < p, x (i - j) = a * y (i - lag - j) + b) := by
  obtain ⟨os, sf, s0, h1, hl, h2⟩ := (C42_cross_scalar (α := XR ℝ) hp hlag).at (xs := ((List.range n).map fun i => (x i, y i)).map (Prod.map XR.fin XR.fin)) (by simp; omega)
  rw [← finPairs_eq] at h1
  have hl' : os.length = n := by simpa using hl
  refine ⟨os, sf, s0, h1, hl', fun i hi hpi hx hy => ?_⟩
  have hi' : i < (((List.range n).map fun i => (x i, y i)).map (Prod.map XR.fin XR.fin)).length := by simpa using hi
  have h3 := h2 i hi'
  rw [crossOf_take hi', dif_neg (by omega)] at h3
  simp only [List.getElem_map, List.getElem_range, Prod.map] at h3
  have s1 := pearson_sign (p := p) (fun j => x (i - j)) (fun j => y (i - lag - j)) hx hy (.inl rfl)
  have s2 := pearson_sign (p := p) (fun j => x (i - j)) (fun j => y (i - lag - j)) hx hy (.inr rfl)
  rw [h3, s1, s2]
  simp only [one_mul, neg_mul, neg_pos, and_self]

example := C80_cross (p := 2) (lag := 1) (n := 5) (by norm_num) (by norm_num) (by norm_num) (fun i => (i : ℝ)) (fun i => 1 - 2 * i)

/-- **C80, auto-correlation.** -/
theorem C80_auto {p lag n : Nat} (hp : 0 < p) (hlag : 0 < lag) (hn : 0 < n) (x : Nat → ℝ) :
    ∃ os sf s0, call (AutoCorrelation (p : Int) lag) (finSeries ((List.range n).map x)) none = .ok (vSBuf os, sf, s0) ∧ ∃ hl : os.length = n, ∀ i (hi : i < n), lag + p ≤ i →
      (∃ j k, j < p ∧ k < p ∧ x (i - j) ≠ x (i - k)) → (∃ j k, j < p ∧ k < p ∧ x (i - lag - j) ≠ x (i - lag - k)) →
      (os[i] = XR.fin 1 ↔ ∃ a b, 0 < a ∧ ∀ j < p, x (i - j) = a * x (i - lag - j) + b) ∧
      (os[i] = XR.fin (-1) ↔ ∃ a b, a < 0 ∧ ∀ j < p, x (i - j) = a * x (i - lag - j) + b) := by
  obtain ⟨os, sf, s0, h1, hl, h2⟩ := (C42_auto_scalar (α := XR ℝ) hp hlag).at (xs := ((List.range n).map x).map XR.fin) (by simp; omega)
  obtain ⟨os', sf', s0', h1', hl', h2'⟩ := C80_cross hp hlag hn x x
  have hln : os.length = n := by simpa using hl
  refine ⟨os, sf, s0, h1, hln, fun i hi => ?_⟩
  have hi' : i < (((List.range n).map fun i => (x i, x i)).map (Prod.map XR.fin XR.fin)).length := by simpa using hi
  have e : os[i] = os'[i] := by
    obtain ⟨os'', sf'', s0'', g1, gl, g2⟩ := (C42_cross_scalar (α := XR ℝ) hp hlag).at (xs := ((List.range n).map fun i => (x i, x i)).map (Prod.map XR.fin XR.fin)) (by simp; omega)
    rw [← finPairs_eq, h1'] at g1
    have : os' = os'' := vSBuf_inj (congrArg (fun r : Res (Val (XR ℝ) × Val (XR ℝ) × Val (XR ℝ)) => match r with | .ok r => r.1 | .error _ => .unit) g1)
    subst this
    rw [h2 i (by simpa using hi), g2 i hi', ← List.map_take, ← List.map_take, ← List.map_take, ← List.map_take, List.map_map, List.map_map, List.map_map]
    rfl
  rw [e]
  exact h2' i hi
example := C80_auto (p := 2) (lag := 1) (n := 5) (by norm_num) (by norm_num) (by norm_num) (fun i => (i : ℝ))

/-- **C80, delays**: cross-correlation with lag `lag` is 1 (or -1) wherever the windows vary if the *first* series repeats the second one `lag` steps later, up to a change of scale: the second one leads. -/
theorem C80_delay {p lag n : Nat} (hp : 0 < p) (hlag : 0 < lag) (hn : 0 < n) (x y : Nat → ℝ) {a b : ℝ} (h : ∀ i, x (i + lag) = a * y i + b) :
    ∃ os sf s0, call (CrossCorrelation (p : Int) lag) (realPairs x y n) none = .ok (vSBuf os, sf, s0) ∧ ∃ hl : os.length = n, ∀ i (hi : i < n), lag + p ≤ i →
      (∃ j k, j < p ∧ k < p ∧ x (i - j) ≠ x (i - k)) → (0 < a → os[i] = XR.fin 1) ∧ (a < 0 → os[i] = XR.fin (-1)) := by
  obtain ⟨os, sf, s0, h1, hl, h2⟩ := C80_cross hp hlag hn x y
  refine ⟨os, sf, s0, h1, hl, fun i hi hpi hx => ?_⟩
  have hj : ∀ j < p, x (i - j) = a * y (i - lag - j) + b := fun j hj => by rw [← h]; congr 1; omega
  have hy : ∃ j k, j < p ∧ k < p ∧ y (i - lag - j) ≠ y (i - lag - k) := by
    obtain ⟨j, k, h3, h4, h5⟩ := hx
    exact ⟨j, k, h3, h4, fun h6 => h5 (by rw [hj j h3, hj k h4, h6])⟩
  obtain ⟨g1, g2⟩ := h2 i hi hpi hx hy
  exact ⟨fun ha => g1.2 ⟨a, b, ha, hj⟩, fun ha => g2.2 ⟨a, b, ha, hj⟩⟩
example := C80_delay (p := 2) (lag := 1) (n := 5) (by norm_num) (by norm_num) (by norm_num) (fun i => (i : ℝ)) (fun i => 1 - 2 * i) (a := -1 / 2) (b := 3 / 2) (fun i => by push_cast; ring)

/-- If the second series follows the first one (the docstring of `CrossCorrelation` reads "Value1 is leading") the coefficient may well be -1: here `y[i] = x[i - 1]`. -/
theorem C80_direction : output (call (CrossCorrelation 2 1) (.tup [series [0, 0, 1, 1, 0, 0, 1, 1, 0], series [0, 0, 0, 1, 1, 0, 0, 1, 1]]) none) =
      .ok (vSBuf [XR.fin 0, XR.fin 0, XR.fin 0, XR.nan, XR.fin (-1), XR.nan, XR.fin (-1), XR.nan, XR.fin (-1)]) ∧
    output (call (CrossCorrelation 2 1) (.tup [series [0, 0, 0, 1, 1, 0, 0, 1, 1], series [0, 0, 1, 1, 0, 0, 1, 1, 0]]) none) =
      .ok (vSBuf [XR.fin 0, XR.fin 0, XR.fin 0, XR.fin 1, XR.nan, XR.fin 1, XR.nan, XR.fin 1, XR.nan]) := by
  constructor <;> decide +kernel
example := C80_direction

/-- **C80, periodic series**: the auto-correlation at the period is 1; at half the period of a series that changes its sign there it is -1. -/
theorem C80_periodic {p lag n : Nat} (hp : 0 < p) (hlag : 0 < lag) (hn : 0 < n) (x : Nat → ℝ) {a b : ℝ} (h : ∀ i, x (i + lag) = a * x i + b) :
    ∃ os sf s0, call (AutoCorrelation (p : Int) lag) (finSeries ((List.range n).map x)) none = .ok (vSBuf os, sf, s0) ∧ ∃ hl : os.length = n, ∀ i (hi : i < n), lag + p ≤ i →
      (∃ j k, j < p ∧ k < p ∧ x (i - j) ≠ x (i - k)) → (0 < a → os[i] = XR.fin 1) ∧ (a < 0 → os[i] = XR.fin (-1)) := by
  obtain ⟨os, sf, s0, h1, hl, h2⟩ := C80_auto hp hlag hn x
  refine ⟨os, sf, s0, h1, hl, fun i hi hpi hx => ?_⟩
  have hj : ∀ j < p, x (i - j) = a * x (i - lag - j) + b := fun j hj => by rw [← h]; congr 1; omega
  have hy : ∃ j k, j < p ∧ k < p ∧ x (i - lag - j) ≠ x (i - lag - k) := by
    obtain ⟨j, k, h3, h4, h5⟩ := hx
    exact ⟨j, k, h3, h4, fun h6 => h5 (by rw [hj j h3, hj k h4, h6])⟩
  obtain ⟨g1, g2⟩ := h2 i hi hpi hx hy
  exact ⟨fun ha => g1.2 ⟨a, b, ha, hj⟩, fun ha => g2.2 ⟨a, b, ha, hj⟩⟩
/-- a periodic series -/
example := C80_periodic (p := 2) (lag := 2) (n := 7) (by norm_num) (by norm_num) (by norm_num) (fun i => ((i % 2 : Nat) : ℝ)) (a := 1) (b := 0) (fun i => by simp)
/-- a straight line -/
example := C80_periodic (p := 2) (lag := 3) (n := 7) (by norm_num) (by norm_num) (by norm_num) (fun i => (i : ℝ)) (a := 1) (b := 3) (fun i => by push_cast; ring)
/-- steady growth -/
example := C80_periodic (p := 2) (lag := 3) (n := 7) (by norm_num) (by norm_num) (by norm_num) (fun i => (2 : ℝ) ^ i) (a := 8) (b := 0) (fun i => by rw [pow_add]; norm_num; ring)

end TS
