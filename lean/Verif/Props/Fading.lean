import Verif.Props.Equations
import Verif.Props.Accuracy
import Verif.Spec.Sequences
import Mathlib.Tactic.FieldSimp
/-
C73: how recursive averages forget.
-/
namespace TS
open PyVal XR
set_option linter.unusedSectionVars false

section
variable {K : Type} [Field K] [LinearOrder K] [IsStrictOrderedRing K] [Transc K] [FloorRing K]

/-! ### Folding an affine contraction -/

theorem foldl_affine_sub (w : K) (zs : List K) (a b : K) :
    zs.foldl (fun m x => m + w * (x - m)) a - zs.foldl (fun m x => m + w * (x - m)) b = (1 - w) ^ zs.length * (a - b) := by
  induction zs generalizing a b with
  | nil => simp
  | cons z zs ih => rw [List.foldl_cons, List.foldl_cons, ih, List.length_cons, pow_succ]; ring

theorem recursiveAvgK_append {p : Nat} {f : K → K → K} {l : List K} (hl : p ≤ l.length) (zs : List K) :
    recursiveAvgK p f (l ++ zs) = zs.foldl f (recursiveAvgK p f l) := by
  rw [recursiveAvgK, recursiveAvgK, List.drop_append_of_le_length hl, List.take_append_of_le_length hl, List.foldl_append]

theorem scan_getD_append {A : Type} (y : List A → K) (xs zs : List A) (hx : xs ≠ []) {i : Nat} (hi : i ≤ zs.length) :
    (scan y [] (xs ++ zs)).getD (xs.length - 1 + i) 0 = y (xs ++ zs.take i) := by
  have h0 := List.length_pos_of_ne_nil hx
  rw [List.getD_eq_getElem?_getD, List.getElem?_eq_getElem (by simp; omega), Option.getD_some, scan_getElem, List.nil_append, List.take_append,
    List.take_of_length_le (by omega)]
  congr 3
  omega

/-- From a law for the values to one for the outputs. -/
theorem StreamsAs.fades {A : Type} {op : Operator (XR K)} {ser : List A → Val (XR K)} {y : List A → K} (h : StreamsAs op ser finSeries y) {p : Nat} (hp : 0 < p) {d : Nat} {w : K}
    (e : ∀ xs ys zs us : List A, p ≤ xs.length → p ≤ ys.length → zs.length = d → y (xs ++ (zs ++ us)) - y (ys ++ (zs ++ us)) = w ^ us.length * (y (xs ++ zs) - y (ys ++ zs))) :
    Fades op ser finSeries p d w := by
  intro xs ys zs hx hy
  have hx0 : xs ≠ [] := by rintro rfl; simp at hx; omega
  have hy0 : ys ≠ [] := by rintro rfl; simp at hy; omega
  obtain ⟨sf, s0, h1⟩ := h.at' (xs := xs ++ zs) (by simp [hx0])
  obtain ⟨sf', s0', h2⟩ := h.at' (xs := ys ++ zs) (by simp [hy0])
  refine ⟨_, _, sf, s0, sf', s0', h1, h2, by simp, by simp, fun i hi => ?_⟩
  rw [Nat.add_assoc, Nat.add_assoc, scan_getD_append y xs zs hx0 hi, scan_getD_append y ys zs hy0 hi, scan_getD_append y xs zs hx0 (by omega),
    scan_getD_append y ys zs hy0 (by omega)]
  have e' := e xs ys (zs.take d) ((zs.drop d).take i) hx hy (by simp; omega)
  rw [← List.take_add, List.length_take, List.length_drop, Nat.min_eq_left (by omega)] at e'
  exact e'

theorem ema_reals {p : Nat} (hp : 0 < p) : StreamsAs (EMA (p : Int) : Operator (XR K)) finSeries finSeries (recursiveAvgK p (fun m x => m + 2 / ((p : K) + 1) * (x - m))) :=
  ((C26_ema hp []).scalar fun l _ => expAvg_pt p l).fin fun l _ => expAvg_fin hp l

theorem sma_reals {p : Nat} (hp : 0 < p) : StreamsAs (SMA (p : Int) : Operator (XR K)) finSeries finSeries (movingAvgK p) :=
  ((C25_sma hp []).scalar fun l _ => movingAvg_pt p l).fin fun l _ => movingAvg_fin hp l

/-- **C73 Exponential averages forget exponentially.**  Two series with different pasts of at least `p` samples, followed by the same samples: the
outputs of `ExponentialMovingAverage(p)` differ by the factor (p - 1) / (p + 1) less with every common sample, -/
theorem C73_ema {p : Nat} (hp : 0 < p) : Fades (EMA (p : Int)) finSeries finSeries p 0 (((p : K) - 1) / (p + 1)) :=
  (ema_reals hp).fades hp fun xs ys zs us hx hy hz => by
    obtain rfl := List.length_eq_zero_iff.1 hz
    have : (p : K) + 1 ≠ 0 := by positivity
    rw [List.nil_append, List.append_nil, List.append_nil, recursiveAvgK_append hx, recursiveAvgK_append hy, foldl_affine_sub]
    congr 2
    field_simp
    ring
example := C73_ema (K := ℚ) (p := 3) (by norm_num)

/-- those of `RollingMovingAverage(p)` by the factor (p - 1) / p, -/
theorem C73_rma {p : Nat} (hp : 0 < p) : Fades (RMA (p : Int)) finSeries finSeries p 0 (((p : K) - 1) / p) :=
  (rma_reals hp).fades hp fun xs ys zs us hx hy hz => by
    obtain rfl := List.length_eq_zero_iff.1 hz
    have : (p : K) ≠ 0 := by positivity
    rw [List.nil_append, List.append_nil, List.append_nil, recursiveAvgK_append hx, recursiveAvgK_append hy, foldl_affine_sub]
    congr 2
    field_simp
example := C73_rma (K := ℚ) (p := 3) (by norm_num)

/-- True ranges after a candle with close `c`. -/
def rangesFrom (c : K) (l : List (CLH K)) : List K := List.zipWith (fun prev x => trueRangeK prev x.low x.high) (c :: l.map CLH.close) l

theorem rangesFrom_append (c : K) (xs us : List (CLH K)) (z : CLH K) : rangesFrom c (xs ++ z :: us) = rangesFrom c (xs ++ [z]) ++ rangesFrom z.close us := by
  induction xs generalizing c with
  | nil => simp [rangesFrom]
  | cons x xs ih => exact congrArg (trueRangeK c x.low x.high :: ·) (ih x.close)

/-- and those of `AverageTrueRange(p)` too, from the first common candle on: its true range still depends on the close before it. -/
theorem C73_atr {p : Nat} (hp : 0 < p) : Fades (ATR (p : Int)) finCandles finSeries p 1 (((p : K) - 1) / p) :=
  (atr_reals hp).fades hp fun xs ys zs us hx hy hz => by
    obtain ⟨z, rfl⟩ := List.length_eq_one_iff.1 hz
    have : (p : K) ≠ 0 := by positivity
    have e : ∀ l : List (CLH K), trueRangesK l = rangesFrom 0 l := fun _ => rfl
    rw [atrK, atrK, atrK, atrK, e, e, e, e, List.singleton_append, rangesFrom_append _ xs, rangesFrom_append _ ys, recursiveAvgK_append (by simp [rangesFrom]; omega),
      recursiveAvgK_append (by simp [rangesFrom]; omega), foldl_affine_sub, show (rangesFrom z.close us).length = us.length by simp [rangesFrom]]
    congr 2
    field_simp
example := C73_atr (K := ℚ) (p := 3) (by norm_num)

/-! ### The weights -/

theorem foldl_affine_weights (w : K) (zs : List K) (a : K) :
    zs.foldl (fun m x => m + w * (x - m)) a = (1 - w) ^ zs.length * a + (zs.reverse.mapIdx fun j x => w * (1 - w) ^ j * x).sum := by
  induction zs using List.reverseRecOn with
  | nil => simp
  | append_singleton zs z ih =>
    rw [List.foldl_append, ih, List.reverse_append, List.reverse_singleton, List.singleton_append, List.mapIdx_cons, List.sum_cons, List.length_append]
    simp only [List.foldl_cons, List.foldl_nil, List.length_singleton, pow_succ, pow_zero, mul_one]
    have : (zs.reverse.mapIdx fun j x => w * ((1 - w) ^ j * (1 - w)) * x).sum = (1 - w) * (zs.reverse.mapIdx fun j x => w * (1 - w) ^ j * x).sum := by
      rw [show ∀ l : List K, (1 - w) * l.sum = (l.map fun x => (1 - w) * x).sum from fun l => by rw [List.sum_map_mul_left, List.map_id']]
      congr 1
      apply List.ext_getElem (by simp)
      intro i h1 h2
      simp only [List.getElem_mapIdx, List.getElem_map]
      ring
    rw [this]
    ring

theorem recursive_weights {op : Operator (XR K)} {p : Nat} (hp : 0 < p) {w : K} (h : StreamsAs op finSeries finSeries (recursiveAvgK p fun m x => m + w * (x - m))) {xs : List K} (hx : xs ≠ []) :
    ∃ (os : List K) (sf s0 : Val (XR K)), call op (finSeries xs) none = .ok (finSeries os, sf, s0) ∧ ∃ hl : os.length = xs.length, ∀ i (hi : i < xs.length), p ≤ i + 1 →
      os[i] = (1 - w) ^ (i + 1 - p) * avg (xs.take p) + ((List.range (i + 1 - p)).map fun j => w * (1 - w) ^ j * xs.getD (i - j) 0).sum := by
  obtain ⟨sf, s0, h1⟩ := h.at' hx
  refine ⟨_, sf, s0, h1, by simp, fun i hi hpi => ?_⟩
  rw [scan_getElem, List.nil_append, recursiveAvgK, foldl_affine_weights, List.length_drop, List.length_take, Nat.min_eq_left (by omega), List.take_take, Nat.min_eq_left hpi]
  congr 2
  · rw [movingAvgK, if_neg (by simp; omega), window, List.take_of_length_le (by simp)]
    exact congrArg (· / _) (List.sum_reverse _) |>.trans (by simp [avg])
  · apply List.ext_getElem (by simp; omega)
    intro j h1 h2
    simp only [List.length_mapIdx, List.length_reverse, List.length_drop, List.length_take] at h1
    simp only [List.getElem_mapIdx, List.getElem_map, List.getElem_range, List.getElem_reverse, List.getElem_drop, List.getElem_take]
    rw [List.getD_eq_getElem?_getD, List.getElem?_eq_getElem (by omega), Option.getD_some]
    congr 2
    simp
    omega

/-- **C73, the weights**: from index p - 1 on, an exponential average is the average of the first `p` samples and all later samples, weighted with powers of
1 - w for w = 2 / (p + 1), -/
theorem C73_ema_weights {p : Nat} (hp : 0 < p) {xs : List K} (hx : xs ≠ []) :
    ∃ (os : List K) (sf s0 : Val (XR K)), call (EMA (p : Int)) (finSeries xs) none = .ok (finSeries os, sf, s0) ∧ ∃ hl : os.length = xs.length, ∀ i (hi : i < xs.length), p ≤ i + 1 →
      os[i] = (1 - 2 / ((p : K) + 1)) ^ (i + 1 - p) * avg (xs.take p) +
        ((List.range (i + 1 - p)).map fun j => 2 / ((p : K) + 1) * (1 - 2 / ((p : K) + 1)) ^ j * xs.getD (i - j) 0).sum :=
  recursive_weights hp (ema_reals hp) hx
example := C73_ema_weights (K := ℚ) (p := 3) (by norm_num) (xs := [3, 1, 4, 1, 5]) (by simp)

/-- and a rolling average with w = 1 / p. -/
theorem C73_rma_weights {p : Nat} (hp : 0 < p) {xs : List K} (hx : xs ≠ []) :
    ∃ (os : List K) (sf s0 : Val (XR K)), call (RMA (p : Int)) (finSeries xs) none = .ok (finSeries os, sf, s0) ∧ ∃ hl : os.length = xs.length, ∀ i (hi : i < xs.length), p ≤ i + 1 →
      os[i] = (1 - 1 / (p : K)) ^ (i + 1 - p) * avg (xs.take p) + ((List.range (i + 1 - p)).map fun j => 1 / (p : K) * (1 - 1 / (p : K)) ^ j * xs.getD (i - j) 0).sum :=
  recursive_weights hp (rma_reals hp) hx
example := C73_rma_weights (K := ℚ) (p := 3) (by norm_num) (xs := [3, 1, 4, 1, 5]) (by simp)

end

/-- Different pasts (1, 2 and 9, 5), then the same samples 3, 3, 6: with period 2 the factor is 1/3 and the outputs differ by 11/2, 11/6, 11/18, 11/54. -/
example : output (call (EMA 2) (series [1, 2, 3, 3, 6]) none) = .ok (series [0, 3 / 2, 5 / 2, 17 / 6, 89 / 18]) ∧
    output (call (EMA 2) (series [9, 5, 3, 3, 6]) none) = .ok (series [0, 7, 13 / 3, 31 / 9, 139 / 27]) :=
  ⟨by decide +kernel, by decide +kernel⟩

end TS
