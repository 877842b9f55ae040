import Verif.Spec.Stats
import Verif.Base.XR
import Mathlib.Algebra.Order.Archimedean.Real.Basic
import Mathlib.Analysis.SpecialFunctions.Log.Basic
import Mathlib.Algebra.Order.BigOperators.Group.List
import Mathlib.Algebra.BigOperators.Ring.List
import Mathlib.Tactic.FieldSimp
import Mathlib.Tactic.Ring
import Mathlib.Tactic.Linarith
import Mathlib.Tactic.Positivity
/-
Statistics of lists of numbers, and of lists of finite extended numbers.
-/
namespace TS

/-- Square root and logarithm of real numbers. -/
noncomputable instance : Transc ℝ := ⟨Real.sqrt, Real.log⟩

section
variable {K : Type} [Field K]

theorem sum_map_add_const (l : List K) (c : K) : (l.map (· + c)).sum = l.sum + l.length * c := by
  induction l with
  | nil => simp
  | cons a l ih => simp only [List.map_cons, List.sum_cons, ih, List.length_cons, Nat.cast_add, Nat.cast_one]; ring

theorem avg_smul (c : K) (l : List K) : avg (l.map (c * ·)) = c * avg l := by
  have : (l.map (c * ·)).sum = c * l.sum := by induction l <;> simp_all [mul_add]
  simp only [avg, List.length_map, this, mul_div_assoc]

theorem avg_map_smul {A : Type} (c : K) (f : A → K) (l : List A) : avg (l.map fun x => c * f x) = c * avg (l.map f) := by
  rw [← avg_smul, List.map_map]; rfl

variable [CharZero K]

theorem avg_shift {l : List K} (hl : l ≠ []) (c : K) : avg (l.map (· + c)) = avg l + c := by
  have : (l.length : K) ≠ 0 := by simpa using hl
  simp only [avg, sum_map_add_const, List.length_map]
  field_simp

theorem avg_const {l : List K} (hl : l ≠ []) {c : K} (h : ∀ x ∈ l, x = c) : avg l = c := by
  have : (l.length : K) ≠ 0 := by simpa using hl
  rw [avg, List.eq_replicate_of_mem h, List.sum_replicate, List.length_replicate, nsmul_eq_mul]
  field_simp

theorem variance_shift (l : List K) (c : K) : variance (l.map (· + c)) = variance l := by
  rcases eq_or_ne l [] with rfl | hl
  · rfl
  simp only [variance, avg_shift hl, List.map_map, Function.comp_def]
  congr 1
  exact List.map_congr_left fun x _ => by ring

theorem thirdMoment_shift (l : List K) (c : K) : thirdMoment (l.map (· + c)) = thirdMoment l := by
  rcases eq_or_ne l [] with rfl | hl
  · rfl
  simp only [thirdMoment, avg_shift hl, List.map_map, Function.comp_def]
  congr 1
  exact List.map_congr_left fun x _ => by ring

omit [CharZero K] in
theorem variance_smul (c : K) (l : List K) : variance (l.map (c * ·)) = c ^ 2 * variance l := by
  simp only [variance, avg_smul, List.map_map, Function.comp_def, ← avg_map_smul]
  congr 1
  exact List.map_congr_left fun x _ => by ring

omit [CharZero K] in
theorem thirdMoment_smul (c : K) (l : List K) : thirdMoment (l.map (c * ·)) = c ^ 3 * thirdMoment l := by
  simp only [thirdMoment, avg_smul, List.map_map, Function.comp_def, ← avg_map_smul]
  congr 1
  exact List.map_congr_left fun x _ => by ring
end

section
variable {K : Type} [Field K] [LinearOrder K] [IsStrictOrderedRing K]

theorem sum_le_of_le {l : List K} {b : K} (h : ∀ x ∈ l, x ≤ b) : l.sum ≤ l.length * b := by
  induction l with
  | nil => simp
  | cons a l ih =>
    have h1 := h a (by simp)
    have h2 := ih fun x hx => h x (by simp [hx])
    simp only [List.sum_cons, List.length_cons, Nat.cast_add, Nat.cast_one]
    linarith

theorem le_sum_of_le {l : List K} {b : K} (h : ∀ x ∈ l, b ≤ x) : l.length * b ≤ l.sum := by
  induction l with
  | nil => simp
  | cons a l ih =>
    have h1 := h a (by simp)
    have h2 := ih fun x hx => h x (by simp [hx])
    simp only [List.sum_cons, List.length_cons, Nat.cast_add, Nat.cast_one]
    linarith

theorem avg_le {l : List K} (hl : l ≠ []) {b : K} (h : ∀ x ∈ l, x ≤ b) : avg l ≤ b := by
  have : (0 : K) < l.length := by exact_mod_cast List.length_pos_iff.2 hl
  rw [avg, div_le_iff₀ this, mul_comm]
  exact sum_le_of_le h

theorem le_avg {l : List K} (hl : l ≠ []) {b : K} (h : ∀ x ∈ l, b ≤ x) : b ≤ avg l := by
  have : (0 : K) < l.length := by exact_mod_cast List.length_pos_iff.2 hl
  rw [avg, le_div_iff₀ this, mul_comm]
  exact le_sum_of_le h

theorem avg_nonneg {l : List K} (h : ∀ x ∈ l, 0 ≤ x) : 0 ≤ avg l := by
  rcases eq_or_ne l [] with rfl | hl
  · simp [avg]
  · exact le_avg hl h

theorem avg_eq_zero {l : List K} (h : ∀ x ∈ l, 0 ≤ x) : avg l = 0 ↔ ∀ x ∈ l, x = 0 := by
  constructor
  · intro h0 x hx
    have hne : l ≠ [] := List.ne_nil_of_mem hx
    have : (l.length : K) ≠ 0 := by simpa using hne
    have hs : l.sum = 0 := by
      rw [avg, div_eq_zero_iff] at h0
      exact h0.resolve_right this
    refine le_antisymm ?_ (h x hx)
    rw [← hs]
    exact List.single_le_sum h x hx
  · intro h0
    have : l.sum = 0 := by rw [List.eq_replicate_of_mem h0]; simp
    simp [avg, this]

theorem variance_nonneg (l : List K) : 0 ≤ variance l := avg_nonneg (by
  intro x hx
  obtain ⟨y, -, rfl⟩ := List.mem_map.1 hx
  positivity)

theorem variance_eq_zero_avg {l : List K} : variance l = 0 ↔ ∀ x ∈ l, x = avg l := by
  rw [variance, avg_eq_zero (by simp only [List.mem_map]; rintro _ ⟨y, -, rfl⟩; positivity)]
  simp [sub_eq_zero]

theorem variance_eq_zero {l : List K} : variance l = 0 ↔ ∀ x ∈ l, ∀ y ∈ l, x = y := by
  rw [variance_eq_zero_avg]
  constructor
  · intro h x hx y hy; rw [h x hx, h y hy]
  · intro h x hx
    exact (avg_const (List.ne_nil_of_mem hx) fun y hy => h y hy x hx).symm

/-- Cauchy-Schwarz for lists of pairs. -/
theorem cauchy_schwarz {A : Type} (f g : A → K) (l : List A) :
    (l.map fun z => f z * g z).sum ^ 2 ≤ (l.map fun z => f z ^ 2).sum * (l.map fun z => g z ^ 2).sum := by
  induction l with
  | nil => simp
  | cons z l ih =>
    simp only [List.map_cons, List.sum_cons]
    have hA : 0 ≤ (l.map fun z => f z ^ 2).sum := List.sum_nonneg (by simp only [List.mem_map]; rintro _ ⟨y, -, rfl⟩; positivity)
    have hB : 0 ≤ (l.map fun z => g z ^ 2).sum := List.sum_nonneg (by simp only [List.mem_map]; rintro _ ⟨y, -, rfl⟩; positivity)
    generalize (l.map fun z => f z * g z).sum = c at *
    generalize (l.map fun z => f z ^ 2).sum = A at *
    generalize (l.map fun z => g z ^ 2).sum = B at *
    have key : 2 * c * (f z * g z) ≤ A * g z ^ 2 + B * f z ^ 2 := by
      refine (le_abs_self _).trans (abs_le_of_sq_le_sq ?_ (by positivity))
      nlinarith [sq_nonneg (A * g z ^ 2 - B * f z ^ 2), mul_le_mul_of_nonneg_right ih (sq_nonneg (f z * g z))]
    nlinarith
end

/-! ### Finite extended numbers -/
namespace XR
variable {K : Type} [Field K] [LinearOrder K] [IsStrictOrderedRing K] [Transc K] [FloorRing K]

omit [IsStrictOrderedRing K] in
theorem mean_fin {l : List K} (hl : l ≠ []) : (Arith.mean (l.map fin) : XR K) = fin (avg l) := by
  have : (l.length : K) ≠ 0 := by simpa using hl
  simp only [Arith.mean, sum_fin, List.length_map, ofInt_eq, Int.cast_natCast]
  rw [fin_div _ _ this, avg]

theorem moments_fin {l : List K} (hl : l ≠ []) : (Arith.moments (l.map fin) : XR K × XR K) = (fin (avg l), fin (variance l)) := by
  simp only [Arith.moments, mean_fin hl, List.map_map, Function.comp_def, fin_sub, fin_mul]
  rw [variance, ← mean_fin (l := l.map _) (by simpa using hl), List.map_map]
  simp only [Function.comp_def, pow_two]

theorem std_fin {l : List ℝ} (hl : l ≠ []) : (Arith.sqrt (Arith.moments (l.map fin)).2 : XR ℝ) = fin (stdDev l) := by
  rw [moments_fin hl, sqrt_fin _ (variance_nonneg l)]; rfl

end XR
end TS
