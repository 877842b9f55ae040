import Verif.Props.Reals
import Mathlib.Algebra.BigOperators.Field
import Mathlib.Algebra.BigOperators.Intervals
/-
C19 and C37: changes add up, growth factors multiply.
-/
namespace TS
open PyVal XR

section
variable {K : Type} [Field K] [LinearOrder K] [IsStrictOrderedRing K] [Transc K] [FloorRing K]

theorem momentumK_upTo (p : Nat) (x : Nat → K) (n : Nat) : momentumK p (upTo x n) = if n < p then 0 else x n - x (n - p) := by
  rw [momentumK, List.length_map, List.length_range]
  by_cases h : n < p
  · rw [if_pos (by omega), if_pos h]
  · rw [if_neg (by omega), if_neg h, getLastD_upTo, lagged_upTo, if_pos (by omega)]

theorem returnK_upTo (p : Nat) {x : Nat → K} (hx : ∀ n, x n ≠ 0) (n : Nat) : returnK p (upTo x n) = if n < p then 0 else x n / x (n - p) - 1 := by
  rw [returnK, List.length_map, List.length_range]
  by_cases h : n < p
  · rw [if_pos (.inl (by omega)), if_pos h]
  · have e : lagged 0 p (upTo x n) = x (n - p) := by rw [lagged_upTo, if_pos (by omega)]
    rw [e, if_neg (by rintro (h' | h'); exacts [by omega, hx _ h']), if_neg h, getLastD_upTo]

/-- **C19 (changes add up).**  The momenta over `p` samples, taken at every `p`-th sample, add up to the change over all of them. -/
theorem C19_momentum_sum {p : Nat} (hp : 0 < p) (x : Nat → K) :
    ∃ o, Yields (Momentum (p : Int)) finSeries finSeries x o ∧ ∀ i k, ∑ j ∈ Finset.range k, o (i + (j + 1) * p) = x (i + k * p) - x i := by
  refine ⟨_, ((momentum_reals hp).yields x).congr (momentumK_upTo p x), fun i k => ?_⟩
  rw [Finset.sum_congr rfl (g := fun j => x (i + (j + 1) * p) - x (i + j * p)) fun j _ => ?_, Finset.sum_range_sub (fun j => x (i + j * p))]
  · simp
  · have e : i + (j + 1) * p - p = i + j * p := by rw [Nat.add_one_mul]; omega
    rw [if_neg (by rw [Nat.add_one_mul]; omega), e]
example := C19_momentum_sum (K := ℚ) (p := 2) (by norm_num) (fun n => (n : ℚ) ^ 2)

/-- **C37 (growth factors multiply).**  The growth factors over `p` samples, one plus the return, taken at every `p`-th sample, multiply to the factor over all of
them. -/
theorem C37_compound {p : Nat} (hp : 0 < p) {x : Nat → K} (hx : ∀ n, x n ≠ 0) :
    ∃ o, Yields (Return (p : Int)) finSeries finSeries x o ∧ ∀ i k, ∏ j ∈ Finset.range k, (1 + o (i + (j + 1) * p)) = x (i + k * p) / x i := by
  refine ⟨_, ((return_reals hp).yields x).congr (returnK_upTo p hx), fun i k => ?_⟩
  induction k with
  | zero => simp [hx i]
  | succ k ih =>
    have e : i + (k + 1) * p - p = i + k * p := by rw [Nat.add_one_mul]; omega
    have h1 := hx i
    have h2 := hx (i + k * p)
    rw [Finset.prod_range_succ, ih, if_neg (by rw [Nat.add_one_mul]; omega), e]
    field_simp
    ring
example := C37_compound (K := ℚ) (p := 2) (by norm_num) (x := fun n => (n : ℚ) + 1) (fun n => by positivity)

end
end TS
