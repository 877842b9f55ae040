import Mathlib.Algebra.Order.Ring.Defs
/-
Zero crossings of a series of numbers.  Nothing here refers to the model of the code.
-/
namespace TS
variable {K : Type} [Zero K] [LinearOrder K]

/-- sign of a number -/
def sgn (x : K) : Int := if 0 < x then 1 else if x < 0 then -1 else 0

/-- The current direction: the sign of the last non-zero sample, `+` when there is none. -/
def lastSign (l : List K) : Int := l.foldl (fun d x => if x = 0 then d else sgn x) 1

/-- The signal of sample `i`: its sign when it is non-zero and against the direction of the earlier samples, else zero; zero
for the first sample. -/
def turnAt (xs : List K) (i : Nat) : Int :=
  if i = 0 ∨ xs.getD i 0 = 0 ∨ sgn (xs.getD i 0) = lastSign (xs.take i) then 0 else sgn (xs.getD i 0)

/-- Consecutive non-zero entries have opposite signs. -/
def Alternates (os : List Int) : Prop :=
  ∀ i j : Nat, i < j → ∀ a b : Int, os[i]? = some a → os[j]? = some b → a ≠ 0 → b ≠ 0 → (∀ k, i < k → k < j → os[k]? = some 0) → b = -a

end TS
