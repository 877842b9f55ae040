import Verif.Spec.Streams
import Mathlib.Algebra.Field.Defs
/-
Infinite series of samples, and how the past of a series fades.
-/
namespace TS
variable {α A B : Type}

/-- Over the infinite series `x` the operator outputs `o`: a call on the first `n` samples outputs the first `n` members of `o`, for every `n`. -/
def Yields (op : Operator α) (ser : List A → Val α) (outs : List B → Val α) (x : Nat → A) (o : Nat → B) : Prop :=
  ∀ n, 0 < n → ∃ sf s0 : Val α, call op (ser ((List.range n).map x)) none = .ok (outs ((List.range n).map o), sf, s0)

/-- Two series begin with different pasts `xs` and `ys`, of at least `p` samples each, and go on with the same samples `zs`.  From index `d` of
the common part on, the difference of the outputs shrinks by the factor `w` with every sample. -/
def Fades {K : Type} [Field K] (op : Operator α) (ser : List A → Val α) (outs : List K → Val α) (p d : Nat) (w : K) : Prop :=
  ∀ xs ys zs : List A, p ≤ xs.length → p ≤ ys.length → ∃ (os os' : List K) (sf s0 sf' s0' : Val α),
    call op (ser (xs ++ zs)) none = .ok (outs os, sf, s0) ∧ call op (ser (ys ++ zs)) none = .ok (outs os', sf', s0') ∧
    os.length = xs.length + zs.length ∧ os'.length = ys.length + zs.length ∧
    ∀ i, d + i ≤ zs.length → os.getD (xs.length - 1 + d + i) 0 - os'.getD (ys.length - 1 + d + i) 0 =
      w ^ i * (os.getD (xs.length - 1 + d) 0 - os'.getD (ys.length - 1 + d) 0)

end TS
