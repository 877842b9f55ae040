import Verif.Spec.Streams
/-
C93: what happens when an operator is called with the final state of another one, such as itself with another period.
-/
namespace TS
variable {α A B : Type}

/-- Stream `op` over any series `xs` of at least `n` samples (encoded by `ser`), then call `op'` with its final state over any further samples `ys`: that succeeds, and
output `i` is `y` of the samples in `xs` and the first `i + 1` of `ys`. -/
def TakesOver (op op' : Operator α) (ser : List A → Val α) (outs : List B → Val α) (n : Nat) (y : List A → List A → B) : Prop :=
  ∀ xs, xs ≠ [] → n ≤ xs.length → ∃ z sf s0, call op (ser xs) none = .ok (z, sf, s0) ∧
    ∀ ys, ys ≠ [] → ∃ sf', call op' (ser ys) (some sf) = .ok (outs ((List.range ys.length).map fun i => y xs (ys.take (i + 1))), sf', sf)

end TS
