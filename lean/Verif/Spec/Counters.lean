import Verif.Spec.Steady
/-
The size of the ints in a nested value.
-/
namespace TS
open PyVal
variable {α : Type}

/-- Every int in the value lies between `-B` and `B`. -/
def IntsWithin (B : Nat) (v : Val α) : Prop := ∀ t, Leaf.i t ∈ flatten v → ∀ c, (t.val c).natAbs ≤ B

/-- The three signals `-1`, `0`, `1` survive negation and the cast to int.  (So they do in exact and in floating-point arithmetic.) -/
structure SignsExact (α : Type) [TFNum α] : Prop where
  neg_one : - (Arith.ofRat 1 : α) = Arith.ofRat (-1)
  neg_neg_one : - (Arith.ofRat (-1) : α) = Arith.ofRat 1
  zero : TFNum.toInt (Arith.zero : α) = 0
  one : TFNum.toInt (Arith.ofRat 1 : α) = 1
  minus_one : TFNum.toInt (Arith.ofRat (-1) : α) = -1

/-- On `n` samples of the signature `X` the operator succeeds, and neither the outputs nor the final state contain an int beyond the larger of `c` and the
ints of the input, plus `n`. -/
def CountsFrom (op : Operator α) (X : PyVal (DType × List Nat)) (c : Nat) : Prop :=
  ∀ (v : Val α) (n : Nat), SeriesOf X v n → ∀ M, c ≤ M → IntsWithin M v →
    ∃ z sf s0, call op v none = .ok (z, sf, s0) ∧ IntsWithin (M + n) z ∧ IntsWithin (M + n) sf ∧ IntsWithin M s0

end TS
