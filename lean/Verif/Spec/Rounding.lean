import Verif.Base.XR
import Verif.Spec.Streams
/-
Floating-point arithmetic: what is assumed of it, and what it means that the outputs of an operator stay within bounds.
-/
namespace TS
open XR

/-- A way to add up the elements of a list: a binary tree with the indices of the elements at its leaves. -/
inductive SumTree where
  | zero
  | elem (i : Nat)
  | add (a b : SumTree)

namespace SumTree
/-- the indices, from left to right -/
def elems : SumTree → List Nat
  | zero => []
  | elem i => [i]
  | add a b => a.elems ++ b.elems

/-- the sum, given what an element contributes and how two sums are added -/
def eval {V : Type} (z : V) (f : V → V → V) (x : Nat → V) : SumTree → V
  | zero => z
  | elem i => x i
  | add a b => f (a.eval z f x) (b.eval z f x)
end SumTree

/-- `rnd` rounds: it keeps the order, does nothing to numbers it has rounded, keeps small integers, and gives NaN for NaN only.
Any of the IEEE rounding modes, with or without gradual underflow, with overflow to infinity or to the largest number, is an example; so is exact arithmetic. -/
structure Rounds {K : Type} [Field K] [LinearOrder K] (rnd : XR K → XR K) : Prop where
  nan : ∀ x, rnd x = .nan ↔ x = .nan
  mono : ∀ x y, XR.le x y = true → XR.le (rnd x) (rnd y) = true
  idem : ∀ x, rnd (rnd x) = rnd x
  small : ∀ n : Int, |n| ≤ 256 → rnd (fin (n : K)) = fin (n : K)

/-- **Floating-point arithmetic.**  Every element of `α` has a value; comparisons, negation, absolute value, maxima and minima are exact;
sums, differences, products and quotients are the exact ones, rounded.  `reduce_sum` adds in some order that depends on the number of elements only.
Left open: the results of `maximum`, `minimum` and their reductions on NaN; the sign of an infinity that results from a division by zero (zeros are signed);
how square roots are rounded, as long as they are not negative; everything about logarithms and powers. -/
class FloatArith (α : Type) [TFNum α] (K : outParam Type) [Field K] [LinearOrder K] where
  /-- value of a float -/
  val : α → XR K
  /-- rounding -/
  rnd : XR K → XR K
  rounds : Rounds rnd
  val_rnd : ∀ a, rnd (val a) = val a
  lt_eq : ∀ a b : α, TFNum.lt a b = XR.lt (val a) (val b)
  le_eq : ∀ a b : α, TFNum.le a b = XR.le (val a) (val b)
  eq_eq : ∀ a b : α, TFNum.eq a b = XR.eq (val a) (val b)
  add_eq : ∀ a b : α, val (a + b) = rnd (XR.add (val a) (val b))
  sub_eq : ∀ a b : α, val (a - b) = rnd (XR.add (val a) (XR.neg (val b)))
  mul_eq : ∀ a b : α, val (a * b) = rnd (XR.mul (val a) (val b))
  div_eq : ∀ a b : α, val b ≠ fin 0 → val (a / b) = rnd (XR.div (val a) (val b))
  div_zero : ∀ a b : α, val b = fin 0 → val a ≠ .nan → val a ≠ fin 0 → val (a / b) = .pinf ∨ val (a / b) = .ninf
  zero_div_zero : ∀ a b : α, val b = fin 0 → val a = .nan ∨ val a = fin 0 → val (a / b) = .nan
  neg_eq : ∀ a : α, val (-a) = XR.neg (val a)
  ofRat_eq : ∀ q : ℚ, val (Arith.ofRat q) = rnd (fin (q : K))
  abs_eq : ∀ a : α, val (Arith.abs a) = XR.abs (val a)
  sqrt_ok : ∀ a : α, XR.lt (val (Arith.sqrt a)) (fin 0) = false
  max_eq : ∀ a b : α, val a ≠ .nan → val b ≠ .nan → val (Arith.max a b) = XR.max (val a) (val b)
  min_eq : ∀ a b : α, val a ≠ .nan → val b ≠ .nan → val (Arith.min a b) = XR.min (val a) (val b)
  redMax_eq : ∀ l : List α, (∀ a ∈ l, val a ≠ .nan) → val (Arith.redMax l) = (l.map val).foldr XR.max .ninf
  redMin_eq : ∀ l : List α, (∀ a ∈ l, val a ≠ .nan) → val (Arith.redMin l) = (l.map val).foldr XR.min .pinf
  sum_eq : ∀ n, ∃ t : SumTree, t.elems.Perm (List.range n) ∧
    ∀ l : List α, l.length = n → val (Arith.sum l) = t.eval (fin 0) (fun a b => rnd (XR.add a b)) fun i => ((l[i]?).map val).getD (fin 0)

/-- a number, neither infinite nor NaN -/
def IsFinite {α K : Type} [TFNum α] [Field K] [LinearOrder K] [FloatArith α K] (a : α) : Prop := ∃ x : K, FloatArith.val a = fin x

/-- Streaming `op` over any samples that satisfy `D` (encoded by `ser`) succeeds and all outputs (encoded by `outs`) satisfy `P`; also when it is called
again with its final state. -/
def Within {α A B : Type} (op : Operator α) (ser : List A → Val α) (outs : List B → Val α) (D : A → Prop) (P : B → Prop) : Prop :=
  ∃ st : List A → Val α,
    (∀ xs, xs ≠ [] → (∀ x ∈ xs, D x) → ∃ os, call op (ser xs) none = .ok (outs os, st xs, st []) ∧ ∀ o ∈ os, P o) ∧
    (∀ h xs, xs ≠ [] → (∀ x ∈ h ++ xs, D x) → ∃ os, call op (ser xs) (some (st h)) = .ok (outs os, st (h ++ xs), st h) ∧ ∀ o ∈ os, P o)

/-- Raising samples does not lower outputs: streaming `op` over two series, the first nowhere above the second, succeeds with outputs of which the first are
nowhere above the second. -/
def KeepsOrder {α : Type} [TFNum α] (op : Operator α) : Prop :=
  ∀ zs : List (α × α), zs ≠ [] → (∀ z ∈ zs, TFNum.lt z.2 z.1 = false) →
    ∃ (os : List (α × α)) (sf s0 sf' s0' : Val α), call op (vSBuf (zs.map Prod.fst)) none = .ok (vSBuf (os.map Prod.fst), sf, s0) ∧
      call op (vSBuf (zs.map Prod.snd)) none = .ok (vSBuf (os.map Prod.snd), sf', s0') ∧ os.length = zs.length ∧ ∀ o ∈ os, TFNum.lt o.2 o.1 = false

end TS
