import Verif.Spec.Rounding
/-
How accurate floating-point arithmetic is, and what it means that the outputs of an operator are accurate.
-/
namespace TS
open XR

/-- Rounding a number up to `Ω` in size gives a number; the error is at most `u` times the size, or `u * c` for numbers smaller than `c`, roughly.
Integers up to `N` are not changed.  Binary32: `u = 2^-24`, `c = 2^-126`, `Ω = 2^127`, `N = 2^23`. -/
structure Accurate {K : Type} [Field K] [LinearOrder K] (rnd : XR K → XR K) (u c Ω : K) (N : Nat) : Prop where
  u_nonneg : 0 ≤ u
  c_nonneg : 0 ≤ c
  c_le : c ≤ u
  one_le : 1 ≤ Ω
  close : ∀ x : K, |x| ≤ Ω → ∃ y : K, rnd (fin x) = fin y ∧ |y - x| ≤ u * (|x| + c)
  ints : ∀ n : Int, |n| ≤ N → rnd (fin (n : K)) = fin (n : K)

/-- the value of the float `a` is a number at most `d` from `x` -/
def Close {α K : Type} [TFNum α] [Field K] [LinearOrder K] [FloatArith α K] (a : α) (x d : K) : Prop :=
  ∃ y : K, FloatArith.val a = fin y ∧ |y - x| ≤ d

/-- `a` is the number `x`, at most `M` in size -/
def Is {α K : Type} [TFNum α] [Field K] [LinearOrder K] [FloatArith α K] (M : K) (a : α) (x : K) : Prop := FloatArith.val a = fin x ∧ |x| ≤ M

/-- Floating-point and exact streaming over the same samples.  A sample consists of one for `op` (in floating-point arithmetic) and one for `op'` (in exact
arithmetic).  On samples that satisfy `D`, both succeed, and each output of `op` and the corresponding one of `op'` satisfy `R`.  Also when both are called
again with their final states. -/
def Approximates {α K A A' B B' : Type} [TFNum α] (op : Operator α) (op' : Operator (XR K)) (ser : List A → Val α) (ser' : List A' → Val (XR K))
    (outs : List B → Val α) (outs' : List B' → Val (XR K)) (D : A → A' → Prop) (R : B → B' → Prop) : Prop :=
  ∃ (st : List A → Val α) (st' : List A' → Val (XR K)),
    (∀ xs : List (A × A'), xs ≠ [] → (∀ x ∈ xs, D x.1 x.2) → ∃ os : List (B × B'),
      call op (ser (xs.map Prod.fst)) none = .ok (outs (os.map Prod.fst), st (xs.map Prod.fst), st []) ∧
      call op' (ser' (xs.map Prod.snd)) none = .ok (outs' (os.map Prod.snd), st' (xs.map Prod.snd), st' []) ∧ os.length = xs.length ∧ ∀ o ∈ os, R o.1 o.2) ∧
    (∀ h xs : List (A × A'), xs ≠ [] → (∀ x ∈ h ++ xs, D x.1 x.2) → ∃ os : List (B × B'),
      call op (ser (xs.map Prod.fst)) (some (st (h.map Prod.fst))) = .ok (outs (os.map Prod.fst), st ((h ++ xs).map Prod.fst), st (h.map Prod.fst)) ∧
      call op' (ser' (xs.map Prod.snd)) (some (st' (h.map Prod.snd))) = .ok (outs' (os.map Prod.snd), st' ((h ++ xs).map Prod.snd), st' (h.map Prod.snd)) ∧
      os.length = xs.length ∧ ∀ o ∈ os, R o.1 o.2)

/-- As `Approximates`, with the accuracy depending on the exact samples streamed so far: output number `i` satisfies `R` with the history up to sample number `i`. -/
def ApproximatesAt {α K A A' B B' : Type} [TFNum α] (op : Operator α) (op' : Operator (XR K)) (ser : List A → Val α) (ser' : List A' → Val (XR K))
    (outs : List B → Val α) (outs' : List B' → Val (XR K)) (D : A → A' → Prop) (R : List A' → B → B' → Prop) : Prop :=
  ∃ (st : List A → Val α) (st' : List A' → Val (XR K)),
    (∀ xs : List (A × A'), xs ≠ [] → (∀ x ∈ xs, D x.1 x.2) → ∃ os : List (B × B'),
      call op (ser (xs.map Prod.fst)) none = .ok (outs (os.map Prod.fst), st (xs.map Prod.fst), st []) ∧
      call op' (ser' (xs.map Prod.snd)) none = .ok (outs' (os.map Prod.snd), st' (xs.map Prod.snd), st' []) ∧ os.length = xs.length ∧
      ∀ i (hi : i < os.length), R ((xs.take (i + 1)).map Prod.snd) os[i].1 os[i].2) ∧
    (∀ h xs : List (A × A'), xs ≠ [] → (∀ x ∈ h ++ xs, D x.1 x.2) → ∃ os : List (B × B'),
      call op (ser (xs.map Prod.fst)) (some (st (h.map Prod.fst))) = .ok (outs (os.map Prod.fst), st ((h ++ xs).map Prod.fst), st (h.map Prod.fst)) ∧
      call op' (ser' (xs.map Prod.snd)) (some (st' (h.map Prod.snd))) = .ok (outs' (os.map Prod.snd), st' ((h ++ xs).map Prod.snd), st' (h.map Prod.snd)) ∧
      os.length = xs.length ∧ ∀ i (hi : i < os.length), R ((h ++ xs.take (i + 1)).map Prod.snd) os[i].1 os[i].2)

/-- Square roots are rounded like the other operations, as IEEE 754 demands. -/
def SqrtRounded (α : Type) [TFNum α] (K : Type) [Field K] [LinearOrder K] [FloatArith α K] (sqrt : K → K) : Prop :=
  ∀ (a : α) (x : K), FloatArith.val a = fin x → 0 ≤ x → FloatArith.val (Arith.sqrt a) = FloatArith.rnd (α := α) (fin (sqrt x))

/-- Integer powers are rounded like the other operations (the C library's `powf` is this accurate in most implementations, but IEEE 754 only recommends it). -/
def PowRounded (α : Type) [TFNum α] (K : Type) [Field K] [LinearOrder K] [FloatArith α K] : Prop :=
  ∀ (a : α) (x : K) (n : Nat), FloatArith.val a = fin x → FloatArith.val (Arith.pow a n) = FloatArith.rnd (α := α) (fin (x ^ n))

/-- Logarithms of positive numbers are rounded like the other operations (as for powers, IEEE 754 only recommends it). -/
def LogRounded (α : Type) [TFNum α] {K : Type} [Field K] [LinearOrder K] [FloatArith α K] (log : K → K) : Prop :=
  ∀ (a : α) (x : K), FloatArith.val a = fin x → 0 < x → FloatArith.val (Arith.log a) = FloatArith.rnd (α := α) (fin (log x))

end TS
