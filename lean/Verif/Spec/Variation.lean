import Verif.Spec.Streams
import Verif.Spec.Recover
import Mathlib.Algebra.Order.Field.Basic
import Mathlib.Algebra.Order.Group.Abs
/-
C90: total variation of a series, the distance its samples travel in all.
-/
namespace TS

/-- The sum of the distances between consecutive samples. -/
def variation {K : Type} [Field K] [LinearOrder K] : List K → K
  | a :: b :: l => |b - a| + variation (b :: l)
  | _ => 0

/-- On every series of finite samples the outputs of `op` from index `n` on travel no further than the samples. -/
def Calms {K : Type} [Field K] [LinearOrder K] (op : Operator (XR K)) (n : Nat) : Prop :=
  ∀ xs : List K, xs ≠ [] → ∃ (os : List K) (sf s0 : Val (XR K)), call op (vSBuf (xs.map XR.fin)) none = .ok (vSBuf (os.map XR.fin), sf, s0) ∧ os.length = xs.length ∧
    variation (os.drop n) ≤ variation xs

end TS
