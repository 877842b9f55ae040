import Verif.Spec.Streams
import Verif.Base.XR
import Mathlib.Analysis.Convex.Function
/-
C92: operators that do not add energy to a signal.
-/
namespace TS

/-- However the size of a number is measured, by a convex function that is nowhere negative and 0 at 0 (such as |x|, x² or the excess of x over a
level), the outputs of `op` on a series of finite samples have in sum at most the size of the samples. -/
def Damps {K : Type} [Field K] [LinearOrder K] (op : Operator (XR K)) : Prop :=
  ∀ φ : K → K, ConvexOn K Set.univ φ → (∀ x, 0 ≤ φ x) → φ 0 = 0 →
    ∀ xs : List K, xs ≠ [] → ∃ (os : List K) (sf s0 : Val (XR K)), call op (vSBuf (xs.map XR.fin)) none = .ok (vSBuf (os.map XR.fin), sf, s0) ∧ os.length = xs.length ∧
      (os.map φ).sum ≤ (xs.map φ).sum

end TS
