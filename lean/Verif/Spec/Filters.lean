import Verif.Spec.Streams
import Verif.Base.XR
import Mathlib.Algebra.Polynomial.BigOperators
/-
C91: operators that are finite linear filters, described by their transfer functions.
-/
namespace TS

/-- Once more than `w` samples are in, every output of `op` on a series of finite samples is the sum of the newest sample times the constant coefficient of `P`,
the sample before times the coefficient of X, and so on up to X ^ w: `P`, of degree at most `w`, is the transfer function, X stands for a delay by one sample. -/
def Filters {K : Type} [Field K] (op : Operator (XR K)) (P : Polynomial K) (w : Nat) : Prop :=
  P.natDegree ≤ w ∧
  ∀ xs : List K, xs ≠ [] → ∃ (os : List K) (sf s0 : Val (XR K)), call op (vSBuf (xs.map XR.fin)) none = .ok (vSBuf (os.map XR.fin), sf, s0) ∧
    ∃ hl : os.length = xs.length, ∀ i (hi : i < xs.length), w ≤ i → os[i] = ∑ j ∈ Finset.range (w + 1), P.coeff j * xs[i - j]

/-- The outputs of `op` and `op'` on a series of finite samples agree from index `w` on. -/
def AgreeFrom {K : Type} (op op' : Operator (XR K)) (w : Nat) : Prop :=
  ∀ xs : List K, xs ≠ [] → ∃ (os os' : List K) (sf s0 sf' s0' : Val (XR K)), call op (vSBuf (xs.map XR.fin)) none = .ok (vSBuf (os.map XR.fin), sf, s0) ∧
    call op' (vSBuf (xs.map XR.fin)) none = .ok (vSBuf (os'.map XR.fin), sf', s0') ∧ os.length = xs.length ∧ os'.length = xs.length ∧ os.drop w = os'.drop w

end TS
