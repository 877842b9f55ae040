import Mathlib.Algebra.BigOperators.Group.List.Basic
import Mathlib.Algebra.Field.Basic
import Mathlib.Analysis.Real.Sqrt
/-
Textbook statistics of lists of numbers.  Nothing here refers to the model of the code.
-/
namespace TS
section
variable {K : Type} [Field K]

/-- arithmetic mean -/
def avg (l : List K) : K := l.sum / l.length

/-- population variance: mean squared deviation from the mean -/
def variance (l : List K) : K := avg (l.map fun x => (x - avg l) ^ 2)

/-- third central moment -/
def thirdMoment (l : List K) : K := avg (l.map fun x => (x - avg l) ^ 3)

/-- population covariance of the two columns -/
def covariance (l : List (K × K)) : K := avg (l.map fun z => (z.1 - avg (l.map Prod.fst)) * (z.2 - avg (l.map Prod.snd)))

end

/-- population standard deviation -/
noncomputable def stdDev (l : List ℝ) : ℝ := Real.sqrt (variance l)

/-- standardised third central moment -/
noncomputable def skew (l : List ℝ) : ℝ := thirdMoment l / stdDev l ^ 3

/-- Pearson's correlation coefficient -/
noncomputable def correlation (l : List (ℝ × ℝ)) : ℝ :=
  covariance l / (stdDev (l.map Prod.fst) * stdDev (l.map Prod.snd))

end TS
