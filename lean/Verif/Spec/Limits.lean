import Verif.Spec.Sequences
import Verif.Props.Common
import Mathlib.Topology.MetricSpace.Pseudo.Defs
import Mathlib.Data.Real.Basic
/-
What happens to the outputs in the long run.
-/
namespace TS
open Filter Topology

/-- Whenever the samples of an infinite series tend to `L`, the outputs tend to `L'`. -/
def Settles {B : Type} [TopologicalSpace B] (op : Operator (XR ℝ)) (outs : List B → Val (XR ℝ)) (L : ℝ) (L' : B) : Prop :=
  ∀ x : Nat → ℝ, Tendsto x atTop (𝓝 L) → ∃ o, Yields op finSeries outs x o ∧ Tendsto o atTop (𝓝 L')

end TS
