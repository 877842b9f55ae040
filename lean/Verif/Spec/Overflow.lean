import Verif.Spec.History
import Verif.Spec.MovingAverage
/-
A counter that starts at zero, has one added to it per sample, and wraps around at `2^31` samples.
-/
namespace TS

/-- Sample number `i` (from zero) finds the counter below `c`: the counter runs from `0` to `2^31 - 1`, then from `-2^31` to `-1`, and over again. -/
def Cold (c i : Nat) : Prop := i % 2 ^ 32 < c ∨ 2 ^ 31 ≤ i % 2 ^ 32

instance (c i : Nat) : Decidable (Cold c i) := inferInstanceAs (Decidable (_ ∨ _))

/-- How many of the latest samples `buffer[:iteration + 1]` takes at sample number `i`, for a buffer of `p`: all, once `p` samples were counted; before,
as many as were counted; and Python's reading of a negative bound, all but the last `-(iteration + 1)`, while the counter is negative. -/
def reach (p i : Nat) : Nat :=
  if i % 2 ^ 32 < 2 ^ 31 then min (i % 2 ^ 32 + 1) p
  else if i % 2 ^ 32 = 2 ^ 32 - 1 then 0 else p + (i % 2 ^ 32 + 1) - 2 ^ 32

end TS
