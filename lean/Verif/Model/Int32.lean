import Verif.Model.Streamable
/-
The counters of the library are int32 tensors (`tf.constant(0)`, a Python int, is an int32).  The rest of the model has unbounded ints; here is what
one step makes of them when int32 wraps around.
-/
namespace TS
open PyVal
variable {α : Type}

/-- The int32 that an int becomes: two's complement, `-2^31 ≤ n < 2^31` (the `+ 1` of finance/moving_average.py:22 and the other counters runs over
from `2^31 - 1` to `-2^31`).  TensorFlow leaves the overflow of int32 to the C++ compiler; that it wraps around, as it does on the processors that
TensorFlow runs on, is an assumption of this file. -/
def wrap32 (n : Int) : Int := Int.bmod n (2 ^ 32)

/-- The int32 tensor that an int tensor becomes (finance/moving_average.py:22, finance/drawdown.py:16-18). -/
def Leaf.wrap32 : Leaf α → Leaf α
  | .i t => .i ⟨t.shape, fun c => TS.wrap32 (t.val c)⟩
  | l => l

/-- All ints of a nested value as int32 (the outputs and states of streamable.py:39, 51). -/
def wrapVal (v : Val α) : Val α := v.map Leaf.wrap32

/-- An operator whose ints are int32: the outputs and states of streamable.py:39, 51 wrap around.  Simplification: the ints of a step are wrapped once
when the step is done.  This is what int32 arithmetic gives for the counters, which only ever have 1 added to them in a step, after they were compared
(common/set_during.py:20-25, common/extremum.py:52-57, 68-74, common/correlation.py:35-48, finance/moving_average.py:16-22, 48-57, 79-88,
finance/moving_standard_deviation.py:19-28, finance/returns.py:23-29, finance/sharpe_ratio.py:28-34, finance/skewness.py:31-37). -/
def Operator.int32 (op : Operator α) : Operator α where
  forwardStep inputs state := do
    let (o, n, i) ← op.forwardStep inputs state
    .ok (wrapVal o, wrapVal n, wrapVal i)

end TS
