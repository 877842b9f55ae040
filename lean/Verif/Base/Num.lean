import Verif.Base.Tensor
import Mathlib.Data.Rat.Defs
/-
Arithmetic of float tensors.  The classes fix the *operations* TensorFlow provides; they assert no
law.  A theorem stated for every `TFNum α` therefore holds for IEEE float32 with whatever rounding and
whatever summation order `tf.reduce_sum` uses.
-/
namespace TS

/-- Operations that TensorFlow applies elementwise to float tensors, and reductions along axis 0 (e.g. finance/moving_average.py:21, finance/moving_standard_deviation.py:20-21, finance/returns.py:52). -/
class Arith (E : Type) extends Add E, Sub E, Mul E, Div E, Neg E where
  /-- a Python number converted to the tensor's dtype.  Python's own arithmetic on hyper-parameters
  (`2.0 / (period + 1.0)`) is taken to be exact. -/
  ofRat : ℚ → E
  /-- `tf.abs` -/
  abs : E → E
  /-- `tf.sqrt` -/
  sqrt : E → E
  /-- `tf.log` -/
  log : E → E
  /-- `tf.pow(x, n)` for a literal exponent -/
  pow : E → Nat → E
  /-- `tf.maximum` -/
  max : E → E → E
  /-- `tf.minimum` -/
  min : E → E → E
  /-- `tf.reduce_sum(_, axis=0)`; the order of summation is not specified -/
  sum : List E → E
  /-- `tf.reduce_min(_, axis=0)` -/
  redMin : List E → E
  /-- `tf.reduce_max(_, axis=0)` -/
  redMax : List E → E

/-- Scalar floats: elementwise operations plus comparisons (e.g. common/extremum.py:16, finance/returns.py:24, helpers/any_nan.py:11, finance/signals/zero_crossover_signal.py:8). -/
class TFNum (α : Type) extends Arith α where
  /-- `tf.less` -/
  lt : α → α → Bool
  /-- `tf.less_equal` -/
  le : α → α → Bool
  /-- `tf.equal` -/
  eq : α → α → Bool
  /-- `tf.is_nan` -/
  isNaN : α → Bool
  /-- `tf.sign` -/
  sign : α → α
  /-- `tf.cast(x, tf.int32)` -/
  toInt : α → Int

namespace Arith
variable {E : Type}

/-- Elementwise operations on tensors: TensorFlow applies them to each multi-index separately;
reductions along axis 0 also act on each remaining multi-index separately. -/
instance {ι : Type} [Arith E] : Arith (ι → E) where
  add a b := fun c => a c + b c
  sub a b := fun c => a c - b c
  mul a b := fun c => a c * b c
  div a b := fun c => a c / b c
  neg a := fun c => - a c
  ofRat q := fun _ => Arith.ofRat q
  abs a := fun c => Arith.abs (a c)
  sqrt a := fun c => Arith.sqrt (a c)
  log a := fun c => Arith.log (a c)
  pow a n := fun c => Arith.pow (a c) n
  max a b := fun c => Arith.max (a c) (b c)
  min a b := fun c => Arith.min (a c) (b c)
  sum l := fun c => Arith.sum (l.map (· c))
  redMin l := fun c => Arith.redMin (l.map (· c))
  redMax l := fun c => Arith.redMax (l.map (· c))

variable [Arith E]

/-- `tf.zeros(...)` element (e.g. finance/moving_average.py:16). -/
def zero : E := Arith.ofRat 0
/-- a Python int converted to a float constant (e.g. the period in finance/moving_average.py:21) -/
def ofInt (n : Int) : E := Arith.ofRat (n : ℚ)

/-- `tf.reduce_mean(_, axis=0)`: the sum divided by the count (e.g. common/correlation.py:28, finance/relative_strength_index.py:47-48). -/
def mean (l : List E) : E := Arith.sum l / ofInt l.length

/-- `tf.nn.moments(_, axes=[0])`: the mean and the mean of squared differences from it (common/correlation.py:24-25, finance/moving_standard_deviation.py:20, finance/sharpe_ratio.py:20, finance/skewness.py:20). -/
def moments (l : List E) : E × E :=
  let m := mean l
  (m, mean (l.map fun x => (x - m) * (x - m)))

end Arith
end TS
