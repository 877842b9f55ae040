import Verif.Base.Num
import Mathlib.Algebra.Order.Floor.Ring
import Mathlib.Algebra.Order.Field.Basic
import Mathlib.Data.Rat.Cast.Order
import Mathlib.Data.Rat.Floor
/-
Exact arithmetic with the special values of IEEE-754: finite numbers of an ordered field, the two
infinities and NaN.  Used for the properties that speak of order and of values.  Deliberate
simplifications: no rounding, no overflow, one zero (x/0 takes the sign of x), `max`/`min` propagate NaN.
-/
namespace TS

/-- Extended numbers over an ordered field (a float32 without rounding, the dtype of e.g. finance/returns.py:27). -/
inductive XR (K : Type) where
  | fin (x : K)
  | pinf
  | ninf
  | nan
  deriving DecidableEq, Repr

/-- The two transcendental functions the operators use (`tf.sqrt` finance/moving_standard_deviation.py:21, `tf.log` finance/returns.py:52). -/
class Transc (K : Type) where
  sqrt : K → K
  log : K → K

namespace XR
variable {K : Type} [Field K] [LinearOrder K]

/-- addition (common/common.py:11) -/
def add : XR K → XR K → XR K
  | fin a, fin b => fin (a + b)
  | nan, _ => nan
  | _, nan => nan
  | pinf, ninf => nan
  | ninf, pinf => nan
  | pinf, _ => pinf
  | _, pinf => pinf
  | ninf, _ => ninf
  | _, ninf => ninf

/-- negation (finance/relative_strength_index.py:31) -/
def neg : XR K → XR K
  | fin a => fin (-a)
  | pinf => ninf
  | ninf => pinf
  | nan => nan

/-- infinity with the sign of a non-zero number, NaN for zero (a quotient by zero, possible at finance/relative_strength_index.py:52) -/
def infOf (a : K) : XR K := if 0 < a then pinf else if a < 0 then ninf else nan

/-- multiplication (common/common.py:15) -/
def mul : XR K → XR K → XR K
  | fin a, fin b => fin (a * b)
  | nan, _ => nan
  | _, nan => nan
  | fin a, pinf => infOf a
  | fin a, ninf => infOf (-a)
  | pinf, fin b => infOf b
  | ninf, fin b => infOf (-b)
  | pinf, pinf => pinf
  | ninf, ninf => pinf
  | pinf, ninf => ninf
  | ninf, pinf => ninf

/-- division (finance/returns.py:27) -/
def div : XR K → XR K → XR K
  | nan, _ => nan
  | _, nan => nan
  | fin a, fin b => if b = 0 then infOf a else fin (a / b)
  | fin _, pinf => fin 0
  | fin _, ninf => fin 0
  | pinf, fin b => if 0 ≤ b then pinf else ninf
  | ninf, fin b => if 0 ≤ b then ninf else pinf
  | pinf, pinf => nan
  | pinf, ninf => nan
  | ninf, pinf => nan
  | ninf, ninf => nan

/-- IEEE `<` (common/extremum.py:16) -/
def lt : XR K → XR K → Bool
  | fin a, fin b => decide (a < b)
  | nan, _ => false
  | _, nan => false
  | ninf, ninf => false
  | ninf, _ => true
  | _, ninf => false
  | pinf, _ => false
  | fin _, pinf => true

/-- IEEE `≤` (finance/evaluators/risk_ratio_evaluator.py:50) -/
def le : XR K → XR K → Bool
  | fin a, fin b => decide (a ≤ b)
  | nan, _ => false
  | _, nan => false
  | ninf, _ => true
  | _, pinf => true
  | pinf, _ => false
  | fin _, ninf => false

/-- IEEE `==` (finance/returns.py:24) -/
def eq : XR K → XR K → Bool
  | fin a, fin b => decide (a = b)
  | pinf, pinf => true
  | ninf, ninf => true
  | _, _ => false

/-- maximum (finance/drawdown.py:15) -/
def max (a b : XR K) : XR K :=
  match a, b with
  | nan, _ => nan
  | _, nan => nan
  | a, b => if lt a b then b else a

/-- minimum (finance/drawdown.py:21) -/
def min (a b : XR K) : XR K :=
  match a, b with
  | nan, _ => nan
  | _, nan => nan
  | a, b => if lt b a then b else a

/-- absolute value (finance/drawdown.py:16) -/
def abs : XR K → XR K
  | fin a => fin |a|
  | nan => nan
  | _ => pinf

/-- power with a natural exponent (finance/skewness.py:22) -/
def pow : XR K → Nat → XR K
  | _, 0 => fin 1
  | x, n + 1 => mul (pow x n) x

variable [Transc K] [FloorRing K]

/-- square root (finance/moving_standard_deviation.py:21) -/
def sqrt : XR K → XR K
  | fin a => if a < 0 then nan else fin (Transc.sqrt a)
  | pinf => pinf
  | _ => nan

/-- logarithm (finance/returns.py:52) -/
def log : XR K → XR K
  | fin a => if a < 0 then nan else if a = 0 then ninf else fin (Transc.log a)
  | pinf => pinf
  | _ => nan

/-- sign (finance/signals/zero_crossover_signal.py:8) -/
def sign : XR K → XR K
  | fin a => fin (if 0 < a then 1 else if a < 0 then -1 else 0)
  | pinf => fin 1
  | ninf => fin (-1)
  | nan => nan

/-- cast to int: truncation toward zero; the special values give the "integer indefinite" value (finance/signals/zero_crossover_signal.py:43) -/
def toInt : XR K → Int
  | fin a => if 0 ≤ a then ⌊a⌋ else ⌈a⌉
  | _ => -2147483648

instance : Arith (XR K) where
  add := add
  sub a b := add a (neg b)
  mul := mul
  div := div
  neg := neg
  ofRat q := fin (q : K)
  abs := abs
  sqrt := sqrt
  log := log
  pow := pow
  max := max
  min := min
  sum l := l.foldr add (fin 0)
  redMin l := l.foldr min pinf
  redMax l := l.foldr max ninf

instance : TFNum (XR K) where
  lt := lt
  le := le
  eq := eq
  isNaN x := match x with | nan => true | _ => false
  sign := sign
  toInt := toInt

end XR

/-- Rational square root: exact on squares, otherwise a rational with the square root of the integer
part of numerator and denominator.  Only used to run concrete cases. -/
instance : Transc ℚ where
  sqrt q := (Nat.sqrt q.num.toNat : ℚ) / (Nat.sqrt q.den : ℚ)
  log q := q - 1

namespace XR
section lemmas
set_option linter.unusedSectionVars false
variable {K : Type} [Field K] [LinearOrder K] [Transc K] [FloorRing K]

@[simp] theorem fin_add (a b : K) : (fin a + fin b : XR K) = fin (a + b) := rfl
@[simp] theorem fin_sub (a b : K) : (fin a - fin b : XR K) = fin (a - b) := by
  show fin (a + -b) = _; rw [sub_eq_add_neg]
@[simp] theorem fin_mul (a b : K) : (fin a * fin b : XR K) = fin (a * b) := rfl
theorem fin_div (a b : K) (h : b ≠ 0) : (fin a / fin b : XR K) = fin (a / b) := by
  show div _ _ = _; simp [div, h]
@[simp] theorem fin_neg (a : K) : (- fin a : XR K) = fin (-a) := rfl
@[simp] theorem ofRat_eq (q : ℚ) : (Arith.ofRat q : XR K) = fin (q : K) := rfl
@[simp] theorem zero_eq : (Arith.zero : XR K) = fin 0 := by
  show fin ((0 : ℚ) : K) = _; rw [Rat.cast_zero]
@[simp] theorem ofInt_eq [CharZero K] (n : Int) : (Arith.ofInt n : XR K) = fin (n : K) := by
  show fin (((n : ℚ)) : K) = _; rw [Rat.cast_intCast]
@[simp] theorem abs_fin (a : K) : (Arith.abs (fin a) : XR K) = fin |a| := rfl
theorem sqrt_fin (a : K) (h : 0 ≤ a) : (Arith.sqrt (fin a) : XR K) = fin (Transc.sqrt a) := by
  show sqrt _ = _; simp [sqrt, not_lt.2 h]
@[simp] theorem max_fin (a b : K) : (Arith.max (fin a) (fin b) : XR K) = fin (Max.max a b) := by
  show max _ _ = _
  simp only [max, lt]
  rcases lt_or_ge a b with h | h <;> simp [h, le_of_lt, not_lt.2]
@[simp] theorem min_fin (a b : K) : (Arith.min (fin a) (fin b) : XR K) = fin (Min.min a b) := by
  show min _ _ = _
  simp only [min, lt]
  rcases lt_or_ge b a with h | h <;> simp [h, le_of_lt, not_lt.2]
@[simp] theorem lt_fin (a b : K) : TFNum.lt (fin a) (fin b) = decide (a < b) := rfl
@[simp] theorem le_fin (a b : K) : TFNum.le (fin a) (fin b) = decide (a ≤ b) := rfl
@[simp] theorem eq_fin (a b : K) : TFNum.eq (fin a) (fin b) = decide (a = b) := rfl
@[simp] theorem pow_fin (a : K) (n : Nat) : (Arith.pow (fin a) n : XR K) = fin (a ^ n) := by
  show pow _ n = _
  induction n with
  | zero => simp [pow]
  | succ n ih => rw [pow, ih, _root_.pow_succ]; rfl
@[simp] theorem sum_fin (l : List K) : (Arith.sum (l.map fin) : XR K) = fin l.sum := by
  show (l.map fin).foldr add (fin 0) = _
  induction l with
  | nil => rfl
  | cons a l ih => simp only [List.map_cons, List.foldr_cons, ih, List.sum_cons]; rfl
@[simp] theorem sign_fin (a : K) : TFNum.sign (fin a : XR K) = fin (if 0 < a then 1 else if a < 0 then -1 else 0) := rfl

end lemmas
end XR
end TS
