import Verif.Spec.Rounding
import Mathlib.Data.Int.Log
/-
IEEE 754 binary32 with rounding to the nearest number, ties to even: the arithmetic of `tf.float32`, which every operator of the library uses by
default.  Not part of /repo.  Zeros carry no sign here, and the square root and logarithm of `K` are rounded.
-/
namespace TS
open XR
variable {K : Type} [Field K] [LinearOrder K] [IsStrictOrderedRing K] [FloorRing K]

/-- the nearest integer, the even one of two -/
def nearestEven (x : K) : Int :=
  if x - ⌊x⌋ < 1 / 2 then ⌊x⌋ else if 1 / 2 < x - ⌊x⌋ then ⌊x⌋ + 1 else if Even ⌊x⌋ then ⌊x⌋ else ⌊x⌋ + 1

/-- exponent of the last of the 24 digits of a number `x > 0`; at least -149 -/
def lastDigit (x : K) : Int := max (Int.log 2 x) (-126) - 23

/-- a positive number rounded to 24 binary digits, or to multiples of 2^-149 -/
def roundPos (x : K) : K := nearestEven (x / 2 ^ lastDigit x) * 2 ^ lastDigit x

/-- a number rounded, without overflow -/
def roundFin (x : K) : K := if 0 < x then roundPos x else if x < 0 then - roundPos (-x) else 0

/-- rounding to binary32 -/
def round32 : XR K → XR K
  | fin x => if 2 ^ 128 ≤ roundFin x then pinf else if roundFin x ≤ - 2 ^ 128 then ninf else fin (roundFin x)
  | x => x

/-- binary32 numbers -/
structure F32 (K : Type) [Field K] [LinearOrder K] [IsStrictOrderedRing K] [FloorRing K] where
  /-- value -/
  val : XR K
  /-- it is a binary32 number -/
  isRound : round32 val = val

/-- the square root of a number that is not negative is not negative -/
class SqrtNonneg (K : Type) [Zero K] [LE K] [Transc K] : Prop where
  nonneg : ∀ a : K, 0 ≤ a → 0 ≤ Transc.sqrt a

end TS
