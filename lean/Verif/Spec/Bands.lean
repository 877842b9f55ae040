import Verif.Spec.Signals
import Mathlib.Algebra.Order.Field.Basic
/-
True range, Supertrend and Heikin-Ashi candles on numbers of an ordered field.  Nothing here refers to the model of the code.
-/
namespace TS
variable {K : Type} [Field K] [LinearOrder K]

/-- True range of a candle with respect to the previous close; a close of zero stands for no previous candle. -/
def trueRangeK (prev low high : K) : K := if prev = 0 then max (high - low) 0 else max (high - low) (max |high - prev| |low - prev|)

/-- the close before candle `i`, zero before the first one -/
def closeBefore (xs : List (CLH K)) (i : Nat) : K := if i = 0 then 0 else ((xs[i - 1]?).map CLH.close).getD 0

/-- How the bands, the trend and the line of Supertrend follow from the previous ones, the previous close, the average true
range and the candle. -/
def SuperStep (factor : K) (b : Bands K) (prevClose atr : K) (x : CLH K) (b' : Bands K) : Prop :=
  let lo := (x.high + x.low) / 2 - factor * atr
  let up := (x.high + x.low) / 2 + factor * atr
  (atr = 0 → b' = ⟨0, 0, 0, 0⟩) ∧
  (atr ≠ 0 →
    b'.lower = (if b.lower < prevClose then max lo b.lower else lo) ∧
    b'.upper = (if prevClose < b.upper then min up b.upper else up) ∧
    b'.trend = (if b.upper < x.close then 1 else if x.close < b.lower then -1 else if b.trend = 0 then 1 else b.trend) ∧
    b'.line = if b'.trend = 1 then b'.lower else b'.upper)

/-- The close is at once above the upper and below the lower band. -/
def Clash (b : Bands K) (x : CLH K) : Prop := b.upper < x.close ∧ x.close < b.lower

end TS
