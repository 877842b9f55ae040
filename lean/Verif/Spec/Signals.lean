import Verif.Spec.Market
import Verif.Spec.MovingAverage
/-
Signals, Supertrend and the risk ratio evaluator as functions of the whole history.
-/
namespace TS
variable {α : Type} [TFNum α]

/-- `+1` for non-negative numbers, `-1` for the others (zero counts as positive). -/
def orientation (x : α) : α :=
  if TFNum.le Arith.zero (TFNum.sign x) then Arith.ofRat 1 else Arith.ofRat (-1)

/-- Does a non-zero `x` point against the direction `d`? -/
def against (d x : α) : Bool :=
  TFNum.lt (orientation (x * d)) Arith.zero && !TFNum.eq x Arith.zero

/-- The current direction: the orientation of the first sample, flipped by every non-zero sample against it. -/
def direction : List α → α
  | [] => Arith.zero
  | x :: xs => xs.foldl (fun d v => if against d v then - d else d) (orientation x)

/-- The signal at the last sample: the new direction if the sample turned it, zero otherwise and at the first sample. -/
def crossing (h : List α) : α :=
  match h.getLast? with
  | none => Arith.zero
  | some x =>
    if h.dropLast.isEmpty then Arith.zero
    else if against (direction h.dropLast) x then - direction h.dropLast else Arith.zero

/-- Bands, trend and line of Supertrend. -/
structure Bands (β : Type) where
  upper : β
  lower : β
  trend : Int
  line : β

/-- apply a function to every price, leaving the trend -/
def Bands.map {A B : Type} (f : A → B) (b : Bands A) : Bands B := ⟨f b.upper, f b.lower, b.trend, f b.line⟩

/-- No bands yet. -/
def noBands : Bands α := ⟨Arith.ofRat 0, Arith.ofRat 0, 0, Arith.ofRat 0⟩

/-- One step of Supertrend from the previous bands, the previous close, the average true range and the
candle.  `none` when the close is at once above the previous upper band and below the previous lower band. -/
def bandsStep (factor : ℚ) (b : Bands α) (prevClose atr : α) (x : CLH α) : Option (Bands α) :=
  if TFNum.eq atr (Arith.ofRat 0) then some noBands
  else
    let mid := (x.high + x.low) / Arith.ofRat 2
    let lo := mid - Arith.ofRat factor * atr
    let up := mid + Arith.ofRat factor * atr
    let lower := if TFNum.lt b.lower prevClose then Arith.max lo b.lower else lo
    let upper := if TFNum.lt prevClose b.upper then Arith.min up b.upper else up
    let done (trend : Int) : Bands α := ⟨upper, lower, trend, if trend = 1 then lower else upper⟩
    match TFNum.lt b.upper x.close, TFNum.lt x.close b.lower with
    | true, true => none
    | true, false => some (done 1)
    | false, true => some (done (-1))
    | false, false => some (done (if b.trend = 0 then 1 else b.trend))

/-- The close before the current candle; zero if there is none. -/
def lastClose (h : List (CLH α)) : α := (h.map CLH.close).getLastD Arith.zero

/-- Supertrend after a history given newest first; `none` once a step has failed. -/
def bandsRev (p : Nat) (factor : ℚ) : List (CLH α) → Option (Bands α)
  | [] => some noBands
  | x :: older => (bandsRev p factor older).bind fun b =>
      bandsStep factor b (lastClose older.reverse) (rollAvg p (trueRanges (x :: older).reverse)) x

/-- Supertrend after a history, oldest first. -/
def bandsOf (p : Nat) (factor : ℚ) (h : List (CLH α)) : Option (Bands α) := bandsRev p factor h.reverse

/-- Difference of a fast and a slow moving average; the fast one is left out while the slow one is cold. -/
def smaDiff {E : Type} [Arith E] (slow fast : Nat) (h : List E) : E :=
  (if h.length < slow then Arith.zero else movingAvg fast h) - movingAvg slow h

/-- Change over `p` steps, zero for the first `p` samples. -/
def momentum {E : Type} [Arith E] (p : Nat) (h : List E) : E :=
  if h.length ≤ p then Arith.zero else h.getLastD Arith.zero - lagged Arith.zero p h

/-- Standard deviation of the last `m` log returns over `r` steps, zero for the first `max m r` samples. -/
def volatility (m r : Nat) (h : List α) : α :=
  if h.length ≤ max m r then Arith.zero
  else movingStd m (scan (growth (fun v p => Arith.log (v / p)) r) [] h)

/-- Signal of the crossings of two moving averages, zero for the first `slow` samples. -/
def smaSignal (slow fast : Nat) (h : List α) : Int :=
  if h.length ≤ slow then 0 else TFNum.toInt (crossing (scan (smaDiff slow fast) [] h))

/-- Signal of the zero crossings of the macd histogram, zero for the first `slow + m - 2` samples. -/
def macdTrade (slow fast m : Nat) (h : List α) : Int :=
  if h.length + 2 ≤ slow + m then 0 else TFNum.toInt (crossing (scan (macdHist slow fast m) [] h))

end TS
