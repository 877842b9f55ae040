import Verif.Spec.Common
import Verif.Spec.MovingAverage
/-
What the market indicators should output after a history of samples (oldest first).  Nothing here
refers to the model of the code.
-/
namespace TS
variable {α : Type} [TFNum α]

/-- Growth `f now then` over `p` steps; zero while there is no earlier sample or when it is zero. -/
def growth (f : α → α → α) (p : Nat) (h : List α) : α :=
  if h.length ≤ p ∨ TFNum.eq (lagged Arith.zero p h) (Arith.ofRat 0) then Arith.zero
  else f (h.getLastD Arith.zero) (lagged Arith.zero p h)

/-- Mean over standard deviation, zero when the deviation is zero. -/
def sharpe (l : List α) : α :=
  if TFNum.eq (Arith.sqrt (Arith.moments l).2) (Arith.ofRat 0) then Arith.ofRat 0
  else Arith.mean l / Arith.sqrt (Arith.moments l).2

/-- The changes between consecutive samples, oldest first. -/
def changes (h : List α) : List α := List.zipWith (fun new old => new - old) h.tail h

/-- Wilder's smoothing of a series derived from the changes: the mean of `first` over the first `p` changes
(newest first), then `(previous (p - 1) + later change) / p`. -/
def wilder (p : Nat) (first later : α → α) (d : List α) : α :=
  (d.drop p).foldl (fun g x => (g * Arith.ofInt ((p : Int) - 1) + later x) / Arith.ofInt p)
    (Arith.mean ((d.take p).reverse.map first))

/-- Average gain. -/
def avgGain (p : Nat) (d : List α) : α :=
  wilder p (fun x => if TFNum.lt (Arith.ofRat 0) x then x else Arith.ofRat 0) (fun x => Arith.max (Arith.ofRat 0) x) d

/-- Average loss: a mean of the negative changes with its sign turned, then smoothed. -/
def avgLoss (p : Nat) (d : List α) : α :=
  (d.drop p).foldl (fun g x => (g * Arith.ofInt ((p : Int) - 1) + - Arith.min (Arith.ofRat 0) x) / Arith.ofInt p)
    (- Arith.mean ((d.take p).reverse.map fun x => if TFNum.lt x (Arith.ofRat 0) then x else Arith.ofRat 0))

/-- Relative strength index: zero for the first `p` samples. -/
def rsi (p : Nat) (h : List α) : α :=
  if h.length ≤ p then Arith.ofRat 0
  else Arith.ofRat 100 - Arith.ofRat 100 / (Arith.ofRat 1 + avgGain p (changes h) / avgLoss p (changes h))

end TS

namespace TS
variable {α : Type} [TFNum α]

/-- True range of a candle: the largest of high - low and the distances of high and low from the previous
close (these two are left out, i.e. zero, when the previous close is zero). -/
def trueRangeOf (prev low high : α) : α :=
  Arith.redMax [high - low,
    if TFNum.eq prev (Arith.ofRat 0) then Arith.zero else Arith.abs (high - prev),
    if TFNum.eq prev (Arith.ofRat 0) then Arith.zero else Arith.abs (low - prev)]

/-- A candle as given to ATR and Supertrend: close, low, high. -/
structure CLH (β : Type) where
  close : β
  low : β
  high : β

/-- apply a function to every price -/
def CLH.map {A B : Type} (f : A → B) (c : CLH A) : CLH B := ⟨f c.close, f c.low, f c.high⟩

/-- The true ranges of a series of candles; the close before the first one is zero. -/
def trueRanges (h : List (CLH α)) : List α :=
  List.zipWith (fun prev c => trueRangeOf prev c.low c.high) (Arith.zero :: h.map CLH.close) h

/-- A candle as given to Heikin-Ashi. -/
structure OHLC (β : Type) where
  opn : β
  high : β
  low : β
  close : β

/-- apply a function to every price -/
def OHLC.map {A B : Type} (f : A → B) (c : OHLC A) : OHLC B := ⟨f c.opn, f c.high, f c.low, f c.close⟩

/-- Heikin-Ashi candle made from the previous and the current raw candle; the current candle itself when
the previous open is zero. -/
def haCandle (prev cur : OHLC α) : OHLC α :=
  if TFNum.eq prev.opn (Arith.ofRat 0) then cur
  else
    let c := Arith.sum [cur.close, cur.low, cur.high, cur.opn] / Arith.ofRat 4
    let o := (prev.opn + prev.close) / Arith.ofRat 2
    ⟨o, Arith.redMax [cur.high, c, o], Arith.redMin [cur.low, c, o], c⟩

/-- The highest price so far, at least zero. -/
def peakOf (h : List α) : α := h.foldl (fun p v => Arith.max v p) (Arith.ofRat 0)

/-- Steps since the peak last rose noticeably (by more than 0.0001); samples newest first. -/
def daysSincePeak : List α → Int
  | [] => 0
  | x :: older =>
    let p := peakOf older.reverse
    if TFNum.lt (Arith.ofRat (1 / 10000)) (Arith.abs (Arith.max x p - p)) then 0 else daysSincePeak older + 1

/-- Loss with respect to the earlier peak. -/
def drawdownOf (peak x : α) : α :=
  if TFNum.lt (Arith.abs peak) (Arith.ofRat (1 / 10000)) then Arith.ofRat 0
  else Arith.min (Arith.ofRat 0) (x / peak - Arith.ofRat 1)

end TS
