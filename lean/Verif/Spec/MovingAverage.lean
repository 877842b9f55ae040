import Verif.Spec.History
import Verif.Base.Num
/-
What the moving averages should output after a history of samples (oldest first).  Nothing here refers
to the model of the code.
-/
namespace TS
variable {E : Type} [Arith E]

/-- Average of the last `p` samples; zero as long as there are fewer. -/
def movingAvg (p : Nat) (h : List E) : E :=
  if h.length < p then Arith.zero else Arith.sum (window p h) / Arith.ofInt p

/-- Population standard deviation of the last `p` samples; zero as long as there are fewer. -/
def movingStd (p : Nat) (h : List E) : E :=
  if h.length < p then Arith.zero else Arith.sqrt (Arith.moments (window p h)).2

/-- Recursive average: the moving average up to sample number `p`, then `rec` applied to the previous
value and the new sample. -/
def recursiveAvg (p : Nat) (rec : E → E → E) (h : List E) : E :=
  (h.drop p).foldl rec (movingAvg p (h.take p))

/-- Exponential moving average: `k x + (1 - k) previous` with `k = 2 / (p + 1)`. -/
def expAvg (p : Nat) : List E → E :=
  recursiveAvg p fun e x => x * Arith.ofRat (2 / ((p : ℚ) + 1)) + e * Arith.ofRat (1 - 2 / ((p : ℚ) + 1))

/-- Rolling (Wilder) moving average: `((p - 1) previous + x) / p`. -/
def rollAvg (p : Nat) : List E → E :=
  recursiveAvg p fun e x => (e * Arith.ofInt ((p : Int) - 1) + x) / Arith.ofInt p

/-- The macd line: fast minus slow exponential average once the slow one is warm. -/
def macdLine (slow fast : Nat) (h : List E) : E :=
  if h.length < slow then Arith.zero else expAvg fast h - expAvg slow h

/-- The macd line over a history, from the first sample at which the slow average is warm. -/
def macdHistory (slow fast : Nat) (h : List E) : List E := (scan (macdLine slow fast) [] h).drop (slow - 1)

/-- The signal line: exponential average of the warm part of the macd line. -/
def macdSignal (slow fast m : Nat) (h : List E) : E :=
  if h.length < slow then Arith.zero else expAvg m (macdHistory slow fast h)

/-- The histogram: macd line minus signal line once both are warm. -/
def macdHist (slow fast m : Nat) (h : List E) : E :=
  if h.length + 1 < slow + m then Arith.zero else macdLine slow fast h - macdSignal slow fast m h

end TS
