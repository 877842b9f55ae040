import Verif.Model.Signals
/-
How many tensors the operators of the library take, and of how many parts their states consist.
-/
namespace TS
variable {α : Type} [TFNum α]

/-- `Takes op n m`: the documented inputs of `op` are `n` tensors, its states have `m` parts. -/
inductive Takes : Operator α → Nat → Nat → Prop
  | sub : Takes Sub 2 0
  | add : Takes Add 2 0
  | mul : Takes Mul 2 0
  | fork (c : Nat) : Takes (Fork c) 1 0
  | identity : Takes Identity 1 0
  | positive : Takes Positive 1 0
  | negative : Takes Negative 1 0
  | lag (p) : Takes (Lag p) 1 1
  | globalMinimum : Takes GlobalMinimum 1 2
  | globalMaximum : Takes GlobalMaximum 1 2
  | localMinimum (p) : Takes (LocalMinimum p) 1 2
  | localMaximum (p) : Takes (LocalMaximum p) 1 2
  | correlation (p) : Takes (Correlation p) 2 3
  | crossCorrelation (p l) : Takes (CrossCorrelation p l) 2 3
  | autoCorrelation (p l) : Takes (AutoCorrelation p l) 1 1
  | sma (p) : Takes (SMA p) 1 2
  | msd (p) : Takes (MSD p) 1 2
  | ema (p) : Takes (EMA p) 1 3
  | rma (p) : Takes (RMA p) 1 3
  | bollingerBands (n k) : Takes (BollingerBands n k) 1 2
  | macd (s f m) : Takes (MACD s f m) 1 4
  | return_ (p) : Takes (Return p) 1 2
  | logReturn (p) : Takes (LogReturn p) 1 2
  | sharpeRatio (p) : Takes (SharpeRatio p) 2 2
  | skewness (p) : Takes (Skewness p) 1 2
  | rsi (p) : Takes (RSI p) 1 4
  | atr (p) : Takes (ATR p) 3 2
  | supertrend (p f) : Takes (Supertrend p f) 3 5
  | heikinAshi : Takes HeikinAshi 4 2
  | drawdown : Takes Drawdown 1 2
  | zeroCrossover : Takes ZeroCrossoverSignal 1 2
  | riskRatio (p) : Takes (RiskRatioEvaluator p) 4 7

/-- The number of arguments a nested value is spread into: the length of a tuple or list, 1 for a tensor or a dict. -/
def width : Val α → Nat
  | .node .tuple xs => xs.length
  | .node .list xs => xs.length
  | _ => 1

end TS
