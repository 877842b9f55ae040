import Verif.Model.Signals
import Verif.Spec.Typed
/-
Which series the operators accept: for every operator, the dtypes and shapes of the samples.
-/
namespace TS

/-- The signature of samples that consist of tensors of the dtypes `ds`, all of the shape `s`: a bare tensor, or a tuple of several. -/
def samplesOf (s : List Nat) : List DType → PyVal (DType × List Nat)
  | [d] => .leaf (d, s)
  | ds => .tup (ds.map fun d => .leaf (d, s))

/-- anything -/
def Anything (_ : List DType) (_ : List Nat) : Prop := True
/-- float tensors of any shape -/
def FloatTensors (ds : List DType) (_ : List Nat) : Prop := ∀ d ∈ ds, d = .float
/-- float scalars -/
def FloatScalars (ds : List DType) (s : List Nat) : Prop := s = [] ∧ ∀ d ∈ ds, d = .float
/-- tensors of one dtype, float or int -/
def NumTensors (ds : List DType) (_ : List Nat) : Prop := (∀ d ∈ ds, d = .float) ∨ ∀ d ∈ ds, d = .int
/-- scalars of one dtype, float or int -/
def NumScalars (ds : List DType) (s : List Nat) : Prop := s = [] ∧ NumTensors ds s
/-- three prices and a signal, scalars -/
def PricesAndSignal (ds : List DType) (s : List Nat) : Prop := s = [] ∧ (∀ d ∈ ds.take 3, d = .float) ∧ ∀ d ∈ ds.drop 3, d = .float ∨ d = .int

variable {α : Type} [TFNum α]

/-- `Accepts op n P`: of the series of samples that consist of `n` tensors of one shape, `op` accepts those whose dtypes and shape satisfy `P`. -/
inductive Accepts : Operator α → Nat → (List DType → List Nat → Prop) → Prop
  | identity : Accepts Identity 1 Anything
  | fork (c : Nat) : Accepts (Fork c) 1 Anything
  | lag {p : Nat} (hp : 0 < p) : Accepts (Lag p) 1 Anything
  | add : Accepts Add 2 NumTensors
  | sub : Accepts Sub 2 NumTensors
  | mul : Accepts Mul 2 NumTensors
  | globalMinimum : Accepts GlobalMinimum 1 NumScalars
  | globalMaximum : Accepts GlobalMaximum 1 NumScalars
  | localMinimum {p : Nat} (hp : 0 < p) : Accepts (LocalMinimum p) 1 NumScalars
  | localMaximum {p : Nat} (hp : 0 < p) : Accepts (LocalMaximum p) 1 NumScalars
  | sma {p : Nat} (hp : 0 < p) : Accepts (SMA p) 1 FloatTensors
  | msd {p : Nat} (hp : 0 < p) : Accepts (MSD p) 1 FloatTensors
  | ema {p : Nat} (hp : 0 < p) : Accepts (EMA p) 1 FloatTensors
  | rma {p : Nat} (hp : 0 < p) : Accepts (RMA p) 1 FloatTensors
  | bollingerBands {p : Nat} (hp : 0 < p) (k) : Accepts (BollingerBands p k) 1 FloatTensors
  | macd {slow fast m : Nat} (hs : 0 < slow) (hf : 0 < fast) (hm : 0 < m) : Accepts (MACD slow fast m) 1 FloatTensors
  | autoCorrelation {p lag : Nat} (hp : 0 < p) (hl : 0 < lag) : Accepts (AutoCorrelation p lag) 1 FloatTensors
  | zeroCrossover : Accepts ZeroCrossoverSignal 1 FloatTensors
  | correlation {p : Nat} (hp : 0 < p) : Accepts (Correlation p) 2 FloatTensors
  | crossCorrelation {p lag : Nat} (hp : 0 < p) (hl : 0 < lag) : Accepts (CrossCorrelation p lag) 2 FloatTensors
  | atr {p : Nat} (hp : 0 < p) : Accepts (ATR p) 3 FloatTensors
  | return_ (hz : TFNum.eq (Arith.zero : α) (Arith.ofRat 0) = true) {p : Nat} (hp : 0 < p) : Accepts (Return p) 1 FloatScalars
  | logReturn (hz : TFNum.eq (Arith.zero : α) (Arith.ofRat 0) = true) {p : Nat} (hp : 0 < p) : Accepts (LogReturn p) 1 FloatScalars
  | skewness {p : Nat} (hp : 0 < p) : Accepts (Skewness p) 1 FloatScalars
  | drawdown : Accepts Drawdown 1 FloatScalars
  | sharpeRatio {p : Nat} (hp : 0 < p) : Accepts (SharpeRatio p) 2 FloatScalars
  | heikinAshi : Accepts HeikinAshi 4 FloatScalars
  | riskRatio {p : Nat} (hp : 0 < p) (q : RRParams) (hq : q.volatility_period = p) :
      Accepts (RiskRatioEvaluator q) 4 PricesAndSignal
  | momentum {p : Nat} (hp : 0 < p) : Accepts (Momentum p) 1 FloatTensors
  | smaCrossover {slow fast : Nat} (hs : 0 < slow) (hf : 0 < fast) : Accepts (SMACrossover slow fast) 1 FloatTensors
  | smaSignal {slow fast : Nat} (hs : 0 < slow) (hf : 0 < fast) : Accepts (SMACrossoverSignal slow fast) 1 FloatTensors
  | macdSignal {slow fast m : Nat} (hs : 0 < slow) (hf : 0 < fast) (hm : 0 < m) : Accepts (MACDSignal slow fast m) 1 FloatTensors
  | volatility (hz : TFNum.eq (Arith.zero : α) (Arith.ofRat 0) = true) {m r : Nat} (hm : 0 < m) (hr : 0 < r) : Accepts (Volatility m r) 1 FloatScalars

end TS
