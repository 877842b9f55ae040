import Verif.Spec.Steady
import Verif.Model.Signals
/-
A type system for the operators of the library: which signatures of inputs each of them accepts, with the
signatures of its outputs and its state.
-/
namespace TS
open PyVal
variable {α : Type}

/-- float tensors of the shape `s` -/
abbrev tF (s : List Nat) : PyVal (DType × List Nat) := .leaf (.float, s)
/-- int tensors of the shape `s` -/
abbrev tI (s : List Nat) : PyVal (DType × List Nat) := .leaf (.int, s)

/-- bool tensors of the shape `s` -/
abbrev tB (s : List Nat) : PyVal (DType × List Nat) := .leaf (.bool, s)

/-- `()` -/
abbrev tU : PyVal (DType × List Nat) := .tup []
/-- state `(iteration, buffer)` -/
abbrev tBuf (p : Nat) (s : List Nat) : PyVal (DType × List Nat) := .tup [tI [], tF (p :: s)]
/-- state of the recursive averages -/
abbrev tAvg (p : Nat) (s : List Nat) : PyVal (DType × List Nat) := .tup [tI [], tF s, tBuf p s]
/-- state of `Correlation` -/
abbrev tCorr (p : Nat) (s : List Nat) : PyVal (DType × List Nat) := .tup [tI [], tF (p :: s), tF (p :: s)]
/-- state of `CrossCorrelation` -/
abbrev tCross (p lag : Nat) (s : List Nat) : PyVal (DType × List Nat) := .tup [tI [], tCorr p s, tF (lag :: s)]

/-- the signature of a series of `m` samples -/
abbrev tMany (m : Nat) (X : PyVal (DType × List Nat)) : PyVal (DType × List Nat) := X.map fun l => (l.1, m :: l.2)

/-- `TypedIn C op X O S`: fed with inputs of the signature `X`, `op` gives outputs of the signature `O` and has
states of the signature `S`.  All periods are positive; the ints that `SetDuring` puts in satisfy `C`. -/
inductive TypedIn [TFNum α] (C : Int → Prop) : Operator α → PyVal (DType × List Nat) → PyVal (DType × List Nat) → PyVal (DType × List Nat) → Prop
  | sub (s) : TypedIn C Sub (.tup [tF s, tF s]) (tF s) tU
  | add (s) : TypedIn C Add (.tup [tF s, tF s]) (tF s) tU
  | mul (s) : TypedIn C Mul (.tup [tF s, tF s]) (tF s) tU
  | positive (s) : TypedIn C Positive (tF s) (tF s) tU
  | negative (s) : TypedIn C Negative (tF s) (tF s) tU
  | fork (c l) : TypedIn C (Fork c) (.leaf l) (.tup (List.replicate c (.leaf l))) tU
  | identity (l) : TypedIn C Identity (.leaf l) (.leaf l) tU
  | select {ls : List (PyVal (DType × List Nat))} (k : Nat) (h : k < ls.length) : TypedIn C (Select (.int k)) (.tup ls) ls[k] tU
  | lag (d s) {p : Nat} (hp : 0 < p) : TypedIn C (Lag p) (.leaf (d, s)) (.leaf (d, s)) (.leaf (d, p :: s))
  | setDuringFloat (c : α) (p : Int) {X} (h : ∀ l ∈ flatten X, l.1 = .float) : TypedIn C (SetDuring (.f (Tensor.scalar c)) p) X X (.tup [tI []])
  | setDuringInt (c p : Int) (hc : C c) {X} (h : ∀ l ∈ flatten X, l.1 = .int) : TypedIn C (SetDuring (.i (Tensor.scalar c)) p) X X (.tup [tI []])
  | globalMinimum : TypedIn C GlobalMinimum (tF []) (tF []) (.tup [tF [], tB []])
  | globalMaximum : TypedIn C GlobalMaximum (tF []) (tF []) (.tup [tF [], tB []])
  | localMinimum {p : Nat} (hp : 0 < p) : TypedIn C (LocalMinimum p) (tF []) (tF []) (.tup [tF [p], tI []])
  | localMaximum {p : Nat} (hp : 0 < p) : TypedIn C (LocalMaximum p) (tF []) (tF []) (.tup [tF [p], tI []])
  | correlation (s) {p : Nat} (hp : 0 < p) : TypedIn C (Correlation p) (.tup [tF s, tF s]) (tF s) (tCorr p s)
  | crossCorrelation (s) {p lag : Nat} (hp : 0 < p) (hl : 0 < lag) : TypedIn C (CrossCorrelation p lag) (.tup [tF s, tF s]) (tF s) (tCross p lag s)
  | autoCorrelation (s) {p lag : Nat} (hp : 0 < p) (hl : 0 < lag) : TypedIn C (AutoCorrelation p lag) (tF s) (tF s) (.tup [tCross p lag s])
  | sma (s) {p : Nat} (hp : 0 < p) : TypedIn C (SMA p) (tF s) (tF s) (tBuf p s)
  | msd (s) {p : Nat} (hp : 0 < p) : TypedIn C (MSD p) (tF s) (tF s) (tBuf p s)
  | ema (s) {p : Nat} (hp : 0 < p) : TypedIn C (EMA p) (tF s) (tF s) (tAvg p s)
  | rma (s) {p : Nat} (hp : 0 < p) : TypedIn C (RMA p) (tF s) (tF s) (tAvg p s)
  | bollingerBands (s) {p : Nat} (hp : 0 < p) (k) : TypedIn C (BollingerBands p k) (tF s) (.tup [tF s, tF s, tF s]) (.tup [tBuf p s, tBuf p s])
  | macd (s) {slow fast m : Nat} (hs : 0 < slow) (hf : 0 < fast) (hm : 0 < m) :
      TypedIn C (MACD slow fast m) (tF s) (.tup [tF s, tF s, tF s, tF s, tF s]) (.tup [tI [], tAvg slow s, tAvg fast s, tAvg m s])
  | return_ (hz : TFNum.eq (Arith.zero : α) (Arith.ofRat 0) = true) {p : Nat} (hp : 0 < p) : TypedIn C (Return p) (tF []) (tF []) (tBuf p [])
  | logReturn (hz : TFNum.eq (Arith.zero : α) (Arith.ofRat 0) = true) {p : Nat} (hp : 0 < p) : TypedIn C (LogReturn p) (tF []) (tF []) (tBuf p [])
  | sharpeRatio {p : Nat} (hp : 0 < p) : TypedIn C (SharpeRatio p) (.tup [tF [], tF []]) (tF []) (.tup [tF [p], tI []])
  | skewness {p : Nat} (hp : 0 < p) : TypedIn C (Skewness p) (tF []) (tF []) (.tup [tF [p], tI []])
  | rsi {p : Nat} (hp : 0 < p) : TypedIn C (RSI p) (tF []) (tF []) (.tup [tI [], tF [p], tF [], tF []])
  | atr {p : Nat} (hp : 0 < p) : TypedIn C (ATR p) (.tup [tF [], tF [], tF []]) (tF []) (.tup [tF [], tAvg p []])
  | heikinAshi : TypedIn C HeikinAshi (.tup [tF [], tF [], tF [], tF []]) (.tup [tF [], tF [], tF [], tF []]) (.tup [tF [], tF []])
  | drawdown : TypedIn C Drawdown (tF []) (.tup [tF [], tI []]) (.tup [tF [], tI []])
  | zeroCrossover (s) : TypedIn C ZeroCrossoverSignal (tF s) (tI s) (.tup [tB [], tF s])
  | riskRatioFloat {p : Nat} (hp : 0 < p) (q : RRParams) (hq : q.volatility_period = p) :
      TypedIn C (RiskRatioEvaluator q) (.tup [tF [], tF [], tF [], tF []]) (.tup [tI [], tI [], tF [], tI []])
        (.tup [tF [], tF [], tF [], tI [], tI [], tI [], tBuf p []])
  | riskRatioInt {p : Nat} (hp : 0 < p) (q : RRParams) (hq : q.volatility_period = p) :
      TypedIn C (RiskRatioEvaluator q) (.tup [tF [], tF [], tF [], tI []]) (.tup [tI [], tI [], tF [], tI []])
        (.tup [tF [], tF [], tF [], tI [], tI [], tI [], tBuf p []])
  | compose {ops : List (Operator α)} {T : Nat → PyVal (DType × List Nat)} {S : Nat → PyVal (DType × List Nat)} (hne : ops ≠ [])
      (h : ∀ k (hk : k < ops.reverse.length), TypedIn C ops.reverse[k] (T k) (T (k + 1)) (S k)) :
      TypedIn C (Compose ops) (T 0) (T ops.length) (.tup ((List.range ops.length).map S))
  | join {ops : List (Operator α)} {X O : Nat → PyVal (DType × List Nat)} {S : Nat → PyVal (DType × List Nat)}
      (h : ∀ k (hk : k < ops.length), TypedIn C ops[k] (X k) (O k) (S k)) :
      TypedIn C (Join ops) (.tup ((List.range ops.length).map X)) (.tup ((List.range ops.length).map O)) (.tup ((List.range ops.length).map S))
  | ffill {op : Operator α} {X O S} (h : TypedIn C op X O S) (hX : AllFloat X) (hO : Passable O) (hS : S = tU ∨ Passable S) :
      TypedIn C (FFill op) X O (.tup [O, S])
  | map {op : Operator α} {X O S} (h : TypedIn C op X O S) (hX : flatten X ≠ []) {m : Nat} (hm : 0 < m) :
      TypedIn C (Map op m) (tMany m X) (tMany m O) (.tup [tMany m S])

/-- `Typed op X O S`: the same, whatever the ints of `SetDuring`. -/
abbrev Typed [TFNum α] (op : Operator α) (X O S : PyVal (DType × List Nat)) : Prop := TypedIn (fun _ => True) op X O S

end TS
