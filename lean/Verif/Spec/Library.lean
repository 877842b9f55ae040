import Verif.Model.Signals
import Verif.Lemmas.MetaRegular
/-
The operators one can build with the library, with the structure of the inputs each of them is made for
and of the outputs it gives.  A structure is a nested value with the tensors erased.
-/
namespace TS
open PyVal
variable {α : Type}

/-- What a `Streamable` unpacks inputs of this structure into (streamable.py:99-108). -/
def argSkels : PyVal Unit → List (PyVal Unit)
  | .node .tuple xs => xs
  | .node .list xs => xs
  | v => [v]

/-- One tensor, or a tuple or list of `n` tensors. -/
def IsArgs (n : Nat) (sk : PyVal Unit) : Prop := argSkels sk = List.replicate n (.leaf ())

/-- The `Streamable` operators of the library: how many input tensors each one takes and the structure
of its output. -/
inductive Basic [TFNum α] : Operator α → Nat → PyVal Unit → Prop
  | sub : Basic Sub 2 (.leaf ())
  | add : Basic Add 2 (.leaf ())
  | mul : Basic Mul 2 (.leaf ())
  | positive : Basic Positive 1 (.leaf ())
  | negative : Basic Negative 1 (.leaf ())
  | lag (p) : Basic (Lag p) 1 (.leaf ())
  | globalMinimum : Basic GlobalMinimum 1 (.leaf ())
  | globalMaximum : Basic GlobalMaximum 1 (.leaf ())
  | localMinimum (p) : Basic (LocalMinimum p) 1 (.leaf ())
  | localMaximum (p) : Basic (LocalMaximum p) 1 (.leaf ())
  | correlation (p) : Basic (Correlation p) 2 (.leaf ())
  | crossCorrelation (p l) : Basic (CrossCorrelation p l) 2 (.leaf ())
  | autoCorrelation (p l) : Basic (AutoCorrelation p l) 1 (.leaf ())
  | sma (p) : Basic (SMA p) 1 (.leaf ())
  | msd (p) : Basic (MSD p) 1 (.leaf ())
  | ema (p) : Basic (EMA p) 1 (.leaf ())
  | rma (p) : Basic (RMA p) 1 (.leaf ())
  | bollingerBands (n k) : Basic (BollingerBands n k) 1 (.tup [.leaf (), .leaf (), .leaf ()])
  | macd (s f m) : Basic (MACD s f m) 1 (.tup [.leaf (), .leaf (), .leaf (), .leaf (), .leaf ()])
  | return_ (p) : Basic (Return p) 1 (.leaf ())
  | logReturn (p) : Basic (LogReturn p) 1 (.leaf ())
  | sharpeRatio (p) : Basic (SharpeRatio p) 2 (.leaf ())
  | skewness (p) : Basic (Skewness p) 1 (.leaf ())
  | rsi (p) : Basic (RSI p) 1 (.leaf ())
  | atr (p) : Basic (ATR p) 3 (.leaf ())
  | supertrend (p f) : Basic (Supertrend p f) 3 (.leaf ())
  | heikinAshi : Basic HeikinAshi 4 (.tup [.leaf (), .leaf (), .leaf (), .leaf ()])
  | drawdown : Basic Drawdown 1 (.tup [.leaf (), .leaf ()])
  | zeroCrossover : Basic ZeroCrossoverSignal 1 (.leaf ())
  | riskRatio (p) : Basic (RiskRatioEvaluator p) 4 (.tup [.leaf (), .leaf (), .leaf (), .leaf ()])

/-- `Lib op D E`: `op` can be built with the library; it is made for inputs whose structure satisfies
`D`, and gives outputs whose structure satisfies `E`. -/
inductive Lib [TFNum α] : Operator α → (PyVal Unit → Prop) → (PyVal Unit → Prop) → Prop
  | basic {op n sk} (h : Basic op n sk) : Lib op (IsArgs n) (· = sk)
  | fork (c : Nat) : Lib (Fork c) (IsArgs 1) (· = .tup (List.replicate c (.leaf ())))
  | identity (D) : Lib Identity (fun sk => ∃ s, argSkels sk = [s] ∧ D s) D
  | selectInt (n : Nat) (i : Int) : Lib (Select (.int i)) (IsArgs n) (· = .leaf ())
  | selectField (l : List (PyVal Unit)) (k : Nat) (h : k < l.length) : Lib (Select (.int k)) (fun sk => argSkels sk = l) (· = l[k])
  | selectList (n : Nat) (is : List Int) :
      Lib (Select (.list is)) (IsArgs n) (· = .node .list (List.replicate is.length (.leaf ())))
  | selectTuple (n : Nat) (is : List Int) : Lib (Select (.tuple is)) (IsArgs n) (· = .leaf ())
  | setDuring (v : Leaf α) (p : Int) (D) : Lib (SetDuring v p) D D
  | automaton {ts : List (Transition α)} {q : Int} {d : List (Val α) → Res (Val α)} (h : AutomatonOK ts d) (D)
      {E : PyVal Unit → Prop} (hE : ∀ x args o, D x.skel → asSeq x = .ok args → d args = .ok o → E o.skel) :
      Lib (Automaton ts q d) D E
  | compose {ops : List (Operator α)} {Ds : Nat → PyVal Unit → Prop}
      (h : ∀ k (hk : k < ops.reverse.length), Lib ops.reverse[k] (Ds k) (Ds (k + 1))) :
      Lib (Compose ops) (Ds 0) (Ds ops.length)
  | join {ops : List (Operator α)} {Ds Es : Nat → PyVal Unit → Prop}
      (h : ∀ k (hk : k < ops.length), Lib ops[k] (Ds k) (Es k)) :
      Lib (Join ops)
        (fun sk => ∃ l, (sk = .node .tuple l ∨ sk = .node .list l) ∧ l.length = ops.length ∧ ∀ k (hk : k < l.length), Ds k l[k])
        (fun sk => ∃ l, sk = .tup l ∧ l.length = ops.length ∧ ∀ k (hk : k < l.length), Es k l[k])
  | map {op D E} (h : Lib op D E) (size : Int) : Lib (Map op size) D E
  | ffill {op D E} (h : Lib op D E) : Lib (FFill op) D (fun sk => ∃ t, E t ∧ sk = unpackSkel (unpackSkel t))
  | weaken {op} {D D' E E' : PyVal Unit → Prop} (h : Lib op D E) (hD : ∀ sk, D' sk → D sk) (hE : ∀ sk, E sk → E' sk) :
      Lib op D' E'

end TS
