import Verif.Model.Market
/-
finance/signals/ and finance/evaluators/
-/
namespace TS
open PyVal
variable {α : Type} [TFNum α]

/-- finance/signals/zero_crossover_signal.py:6-11 `sign(x)`, elementwise. -/
def zcSign (x : α) : α :=
  if TFNum.le Arith.zero (TFNum.sign x) then Arith.ofRat 1 else Arith.ofRat (-1)

/-- finance/signals/zero_crossover_signal.py:26-41, elementwise: `(next_signal, next_direction)`.
(`tf.cond` on the scalar `is_warmup` chooses the same branch for every coordinate.) -/
def zcStep (value : α) (is_warmup : Bool) (previous_direction : α) : α × α :=
  if is_warmup then (Arith.zero, zcSign value)
  else
    let is_zero_crossed := TFNum.lt (zcSign (value * previous_direction)) Arith.zero
      && !TFNum.eq value Arith.zero
    let negative_direction := - previous_direction
    (if is_zero_crossed then negative_direction else Arith.zero,
     if is_zero_crossed then negative_direction else previous_direction)

/-- finance/signals/zero_crossover_signal.py:14-46 class `ZeroCrossoverSignal`. -/
def ZeroCrossoverSignal : Operator α := streamable fun args => do
  arity 1 3 args
  let t ← req args 0 decF
  let is_warmup := (← opt args 1 decB).getD true
  let prev := (← opt args 2 (decFs t.shape)).getD fun _ => Arith.zero
  let r := fun c => zcStep (t.val c) is_warmup (prev c)
  .ok (vIs (s := t.shape) fun c => TFNum.toInt (r c).1,
    .tup [vB false, vF (s := t.shape) fun c => (r c).2], .tup [vB is_warmup, vF prev])

/-- finance/signals/moving_average_crossover_signal.py:7-12. -/
def SMACrossoverSignal (slow fast : Int) : Operator α :=
  Compose [SetDuring (.i (Tensor.scalar 0)) slow, ZeroCrossoverSignal, SMACrossover slow fast]

/-- finance/signals/moving_average_convergence_divergence_signal.py:8-14. -/
def MACDSignal (slow fast macd : Int) : Operator α :=
  Compose [SetDuring (.i (Tensor.scalar 0)) (slow + macd - 2), ZeroCrossoverSignal, Select (.int 4),
    MACD slow fast macd]

/-! ### risk_ratio_evaluator.py -/

/-- The first six components of the state (finance/evaluators/risk_ratio_evaluator.py:16-21). -/
structure RRState (α : Type) where
  stop : α
  limit : α
  buy : α
  duration : Int
  successful : Int
  total : Int

/-- Parameters of `RiskRatioEvaluator` (finance/evaluators/risk_ratio_evaluator.py:7-13). -/
structure RRParams where
  stop_factor : ℚ
  limit_factor : ℚ
  volatility_period : Int
  max_bet_duration : Option Int

/-- finance/evaluators/risk_ratio_evaluator.py:46-140: the state machine; `isBuy` is `tf.equal(signal, 1)`.  Returns the
new state and the emitted signal (`next_state[6]`). -/
def rrStep (p : RRParams) (low high close : α) (isBuy : Bool) (volatility : α) (st : RRState α) :
    RRState α × Int :=
  let zero : α := Arith.ofRat 0
  let is_null := TFNum.eq st.stop (Arith.ofRat 0)                                 -- line 46
  let stop_hit := !is_null && TFNum.le low st.stop                                -- lines 48-51
  let limit_hit := !is_null && TFNum.le st.limit high                             -- lines 52-55
  let buy_signal := is_null && isBuy                                              -- lines 63-66
  let buy : RRState α × Int :=                                                    -- lines 68-79
    (⟨close - Arith.ofRat p.stop_factor * volatility, close + Arith.ofRat p.limit_factor * volatility,
      close, 1, st.successful, st.total⟩, 1)
  let wait : RRState α × Int := ({ st with duration := st.duration + 1 }, 0)      -- lines 81-91
  let sellStop : RRState α × Int :=                                               -- lines 93-102
    (⟨zero, zero, zero, 0, st.successful, st.total + 1⟩, -1)
  let sellLimit : RRState α × Int :=                                              -- lines 104-113
    (⟨zero, zero, zero, 0, st.successful + 1, st.total + 1⟩, -1)
  let sellDuration : RRState α × Int :=                                           -- lines 115-129
    (⟨zero, zero, zero, 0, if TFNum.lt st.buy close then st.successful + 1 else st.successful,
      st.total + 1⟩, -1)
  tfCase ([(stop_hit, sellStop), (limit_hit, sellLimit), (buy_signal, buy)] ++    -- lines 131-140
    match p.max_bet_duration with
    | none => []
    | some d => [(!is_null && decide (st.duration = d), sellDuration)]) wait      -- lines 57-61

/-- `tf.equal(signal, 1)` for a scalar signal of float or int dtype (finance/evaluators/risk_ratio_evaluator.py:65). -/
def decSignal (v : Val α) : Res Bool := do
  match ← decLeaf v with
  | .f t => do .ok (TFNum.eq ((← t.asShape []) ()) (Arith.ofRat 1))
  | .i t => do .ok (decide ((← t.asShape []) () = 1))
  | _ => .error .dtype

/-- finance/evaluators/risk_ratio_evaluator.py:6-158 class `RiskRatioEvaluator` (scalars, because of `tf.case`). -/
def RiskRatioEvaluator (p : RRParams) : Operator α := streamable fun args => do
  arity 4 11 args
  let low ← req args 0 decS
  let high ← req args 1 decS
  let close ← req args 2 decS
  let isBuy ← req args 3 decSignal
  let st : RRState α := {                                                         -- lines 24-35
    stop := (← opt args 4 decS).getD (Arith.ofRat 0)
    limit := (← opt args 5 decS).getD (Arith.ofRat 0)
    buy := (← opt args 6 decS).getD (Arith.ofRat 0)
    duration := (← opt args 7 decI).getD 0
    successful := (← opt args 8 decI).getD 0
    total := (← opt args 9 decI).getD 0 }
  let vol_state ← opt args 10 decAny
  let (volatility, next_vol, vol_init) ← call (MSD p.volatility_period) (vS close) vol_state false -- 37-41
  let vol_state := vol_state.getD vol_init                                        -- lines 43-44
  let (n, signal) := rrStep p low high close isBuy (← decS volatility) st
  .ok (.tup [vI n.successful, vI n.total, volatility, vI signal],                 -- lines 142-147
    .tup [vS n.stop, vS n.limit, vS n.buy, vI n.duration, vI n.successful, vI n.total, next_vol],
    .tup [vS st.stop, vS st.limit, vS st.buy, vI st.duration, vI st.successful, vI st.total, vol_state])

end TS
