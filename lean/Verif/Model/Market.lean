import Verif.Model.MovingAverage
/-
finance/: returns, volatility, momentum, sharpe_ratio, skewness, relative_strength_index,
average_true_range, supertrend, heikin_ashi, drawdown (the operator)
-/
namespace TS
open PyVal
variable {α : Type} [TFNum α]

/-! ### returns.py, volatility.py, momentum.py -/

/-- finance/returns.py:11-29 `Return.step` and 36-54 `LogarithmicReturn.step`; `f value prev_value` is
the expression of line 27 or 52.  The predicate of `tf.cond` restricts the class to scalars. -/
def returnStep (f : α → α → α) (period : Int) (value : α) (iteration : Option Int)
    (prev_buffer : Option (List α)) : Res (α × (Int × List α) × (Int × List α)) := do
  let iteration := iteration.getD 0
  let prev_buffer ← match prev_buffer with
    | none => zerosBuf period
    | some b => pure b
  let prev_value ← pyIndex prev_buffer (period - 1)
  let next_buffer := roll value prev_buffer
  let ret :=
    if decide (iteration < period - 1) || TFNum.eq prev_value (Arith.ofRat 0) then Arith.zero
    else f value prev_value
  .ok (ret, (iteration + 1, next_buffer), (iteration, prev_buffer))

/-- Positional arguments of the two classes (finance/returns.py:11-29 and finance/returns.py:36-54). -/
def returnOp (f : α → α → α) (period : Int) : Operator α := streamable fun args => do
  arity 1 3 args
  let (o, n, i) ← returnStep f period (← req args 0 decS) (← opt args 1 decI) (← opt args 2 decSBuf)
  .ok (vS o, .tup [vI n.1, vSBuf n.2], .tup [vI i.1, vSBuf i.2])

/-- finance/returns.py:6-29 class `Return`. -/
def Return (period : Int) : Operator α := returnOp (fun v p => v / p - Arith.ofRat 1) period
/-- finance/returns.py:31-54 class `LogarithmicReturn`. -/
def LogReturn (period : Int) : Operator α := returnOp (fun v p => Arith.log (v / p)) period

/-- finance/volatility.py:7-12 `Volatility(moving_period, return_period)`. -/
def Volatility (moving_period return_period : Int) : Operator α :=
  Compose [SetDuring (.f (Tensor.scalar Arith.zero)) (Max.max moving_period return_period),
    MSD moving_period, LogReturn return_period]

/-- finance/momentum.py:9-15 `Momentum(period)`. -/
def Momentum (period : Int) : Operator α :=
  Compose [SetDuring (.f (Tensor.scalar Arith.zero)) period, Sub, Join [Identity, Lag period], Fork 2]

/-! ### sharpe_ratio.py, skewness.py -/

/-- finance/sharpe_ratio.py:19-26 `compute_sharpe_ratio`. -/
def computeSharpe (values : List α) : α :=
  let (mean, var) := Arith.moments values
  let stddev := Arith.sqrt var
  if TFNum.eq stddev (Arith.ofRat 0) then Arith.ofRat 0 else mean / stddev

/-- finance/skewness.py:19-29 `compute_skewness`. -/
def computeSkewness (values : List α) : α :=
  let (mean_x, var_x) := Arith.moments values
  let stddev_x := Arith.sqrt var_x
  let mean_x3 := Arith.mean (values.map fun x => Arith.pow x 3)
  let skewness := (mean_x3 - Arith.ofRat 3 * mean_x * Arith.pow stddev_x 2 - Arith.pow mean_x 3)
    / Arith.pow stddev_x 3
  if TFNum.eq stddev_x (Arith.ofRat 0) then Arith.ofRat 0 else skewness

/-- finance/sharpe_ratio.py:13-17, 28-34 and finance/skewness.py:13-17, 31-37: a statistic of the last
`min(iteration + 1, period)` values. -/
def windowStatStep (stat : List α → α) (period : Int) (value : α) (last_values : Option (List α))
    (iteration : Option Int) : Res (α × (List α × Int) × (List α × Int)) := do
  let iteration := iteration.getD 0
  let last_values ← match last_values with
    | none => zerosBuf period
    | some b => pure b
  let new_values := roll value last_values
  let out := if iteration < period then stat (pyTake new_values (iteration + 1)) else stat new_values
  .ok (out, (new_values, iteration + 1), (last_values, iteration))

/-- finance/sharpe_ratio.py:6-34 class `SharpeRatio`. -/
def SharpeRatio (period : Int) : Operator α := streamable fun args => do
  arity 2 4 args
  let r ← req args 0 decS
  let f ← req args 1 decS
  let (o, n, i) ← windowStatStep computeSharpe period (r - f) (← opt args 2 decSBuf) (← opt args 3 decI)
  .ok (vS o, .tup [vSBuf n.1, vI n.2], .tup [vSBuf i.1, vI i.2])

/-- finance/skewness.py:6-37 class `Skewness`. -/
def Skewness (period : Int) : Operator α := streamable fun args => do
  arity 1 3 args
  let (o, n, i) ← windowStatStep computeSkewness period (← req args 0 decS) (← opt args 1 decSBuf)
    (← opt args 2 decI)
  .ok (vS o, .tup [vSBuf n.1, vI n.2], .tup [vSBuf i.1, vI i.2])

/-! ### relative_strength_index.py -/

/-- finance/relative_strength_index.py:28-36 `compute_default_gain_loss`; `last` is `buffer_state[0]`. -/
def rsiDefaultGainLoss (period : Int) (value last gain loss : α) : α × α :=
  let cur := value - last
  let current_gain := Arith.max (Arith.ofRat 0) cur
  let current_loss := - Arith.min (Arith.ofRat 0) cur
  ((gain * Arith.ofInt (period - 1) + current_gain) / Arith.ofInt period,
   (loss * Arith.ofInt (period - 1) + current_loss) / Arith.ofInt period)

/-- finance/relative_strength_index.py:38-49 `compute_first_gain_loss`. -/
def rsiFirstGainLoss (value : α) (buffer_state : List α) : α × α :=
  let ext := value :: buffer_state
  let old := ext.tail
  let new := ext.dropLast
  let diff := List.zipWith (fun a b => a - b) new old
  let new_gains := diff.map fun x => if TFNum.lt (Arith.ofRat 0) x then x else Arith.ofRat 0
  let new_losses := diff.map fun x => if TFNum.lt x (Arith.ofRat 0) then x else Arith.ofRat 0
  (Arith.mean new_gains, - Arith.mean new_losses)

/-- finance/relative_strength_index.py:51-54 `compute_rsi`. -/
def computeRsi (gain loss : α) : α :=
  let rs := gain / loss
  Arith.ofRat 100 - (Arith.ofRat 100 / (Arith.ofRat 1 + rs))

/-- finance/relative_strength_index.py:6-85 class `RelativeStrengthIndex`.  `tf.map_fn` over the
differences and the predicates restrict it to scalars. -/
def RSI (period : Int) : Operator α := streamable fun args => do
  arity 1 5 args
  let value ← req args 0 decS
  let iteration := (← opt args 1 decI).getD 0                                     -- lines 15-16
  let buffer_state ← opt args 2 decAny
  let gain := (← opt args 3 decS).getD (Arith.ofRat 0)                            -- lines 17-18
  let loss := (← opt args 4 decS).getD (Arith.ofRat 0)                            -- lines 19-20
  let (_, next_buffer, buffer_init) ← call (Lag period) (vS value) buffer_state false   -- 22-23
  let buffer_state := buffer_state.getD buffer_init                               -- lines 25-26
  let buf ← decSBuf buffer_state
  let last ← pyIndex buf 0                                                        -- line 29
  let first := rsiFirstGainLoss value buf
  let dflt := rsiDefaultGainLoss period value last gain loss
  let zero : α := Arith.ofRat 0
  let (new_gain, new_loss, rsi) ← tfCaseExclusive [                               -- lines 69-72
      (decide (iteration = period), (first.1, first.2, computeRsi first.1 first.2)),
      (decide (iteration < period), (zero, zero, zero))]
    (dflt.1, dflt.2, computeRsi dflt.1 dflt.2)
  .ok (vS rsi, .tup [vI (iteration + 1), next_buffer, vS new_gain, vS new_loss],
    .tup [vI iteration, buffer_init, vS gain, vS loss])

/-! ### average_true_range.py, supertrend.py -/

/-- finance/average_true_range.py:18-29: the true range of candles of one shape (`trueRangeT` below, by `trueRangeT_same` in Lemmas/TrackMarket.lean).  For non-scalar candles it is the maximum over
all coordinates, since `tf.reduce_max` on line 29 has no axis. -/
def trueRange {s : List Nat} (low high last_close : Idx s → α) : α :=
  let hl : Idx s → α := fun c => high c - low c
  let hcp : Idx s → α := fun c =>
    if TFNum.eq (last_close c) (Arith.ofRat 0) then Arith.zero else Arith.abs (high c - last_close c)
  let lcp : Idx s → α := fun c =>
    if TFNum.eq (last_close c) (Arith.ofRat 0) then Arith.zero else Arith.abs (low c - last_close c)
  Arith.redMax (Tensor.elems ⟨s, hl⟩ ++ Tensor.elems ⟨s, hcp⟩ ++ Tensor.elems ⟨s, lcp⟩)

/-- finance/average_true_range.py:19-23 and 24-28: `tf.where(tf.equal(last_close, 0), zeros, tf.abs(price - last_close))`.  The difference is broadcast; `tf.where`
accepts only branches of one shape, so it must have the shape of `last_close`. -/
def rangeToClose (price last_close : Tensor α) : Res (Tensor α) := do
  let d ← broadcast (· - ·) price last_close
  let d ← d.asShape last_close.shape
  .ok ⟨last_close.shape, fun c => if TFNum.eq (last_close.val c) (Arith.ofRat 0) then Arith.zero else Arith.abs (d c)⟩

/-- finance/average_true_range.py:18-29: the true range.  `tf.stack` requires equal shapes; `tf.reduce_max` has no axis. -/
def trueRangeT (low high last_close : Tensor α) : Res α := do
  let hl ← broadcast (· - ·) high low
  let hcp ← rangeToClose high last_close
  let lcp ← rangeToClose low last_close
  .ok (Arith.redMax (← Tensor.stack [hl, hcp, lcp]).elems)

/-- finance/average_true_range.py:6-32 class `AverageTrueRange`. -/
def ATR (period : Int) : Operator α := streamable fun args => do
  arity 3 5 args
  let close ← req args 0 decF
  let low ← req args 1 decF
  let high ← req args 2 decF
  let last_close := (← opt args 3 decF).getD ⟨close.shape, fun _ => Arith.zero⟩   -- lines 15-16
  let last_rma_state ← opt args 4 decAny
  let tr ← trueRangeT low high last_close                                        -- lines 18-29
  let (atr, new_rma, rma_init) ← call (RMA period) (vS tr) last_rma_state false   -- line 31
  .ok (atr, .tup [.leaf (.f close), new_rma], .tup [.leaf (.f last_close), rma_init])

/-- finance/supertrend.py:25-54 `default(atr)`: `(trend_down, trend_up, trend, supertrend)`. -/
def supertrendDefault (factor : ℚ) (close low high atr last_close last_down last_up : α)
    (last_trend : Int) : Res (α × α × Int × α) := do
  let hl2 := (high + low) / Arith.ofRat 2
  let up := hl2 - Arith.ofRat factor * atr
  let down := hl2 + Arith.ofRat factor * atr
  let trend_up := if TFNum.lt last_up last_close then Arith.max up last_up else up
  let trend_down := if TFNum.lt last_close last_down then Arith.min down last_down else down
  let trend ← tfCaseExclusive [
      (TFNum.lt last_down close, 1),
      (TFNum.lt close last_up, -1)]
    (if last_trend = 0 then 1 else last_trend)
  let supertrend := if trend = 1 then trend_up else trend_down
  .ok (trend_down, trend_up, trend, supertrend)

/-- finance/supertrend.py:56-57 `warmup()` and 65-69: `tf.cond(tf.equal(atr, 0), warmup, default)`. -/
def supertrendCond (factor : ℚ) (close low high atr last_close last_down last_up : α)
    (last_trend : Int) : Res (α × α × Int × α) :=
  let zero : α := Arith.ofRat 0
  if TFNum.eq atr zero then .ok (zero, zero, 0, zero)
  else supertrendDefault factor close low high atr last_close last_down last_up last_trend

/-- finance/supertrend.py:6-83 class `Supertrend`.  Simplified: scalar candles; with others the predicates of `tf.case` (lines 41-42) are no scalars,
which it rejects as soon as it knows (when the shapes are unknown, not before the ATR is nonzero). -/
def Supertrend (atr_period : Int) (factor : ℚ) : Operator α := streamable fun args => do
  arity 3 8 args
  let close ← req args 0 decS
  let low ← req args 1 decS
  let high ← req args 2 decS
  let prev_atr_state ← opt args 3 decAny
  let last_close := (← opt args 4 decS).getD (Arith.ofRat 0)                      -- lines 16-17
  let last_down := (← opt args 5 decS).getD (Arith.ofRat 0)                       -- lines 18-19
  let last_up := (← opt args 6 decS).getD (Arith.ofRat 0)                         -- lines 20-21
  let last_trend := (← opt args 7 decI).getD 0                                    -- lines 22-23
  let (atr, next_atr, atr_init) ←                                                 -- lines 59-63
    call (ATR atr_period) (.tup [vS close, vS low, vS high]) prev_atr_state false
  let atr ← decS atr
  let (trend_down, trend_up, trend, supertrend) ←                                 -- lines 65-69
    supertrendCond factor close low high atr last_close last_down last_up last_trend
  .ok (vS supertrend, .tup [next_atr, vS close, vS trend_down, vS trend_up, vI trend],
    .tup [atr_init, vS last_close, vS last_down, vS last_up, vI last_trend])

/-! ### heikin_ashi.py -/

/-- finance/heikin_ashi.py:22-46: `(open, high, low, close)` of the new candle. -/
def heikinAshiCandle (open_ high low close prev_open prev_close : α) : α × α × α × α :=
  let first := TFNum.eq prev_open (Arith.ofRat 0)
  let ha_close := if first then close else Arith.sum [close, low, high, open_] / Arith.ofRat 4
  let ha_open := if first then open_ else (prev_open + prev_close) / Arith.ofRat 2
  let ha_low := if first then low else Arith.redMin [low, ha_close, ha_open]
  let ha_high := if first then high else Arith.redMax [high, ha_close, ha_open]
  (ha_open, ha_high, ha_low, ha_close)

/-- finance/heikin_ashi.py:5-47 class `HeikinAshi` (scalars, because of the predicates). -/
def HeikinAshi : Operator α := streamable fun args => do
  arity 4 6 args
  let open_ ← req args 0 decS
  let high ← req args 1 decS
  let low ← req args 2 decS
  let close ← req args 3 decS
  let prev_open := (← opt args 4 decS).getD Arith.zero
  let prev_close := (← opt args 5 decS).getD Arith.zero
  let (o, h, l, c) := heikinAshiCandle open_ high low close prev_open prev_close
  .ok (.tup [vS o, vS h, vS l, vS c], .tup [vS open_, vS close], .tup [vS prev_open, vS prev_close])

/-! ### drawdown.py -/

/-- finance/drawdown.py:6 `ERROR = 0.0001`. -/
def drawdownError : ℚ := 1 / 10000

/-- finance/drawdown.py:15-28 the body of `Drawdown.step`: `(drawdown, new_peak, new_periods)`. -/
def drawdownStep (value last_peak : α) (last_periods : Int) : α × α × Int :=
  let new_peak := Arith.max value last_peak
  let new_periods :=
    if TFNum.lt (Arith.ofRat drawdownError) (Arith.abs (new_peak - last_peak)) then 0 else last_periods + 1
  let drawdown :=
    if TFNum.lt (Arith.abs last_peak) (Arith.ofRat drawdownError) then Arith.ofRat 0
    else Arith.min (Arith.ofRat 0) (value / last_peak - Arith.ofRat 1)
  (drawdown, new_peak, new_periods)

/-- finance/drawdown.py:8-28 class `Drawdown`. -/
def Drawdown : Operator α := streamable fun args => do
  arity 1 3 args
  let value ← req args 0 decS
  let last_peak := (← opt args 1 decS).getD (Arith.ofRat 0)
  let last_periods := (← opt args 2 decI).getD 0
  let (d, peak, periods) := drawdownStep value last_peak last_periods
  .ok (.tup [vS d, vI periods], .tup [vS peak, vI periods], .tup [vS last_peak, vI last_periods])

end TS
