import Verif.Model.Common
import Verif.Model.Meta
/-
finance/: moving_average, moving_standard_deviation, bollinger_bands, moving_average_crossover,
moving_average_convergence_divergence
-/
namespace TS
open PyVal
variable {α : Type} [TFNum α]

section
variable {E : Type} [Arith E]

/-- finance/moving_average.py:11-22 `SimpleMovingAverage.step`. -/
def smaStep (period : Int) (value : E) (iteration : Option Int) (prev_buffer : Option (List E)) :
    Res (E × (Int × List E) × (Int × List E)) := do
  let iteration := iteration.getD 0
  let prev_buffer ← match prev_buffer with
    | none => zerosBuf period
    | some b => pure b
  let new_buffer := roll value prev_buffer
  let new_value :=
    if iteration < period - 1 then Arith.zero else Arith.sum new_buffer / Arith.ofInt period
  .ok (new_value, (iteration + 1, new_buffer), (iteration, prev_buffer))

/-- finance/moving_standard_deviation.py:11-28 `MovingStandardDeviation.step`. -/
def msdStep (period : Int) (value : E) (iteration : Option Int) (prev_buffer : Option (List E)) :
    Res (E × (Int × List E) × (Int × List E)) := do
  let iteration := iteration.getD 0
  let prev_buffer ← match prev_buffer with
    | none => zerosBuf period
    | some b => pure b
  let next_buffer := roll value prev_buffer
  let sqrt_var := Arith.sqrt (Arith.moments next_buffer).2
  let volatility := if iteration < period - 1 then Arith.zero else sqrt_var
  .ok (volatility, (iteration + 1, next_buffer), (iteration, prev_buffer))

end

/-- Positional arguments `(value, iteration=None, prev_buffer=None)` of the two classes below (finance/moving_average.py:11, finance/moving_standard_deviation.py:10-28). -/
def bufferOp (step : {s : List Nat} → (Idx s → α) → Option Int → Option (List (Idx s → α)) →
    Res ((Idx s → α) × (Int × List (Idx s → α)) × (Int × List (Idx s → α)))) : Operator α :=
  streamable fun args => do
    arity 1 3 args
    let t ← req args 0 decF
    let (o, n, i) ← step t.val (← opt args 1 decI) (← opt args 2 (decBuf t.shape))
    .ok (vF o, .tup [vI n.1, vBuf n.2], .tup [vI i.1, vBuf i.2])

/-- finance/moving_average.py:6-22 class `SimpleMovingAverage`. -/
def SMA (period : Int) : Operator α := bufferOp (smaStep period)

/-- finance/moving_standard_deviation.py:6-28 class `MovingStandardDeviation`. -/
def MSD (period : Int) : Operator α := bufferOp (msdStep period)

/-- finance/moving_average.py:24-57 class `ExponentialMovingAverage`.  (For `period = -1` the
constructor raises ZeroDivisionError, line 28; not modelled.) -/
def EMA (period : Int) : Operator α := streamable fun args => do
  arity 1 4 args
  let k : ℚ := 2 / ((period : ℚ) + 1)                                             -- line 28
  let t ← req args 0 decF
  let iteration := (← opt args 1 decI).getD 0                                     -- lines 35-36
  let last_ema := (← opt args 2 (decFs t.shape)).getD fun _ => Arith.zero         -- lines 37-38
  let last_sma_state ← opt args 3 decAny
  let (sma, next_sma_state, sma_init) ← call (SMA period) (vF t.val) last_sma_state false  -- 40-41
  let last_sma_state := last_sma_state.getD sma_init                              -- lines 43-44
  let new_ema := t.val * Arith.ofRat k + last_ema * Arith.ofRat (1 - k)           -- line 46
  let (new_ema, new_sma_state) ← asPair (← tfCond (decide (iteration < period))   -- lines 48-52
    (.tup [sma, next_sma_state]) (.tup [vF new_ema, last_sma_state]))
  .ok (new_ema, .tup [vI (iteration + 1), new_ema, new_sma_state],                -- lines 53-57
    .tup [vI iteration, vF last_ema, last_sma_state])

/-- finance/moving_average.py:59-88 class `RollingMovingAverage`. -/
def RMA (period : Int) : Operator α := streamable fun args => do
  arity 1 4 args
  let t ← req args 0 decF
  let iteration := (← opt args 1 decI).getD 0                                     -- lines 66-67
  let last_rma := (← opt args 2 (decFs t.shape)).getD fun _ => Arith.zero         -- lines 68-69
  let last_sma_state ← opt args 3 decAny
  let (sma, next_sma_state, sma_init) ← call (SMA period) (vF t.val) last_sma_state false  -- 71-72
  let last_sma_state := last_sma_state.getD sma_init                              -- lines 74-75
  let new_rma := (last_rma * Arith.ofInt (period - 1) + t.val) / Arith.ofInt period  -- line 77
  let (new_rma, new_sma_state) ← asPair (← tfCond (decide (iteration < period))   -- lines 79-83
    (.tup [sma, next_sma_state]) (.tup [vF new_rma, last_sma_state]))
  .ok (new_rma, .tup [vI (iteration + 1), new_rma, new_sma_state],                -- lines 84-88
    .tup [vI iteration, vF last_rma, last_sma_state])

/-- finance/bollinger_bands.py:5-32 class `BollingerBands`. -/
def BollingerBands (n : Int) (k : ℚ) : Operator α := streamable fun args => do
  arity 1 3 args
  let value ← req args 0 decAny
  let prev_volatility_state ← opt args 1 decAny
  let prev_sma_state ← opt args 2 decAny
  let (sma, next_sma, sma_init) ← call (SMA n) value prev_sma_state false         -- lines 13-14
  let (vol, next_vol, vol_init) ← call (MSD n) value prev_volatility_state false  -- lines 16-17
  let t ← decF sma
  let v ← decFs t.shape vol
  let lower := t.val - v * Arith.ofRat k                                          -- line 20
  let upper := t.val + v * Arith.ofRat k                                          -- line 21
  .ok (.tup [vF lower, sma, vF upper], .tup [next_vol, next_sma], .tup [vol_init, sma_init])

/-- finance/moving_average_convergence_divergence.py:16-21 `_diff`. -/
def macdDiff {s : List Nat} (value1 value2 : Idx s → α) (iteration starting_iteration : Int) : Idx s → α :=
  if iteration < starting_iteration then fun _ => Arith.zero else value1 - value2

/-- finance/moving_average_convergence_divergence.py:6-68 class `MovingAverageConvergenceDivergence`. -/
def MACD (slow fast macd : Int) : Operator α := streamable fun args => do
  arity 1 5 args
  let t ← req args 0 decF
  let iteration := (← opt args 1 decI).getD 0                                     -- lines 26-27
  let ema_slow_state ← opt args 2 decAny
  let ema_fast_state ← opt args 3 decAny
  let ema_macd_state ← opt args 4 decAny
  let (ema_slow, new_slow, slow_init) ← call (EMA slow) (vF t.val) ema_slow_state false   -- 29-30
  let (ema_fast, new_fast, fast_init) ← call (EMA fast) (vF t.val) ema_fast_state false   -- 31-32
  let ema_slow ← decFs t.shape ema_slow
  let ema_fast ← decFs t.shape ema_fast
  let macdV := macdDiff ema_fast ema_slow iteration (slow - 1)                    -- lines 34-35
  let (ema_macd, new_macd, macd_init) ← call (EMA macd) (vF macdV) ema_macd_state false   -- 37-38
  let ema_macd_state := ema_macd_state.getD macd_init                             -- lines 40-41
  let (signal, new_macd) ← asPair (← tfCond (decide (iteration < slow - 1))       -- lines 43-47
    (.tup [vF (s := t.shape) fun _ => Arith.zero, ema_macd_state]) (.tup [ema_macd, new_macd]))
  let signal ← decFs t.shape signal
  let histogram := macdDiff macdV signal iteration (slow + macd - 2)              -- lines 49-50
  .ok (.tup [vF ema_slow, vF ema_fast, vF macdV, vF signal, vF histogram],
    .tup [vI (iteration + 1), new_slow, new_fast, new_macd],
    .tup [vI iteration, slow_init, fast_init, macd_init])

/-- finance/moving_average_crossover.py:9-21 `SimpleMovingAverageCrossover(slow, fast)`. -/
def SMACrossover (slow fast : Int) : Operator α :=
  Compose [Sub,
    Join [Compose [SetDuring (.f (Tensor.scalar Arith.zero)) (slow - 1), SMA fast], SMA slow],
    Fork 2]

end TS
