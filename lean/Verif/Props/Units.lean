import Verif.Props.Averages
import Verif.Props.AveragesExact
import Verif.Props.Common
import Verif.Props.Returns
import Verif.Props.RSI
import Verif.Props.Moments
import Verif.Props.Correlation
import Verif.Props.Signals
import Verif.Props.Bands
import Verif.Props.Drawdown
import Verif.Props.RiskRatio
import Verif.Lemmas.Scale
/-
C58: changing the unit of the prices.
-/
namespace TS
open PyVal XR

theorem StreamsAs.commutes {α A B : Type} {op : Operator α} {ser : List A → Val α} {outs : List B → Val α} {y : List A → B} (h : StreamsAs op ser outs y)
    {f : A → A} {g : B → B} (e : ∀ l, y (l.map f) = g (y l)) : Commutes op ser outs f g := by
  intro xs hx
  obtain ⟨sf, s0, h1⟩ := h.at' hx
  obtain ⟨sf', s0', h2⟩ := h.at' (xs := xs.map f) (by simpa using hx)
  exact ⟨_, sf, s0, sf', s0', h1, by rw [h2, scan_of_map' e]⟩

/-! ### Outputs in the unit of the inputs -/

section
variable {K : Type} [Field K] [LinearOrder K] [IsStrictOrderedRing K] [Transc K] [FloorRing K] {c : K}

theorem scaleT_lin (hc : c ≠ 0) {s : List Nat} : Lin (scaleT (s := s) c) := (scale_lin hc).pointwise

/-- **C58 Change of unit**, exact arithmetic with infinities and NaN, every shape: multiplying the inputs by a positive number `c` multiplies the outputs of these
operators by `c`.  `SimpleMovingAverage`, -/
theorem C58_sma {p : Nat} (hp : 0 < p) (s : List Nat) (hc : 0 < c) : Commutes (SMA (p : Int)) (vBuf (s := s)) (vBuf (s := s)) (scaleT c) (scaleT c) :=
  (C25_sma hp s).commutes ((scaleT_lin hc.ne').movingAvg p)
example := C58_sma (K := ℚ) (c := 2) (p := 2) (by norm_num) [2] (by norm_num)

/-- `ExponentialMovingAverage`, -/
theorem C58_ema {p : Nat} (hp : 0 < p) (s : List Nat) (hc : 0 < c) : Commutes (EMA (p : Int)) (vBuf (s := s)) (vBuf (s := s)) (scaleT c) (scaleT c) :=
  (C26_ema hp s).commutes ((scaleT_lin hc.ne').expAvg p)
example := C58_ema (K := ℚ) (c := 2) (p := 2) (by norm_num) [2] (by norm_num)

/-- `RollingMovingAverage`, -/
theorem C58_rma {p : Nat} (hp : 0 < p) (s : List Nat) (hc : 0 < c) : Commutes (RMA (p : Int)) (vBuf (s := s)) (vBuf (s := s)) (scaleT c) (scaleT c) :=
  (C27_rma hp s).commutes ((scaleT_lin hc.ne').rollAvg p)
example := C58_rma (K := ℚ) (c := 2) (p := 2) (by norm_num) [2] (by norm_num)

/-- `MACD` (all five series), -/
theorem C58_macd {slow fast m : Nat} (h1 : 0 < slow) (h2 : 0 < fast) (h3 : 0 < m) (s : List Nat) (hc : 0 < c) :
    Commutes (MACD (slow : Int) fast m) (vBuf (s := s)) (vBuf5 (s := s)) (scaleT c)
      (Prod.map (scaleT c) (Prod.map (scaleT c) (Prod.map (scaleT c) (Prod.map (scaleT c) (scaleT c))))) :=
  have h := scaleT_lin (s := s) hc.ne'
  (C31_macd h1 h2 h3 s).commutes fun l => by simp only [macdAll, h.expAvg, h.macdLine, h.macdSignal, h.macdHist, Prod.map]
example := C58_macd (K := ℚ) (c := 2) (slow := 3) (fast := 2) (m := 2) (by norm_num) (by norm_num) (by norm_num) [2] (by norm_num)

/-- `SimpleMovingAverageCrossover`, -/
theorem C58_crossover {slow fast : Nat} (hs : 0 < slow) (hf : 0 < fast) (s : List Nat) (hc : 0 < c) :
    Commutes (SMACrossover (slow : Int) fast) (vBuf (s := s)) (vBuf (s := s)) (scaleT c) (scaleT c) :=
  (C32_crossover hs hf s).commutes ((scaleT_lin hc.ne').smaDiff slow fast)
example := C58_crossover (K := ℚ) (c := 2) (slow := 3) (fast := 2) (by norm_num) (by norm_num) [2] (by norm_num)

/-- `Lag`, -/
theorem C58_lag {p : Nat} (hp : 0 < p) (s : List Nat) (hc : 0 < c) : Commutes (Lag (p : Int)) (vBuf (s := s)) (vBuf (s := s)) (scaleT c) (scaleT c) :=
  (C17_lag_streams hp s).commutes ((scaleT_lin hc.ne').lagged p)
example := C58_lag (K := ℚ) (c := 2) (p := 2) (by norm_num) [2] (by norm_num)

/-- `Momentum`, -/
theorem C58_momentum {p : Nat} (hp : 0 < p) (s : List Nat) (hc : 0 < c) : Commutes (Momentum (p : Int)) (vBuf (s := s)) (vBuf (s := s)) (scaleT c) (scaleT c) :=
  (C19_momentum_streams hp s).commutes ((scaleT_lin hc.ne').momentum p)
example := C58_momentum (K := ℚ) (c := 2) (p := 2) (by norm_num) [2] (by norm_num)

/-- `GlobalMinimum`, -/
theorem C58_globalMin (hc : 0 < c) : Commutes GlobalMinimum vSBuf vSBuf (scale c) (scale c) := C20_global_min_streams.commutes (scale_pos hc).runMin
example := C58_globalMin (K := ℚ) (c := 2) (by norm_num)

/-- `GlobalMaximum`, -/
theorem C58_globalMax (hc : 0 < c) : Commutes GlobalMaximum vSBuf vSBuf (scale c) (scale c) := C20_global_max_streams.commutes (scale_pos hc).runMax
example := C58_globalMax (K := ℚ) (c := 2) (by norm_num)

/-- `LocalMinimum`, -/
theorem C58_localMin {p : Nat} (hp : 0 < p) (hc : 0 < c) : Commutes (LocalMinimum (p : Int)) vSBuf vSBuf (scale c) (scale c) :=
  (C21_local_min_streams hp).commutes fun l => by rw [window_of_map, (scale_pos hc).redMin]
example := C58_localMin (K := ℚ) (c := 2) (p := 2) (by norm_num) (by norm_num)

/-- `LocalMaximum`, -/
theorem C58_localMax {p : Nat} (hp : 0 < p) (hc : 0 < c) : Commutes (LocalMaximum (p : Int)) vSBuf vSBuf (scale c) (scale c) :=
  (C21_local_max_streams hp).commutes fun l => by rw [window_of_map, (scale_pos hc).redMax]
example := C58_localMax (K := ℚ) (c := 2) (p := 2) (by norm_num) (by norm_num)

/-- `AverageTrueRange`, -/
theorem C58_atr {p : Nat} (hp : 0 < p) (hc : 0 < c) : Commutes (ATR (p : Int)) candles vSBuf (CLH.map (scale c)) (scale c) :=
  (C43_atr_streams hp).commutes fun l => by rw [(scale_pos hc).trueRanges, (scale_pos hc).rollAvg]
example := C58_atr (K := ℚ) (c := 2) (p := 2) (by norm_num) (by norm_num)

/-- `HeikinAshi`. -/
theorem C58_heikinAshi (hc : 0 < c) : Commutes HeikinAshi candles4 candles4 (OHLC.map (scale c)) (OHLC.map (scale c)) :=
  C46_heikinAshi_streams.commutes fun l => by
    have e : OHLC.map (scale c) (noCandle (α := XR K)) = noCandle := by simp [OHLC.map, noCandle]
    rw [← (scale_pos hc).haCandle, ← getLastD_of_map (OHLC.map (scale c)), ← getLastD_of_map (OHLC.map (scale c)), e, List.map_dropLast]
example := C58_heikinAshi (K := ℚ) (c := 2) (by norm_num)

/-- `Supertrend`: in the new unit it streams exactly the series that it streams in the old one, and its output is multiplied by `c`. -/
theorem C58_supertrend {p : Nat} (hp : 0 < p) (factor : ℚ) (hc : 0 < c) {xs : List (CLH (XR K))} (hx : xs ≠ []) :
    ((∃ r, call (Supertrend (p : Int) factor) (candles (xs.map (CLH.map (scale c)))) none = .ok r) ↔
      ∃ r, call (Supertrend (p : Int) factor) (candles xs) none = .ok r) ∧
    ∀ os sf s0, call (Supertrend (p : Int) factor) (candles xs) none = .ok (vSBuf os, sf, s0) →
      ∃ sf' s0', call (Supertrend (p : Int) factor) (candles (xs.map (CLH.map (scale c)))) none = .ok (vSBuf (os.map (scale c)), sf', s0') := by
  have hx' : xs.map (CLH.map (scale c)) ≠ [] := by simpa using hx
  obtain ⟨h1, h2⟩ := C45_supertrend_streams (α := XR K) hp factor hx
  obtain ⟨h3, h4⟩ := C45_supertrend_streams (α := XR K) hp factor hx'
  have e : ∀ k, (bandsOf p factor ((xs.map (CLH.map (scale c))).take k)).isSome = (bandsOf p factor (xs.take k)).isSome := fun k => by
    rw [← List.map_take, (scale_pos hc).bandsOf, Option.isSome_map]
  have hiff : (∃ r, call (Supertrend (p : Int) factor) (candles (xs.map (CLH.map (scale c)))) none = .ok r) ↔
      ∃ r, call (Supertrend (p : Int) factor) (candles xs) none = .ok r := by
    rw [h1, h3]; simp only [e, List.length_map]
  refine ⟨hiff, fun os sf s0 h => ?_⟩
  obtain ⟨⟨o, sf', s0'⟩, h'⟩ := hiff.2 ⟨_, h⟩
  refine ⟨sf', s0', ?_⟩
  have e1 := h2 _ h
  have e2 := h4 _ h'
  dsimp only at e1 e2
  rw [h', e2]
  have : os = scan (fun h => ((bandsOf p factor h).getD noBands).line) [] xs := vSBuf_inj e1
  rw [this, scan_of_map' (g := scale c)]
  intro l
  rw [(scale_pos hc).bandsOf]
  cases bandsOf p factor l with
  | none => simp [noBands]
  | some b => rfl
example := C58_supertrend (K := ℚ) (c := 2) (p := 2) (by norm_num) 2 (by norm_num) (xs := [⟨.fin 9, .fin 8, .fin 10⟩, ⟨.fin 8, .fin 7, .fin 9⟩]) (by simp)

end

/-! ### Outputs without a unit -/

section
variable {K : Type} [Field K] [LinearOrder K] [IsStrictOrderedRing K] [Transc K] [FloorRing K] {c : K}

/-- Multiplying the inputs by `c > 0` does not change the outputs of: `Return`, -/
theorem C58_return {p : Nat} (hp : 0 < p) (hc : 0 < c) : Commutes (Return (p : Int)) vSBuf vSBuf (scale c) id :=
  (C37_return_streams (by simp) hp).commutes ((scale_pos hc).growth (fun a b => by rw [(scale_pos hc).ratio]) p)
example := C58_return (K := ℚ) (c := 2) (p := 2) (by norm_num) (by norm_num)

/-- `LogarithmicReturn`, -/
theorem C58_logReturn {p : Nat} (hp : 0 < p) (hc : 0 < c) : Commutes (LogReturn (p : Int)) vSBuf vSBuf (scale c) id :=
  (C37_logReturn_streams (by simp) hp).commutes ((scale_pos hc).growth (fun a b => by rw [(scale_pos hc).ratio]) p)
example := C58_logReturn (K := ℚ) (c := 2) (p := 2) (by norm_num) (by norm_num)

/-- `Volatility`, -/
theorem C58_volatility {m r : Nat} (hm : 0 < m) (hr : 0 < r) (hc : 0 < c) : Commutes (Volatility (m : Int) r) vSBuf vSBuf (scale c) id :=
  (C38_volatility_streams (by simp) hm hr).commutes ((scale_pos hc).volatility m r)
example := C58_volatility (K := ℚ) (c := 2) (m := 2) (r := 3) (by norm_num) (by norm_num) (by norm_num)

/-- `RelativeStrengthIndex`, -/
theorem C58_rsi {p : Nat} (hp : 0 < p) (hc : 0 < c) : Commutes (RSI (p : Int)) vSBuf vSBuf (scale c) id :=
  (C36_rsi_streams hp).commutes ((scale_pos hc).rsi p)
example := C58_rsi (K := ℚ) (c := 2) (p := 2) (by norm_num) (by norm_num)

/-- `ZeroCrossoverSignal`, -/
theorem C58_zeroCrossover (s : List Nat) (hc : 0 < c) : Commutes ZeroCrossoverSignal (vBuf (s := s)) (vIsBuf (s := s)) (scaleT c) id :=
  (C33_zero_crossover_streams s).commutes fun l => funext fun i => by
    have e : (l.map (scaleT c)).map (· i) = (l.map (· i)).map (scale c) := by simp [Function.comp_def, scaleT]
    simp only [e, (scale_pos hc).crossing, id_eq]
example := C58_zeroCrossover (K := ℚ) (c := 2) [2] (by norm_num)

/-- `SimpleMovingAverageCrossoverSignal`, -/
theorem C58_crossoverSignal {slow fast : Nat} (hs : 0 < slow) (hf : 0 < fast) (hc : 0 < c) : Commutes (SMACrossoverSignal (slow : Int) fast) vSBuf vIBuf (scale c) id :=
  (C34_sma_streams hs hf).commutes fun l => by
    simp only [smaSignal, List.length_map, scan_of_map' ((scale_pos hc).smaDiff slow fast), (scale_pos hc).crossing, id_eq]
example := C58_crossoverSignal (K := ℚ) (c := 2) (slow := 3) (fast := 2) (by norm_num) (by norm_num) (by norm_num)

/-- `MACDSignal`. -/
theorem C58_macdSignal {slow fast m : Nat} (hs : 0 < slow) (hf : 0 < fast) (hm : 0 < m) (hc : 0 < c) :
    Commutes (MACDSignal (slow : Int) fast m) vSBuf vIBuf (scale c) id :=
  (C34_macd_streams hs hf hm).commutes fun l => by
    simp only [macdTrade, List.length_map, scan_of_map' ((scale_pos hc).macdHist slow fast m), (scale_pos hc).crossing, id_eq]
example := C58_macdSignal (K := ℚ) (c := 2) (slow := 3) (fast := 2) (m := 2) (by norm_num) (by norm_num) (by norm_num) (by norm_num)

end

/-! ### Operators that take a square root: real numbers -/

section
variable {c : ℝ}

/-- `MovingStandardDeviation` is multiplied by `c`, -/
theorem C58_msd {p : Nat} (hp : 0 < p) (s : List Nat) (hc : 0 < c) : Commutes (MSD (p : Int)) (vBuf (s := s)) (vBuf (s := s)) (scaleT c) (scaleT c) :=
  (C29_msd_streams hp s).commutes ((scaleT_lin hc.ne').movingStd (fun _ => funext fun _ => scale_sqrt hc _) p)
example := C58_msd (c := 2) (p := 2) (by norm_num) [2] (by norm_num)

/-- so are the three series of `BollingerBands`; -/
theorem C58_bollinger {p : Nat} (hp : 0 < p) (k : ℚ) (s : List Nat) (hc : 0 < c) :
    Commutes (BollingerBands (p : Int) k) (vBuf (s := s)) (vBuf3 (s := s)) (scaleT c) (Prod.map (scaleT c) (Prod.map (scaleT c) (scaleT c))) :=
  have h := scaleT_lin (s := s) hc.ne'
  (C30_bollinger_streams hp k s).commutes fun l => by
    simp only [bands3, h.movingAvg, h.movingStd (fun _ => funext fun _ => scale_sqrt hc _), Prod.map, h.add, h.sub, h.mulr]
example := C58_bollinger (c := 2) (p := 2) (by norm_num) 2 [2] (by norm_num)

/-- `SharpeRatio` is unchanged (the risk-free rate is in the unit of the returns), -/
theorem C58_sharpe {p : Nat} (hp : 0 < p) (hc : 0 < c) : Commutes (SharpeRatio (p : Int)) vSBuf2 vSBuf (Prod.map (scale c) (scale c)) id :=
  (C39_sharpe_streams hp).commutes fun l => by
    have e : (l.map (Prod.map (scale c) (scale c))).map (fun z => z.1 - z.2) = (l.map fun z => z.1 - z.2).map (scale c) := by
      simp [Function.comp_def, (scale_pos hc).sub]
    rw [e, window_of_map, (scale_pos hc).sharpe (scale_sqrt hc)]; rfl
example := C58_sharpe (c := 2) (p := 2) (by norm_num) (by norm_num)

/-- so are `Skewness`, -/
theorem C58_skewness {p : Nat} (hp : 0 < p) (hc : 0 < c) : Commutes (Skewness (p : Int)) vSBuf vSBuf (scale c) id :=
  (skewness_streams hp).commutes fun l => by
    rw [window_of_map, id_eq]
    generalize window p l = w
    have h := scale_pos hc
    have e : (w.map (scale c)).map (fun x => Arith.pow x 3) = (((w.map fun x => Arith.pow x 3).map (scale c)).map (scale c)).map (scale c) := by
      simp only [List.map_map]
      exact List.map_congr_left fun x _ => h.pow x 3
    simp only [computeSkewness, h.moments, scale_sqrt hc, h.eq0, e, h.mean, h.pow, Function.iterate_succ, Function.iterate_zero, Function.comp_apply, id_eq,
      ← h.mulr, ← h.mull, ← h.sub, h.ratio]
example := C58_skewness (c := 2) (p := 2) (by norm_num) (by norm_num)

/-- `Correlation`, with a unit for each of the two series, -/
theorem C58_correlation {p : Nat} (hp : 0 < p) (s : List Nat) (hc : 0 < c) {d : ℝ} (hd : 0 < d) :
    Commutes (Correlation (p : Int)) (vBuf2 (s := s)) (vBuf (s := s)) (Prod.map (scaleT c) (scaleT d)) id :=
  (C41_correlation_streams hp s).commutes fun l => funext fun i => by
    rw [corrOf_apply, id_eq, corrOf_apply, ← (scale_pos hc).corrOf (scale_pos hd) (scale_sqrt hc) (scale_sqrt hd) p (l.map _), List.map_map, List.map_map]; rfl
example := C58_correlation (c := 2) (p := 2) (by norm_num) [2] (by norm_num) (d := 2) (by norm_num)

/-- `CrossCorrelation`, likewise, -/
theorem C58_crossCorrelation {p lag : Nat} (hp : 0 < p) (hl : 0 < lag) (s : List Nat) (hc : 0 < c) {d : ℝ} (hd : 0 < d) :
    Commutes (CrossCorrelation (p : Int) lag) (vBuf2 (s := s)) (vBuf (s := s)) (Prod.map (scaleT c) (scaleT d)) id :=
  (C42_cross_streams hp hl s).commutes fun l => funext fun i => by
    rw [crossOf, lagPairs_of_map, corrOf_apply, id_eq, crossOf, corrOf_apply, ← (scale_pos hc).corrOf (scale_pos hd) (scale_sqrt hc) (scale_sqrt hd) p ((lagPairs lag l).map _), List.map_map, List.map_map]; rfl
example := C58_crossCorrelation (c := 2) (p := 2) (lag := 1) (by norm_num) (by norm_num) [2] (by norm_num) (d := 2) (by norm_num)

/-- and `AutoCorrelation`. -/
theorem C58_autoCorrelation {p lag : Nat} (hp : 0 < p) (hl : 0 < lag) (s : List Nat) (hc : 0 < c) :
    Commutes (AutoCorrelation (p : Int) lag) (vBuf (s := s)) (vBuf (s := s)) (scaleT c) id :=
  (C42_auto_streams hp hl s).commutes fun l => funext fun i => by
    have e : (l.map (scaleT c)).map (fun x => (x, x)) = (l.map fun x => (x, x)).map (Prod.map (scaleT c) (scaleT c)) := by simp [Function.comp_def]
    rw [e, crossOf, lagPairs_of_map, corrOf_apply, id_eq, crossOf, corrOf_apply, ← (scale_pos hc).corrOf (scale_pos hc) (scale_sqrt hc) (scale_sqrt hc) p ((lagPairs lag _).map _), List.map_map, List.map_map]; rfl
example := C58_autoCorrelation (c := 2) (p := 2) (lag := 1) (by norm_num) (by norm_num) [2] (by norm_num)

/-- the quote in another unit; the signal has none -/
def RRIn.map {α : Type} (f : α → α) (x : RRIn α) : RRIn α := ⟨f x.low, f x.high, f x.close, x.signal⟩

/-- an output in another unit: only the volatility has one -/
def RROut.map {α : Type} (f : α → α) (x : RROut α) : RROut α := ⟨x.successful, x.total, f x.volatility, x.signal⟩

/-- the state in another unit -/
def RRState.map {α : Type} (f : α → α) (x : RRState α) : RRState α := ⟨f x.stop, f x.limit, f x.buy, x.duration, x.successful, x.total⟩

theorem Pos.rrStep {α : Type} [TFNum α] {φ : α → α} (h : Pos φ) (q : RRParams) (low high close : α) (b : Bool) (vol : α) (st : RRState α) :
    rrStep q (φ low) (φ high) (φ close) b (φ vol) (st.map φ) = Prod.map (RRState.map φ) id (rrStep q low high close b vol st) := by
  rw [rrStep_eq, rrStep_eq]
  simp only [RRState.map, h.eq0, h.le, h.lt, ← h.mull, ← h.sub, ← h.add]
  split_ifs <;> simp [RRState.map, h.zero']

theorem Pos.rrOf {α : Type} [TFNum α] {φ : α → α} (h : Pos φ) (hs : ∀ x, Arith.sqrt (φ (φ x)) = φ (Arith.sqrt x)) (q : RRParams) (p : Nat) (l : List (RRIn α)) :
    rrOf q p (l.map (RRIn.map φ)) = Prod.map (RRState.map φ) id (rrOf q p l) := by
  induction l using List.reverseRecOn with
  | nil => simp [TS.rrOf, rrRev, RRState.map, h.zero']
  | append_singleton l x ih =>
    have e : (l.map (RRIn.map φ) ++ [x.map φ]).map RRIn.close = ((l ++ [x]).map RRIn.close).map φ := by simp [RRIn.map, Function.comp_def]
    rw [List.map_append, List.map_cons, List.map_nil, rrOf_snoc, rrOf_snoc, ih, e, h.movingStd hs, ← h.rrStep]
    rfl

/-- `RiskRatioEvaluator`: the volatility is multiplied by `c`, the counters and the signals are unchanged. -/
theorem C58_riskRatio {q : RRParams} {p : Nat} (hp : 0 < p) (hq : q.volatility_period = p) (hc : 0 < c) {v v' : Val (XR ℝ)} {l : List (RRIn (XR ℝ))}
    (hv : Quotes v l) (hv' : Quotes v' (l.map (RRIn.map (scale c)))) (hl : l ≠ []) :
    ∃ (os : List (RROut (XR ℝ))) (sf s0 sf' s0' : Val (XR ℝ)), call (RiskRatioEvaluator q) v none = .ok (rrOuts os, sf, s0) ∧
      call (RiskRatioEvaluator q) v' none = .ok (rrOuts (os.map (RROut.map (scale c))), sf', s0') := by
  obtain ⟨os, sf, s0, h1, h2, h3⟩ := rr_call hp hq hv hl
  obtain ⟨os', sf', s0', h1', h2', h3'⟩ := rr_call hp hq hv' (by simpa using hl)
  refine ⟨os, sf, s0, sf', s0', h1, ?_⟩
  rw [h1']
  have e : os' = os.map (RROut.map (scale c)) := by
    apply List.ext_getElem
    · simp [h2, h2']
    · intro i hi hi'
      rw [h3' i (by omega), List.getElem_map, h3 i (by simpa [h2'] using hi), ← List.map_take]
      have e : ∀ l : List (RRIn (XR ℝ)), (l.map (RRIn.map (scale c))).map RRIn.close = (l.map RRIn.close).map (scale c) := fun l => by simp [RRIn.map, Function.comp_def]
      simp only [rrY, RROut.map, (scale_pos hc).rrOf (scale_sqrt hc), e, (scale_pos hc).movingStd (scale_sqrt hc), Prod.map, RRState.map, id_eq]
  rw [e]
example := C58_riskRatio (c := 2) (q := ⟨1, 2, 2, some 3⟩) (p := 2) (by norm_num) rfl (by norm_num) (l := [⟨.fin 2, .fin 2, .fin 2, .inr 0⟩, ⟨.fin 1, .fin 1, .fin 1, .inr 1⟩])
  ⟨_, rfl, .inr ⟨[0, 1], rfl, rfl⟩⟩ ⟨_, rfl, .inr ⟨[0, 1], rfl, rfl⟩⟩ (by simp)

end

/-! ### Drawdown -/

/-- **Drawdown depends on the unit**: it compares prices with the absolute threshold 0.0001, so that in a coarser unit a loss of one half is not seen any more. -/
theorem C59_drawdown_unit :
    output (call (Drawdown (α := XR ℚ)) (series [1, 1 / 2]) none) = .ok (.tup [series [0, -1 / 2], vIBuf [0, 1]]) ∧
    output (call (Drawdown (α := XR ℚ)) (series ([1, 1 / 2].map fun x => 1 / 20000 * x)) none) = .ok (.tup [series [0, 0], vIBuf [1, 2]]) :=
  ⟨by decide +kernel, by decide +kernel⟩
example := C59_drawdown_unit

section
variable {K : Type} [Field K] [LinearOrder K] [IsStrictOrderedRing K] [Transc K] [FloorRing K] {c : K}

theorem peakK_scale (hc : 0 < c) (l : List K) : peakK (l.map fun x => c * x) = c * peakK l := by
  induction l using List.reverseRecOn with
  | nil => simp [peakK]
  | append_singleton l x ih => rw [List.map_append, List.map_cons, List.map_nil, peakK_snoc, peakK_snoc, ih, mul_max_of_nonneg _ _ hc.le]

/-- **C59 Drawdown and the unit of the prices**: the losses are the same in both units when the first price is at least 0.0001 in both. -/
theorem C59_drawdown_losses (hc : 0 < c) {x : K} {xs : List K} (h1 : 1 / 10000 ≤ x) (h2 : 1 / 10000 ≤ c * x) :
    ∃ (os : List K) (ds ds' : List Int) (sf s0 sf' s0' : Val (XR K)), call Drawdown (finSeries (x :: xs)) none = .ok (.tup [finSeries os, vIBuf ds], sf, s0) ∧
      call Drawdown (finSeries ((x :: xs).map fun x => c * x)) none = .ok (.tup [finSeries os, vIBuf ds'], sf', s0') := by
  obtain ⟨os, sf, s0, g1, hl, g2⟩ := (dd_reals (K := K)).at (xs := x :: xs) (by simp)
  obtain ⟨os', sf', s0', g1', hl', g2'⟩ := (dd_reals (K := K)).at (xs := (x :: xs).map fun x => c * x) (by simp)
  rw [numInts_fin] at g1 g1'
  refine ⟨os.map Prod.fst, os.map Prod.snd, os'.map Prod.snd, sf, s0, sf', s0', g1, ?_⟩
  have e : os'.map Prod.fst = os.map Prod.fst := by
    apply List.ext_getElem
    · rw [List.length_map, List.length_map, hl, hl', List.length_map]
    · intro i hi hi'
      simp only [List.length_map] at hi hi'
      have hi0 : i < (x :: xs).length := by omega
      rw [List.getElem_map, List.getElem_map, g2 i hi0, g2' i (by simpa using hi0), ddK, ddK, ← List.map_take, ← List.map_dropLast, peakK_scale hc]
      have el : (((x :: xs).take (i + 1)).map fun x => c * x).getLastD 0 = c * ((x :: xs).take (i + 1)).getLastD 0 := by
        have := getLastD_of_map (fun x : K => c * x) 0 ((x :: xs).take (i + 1))
        rwa [mul_zero] at this
      rw [el]
      generalize ((x :: xs).take (i + 1)).getLastD 0 = y
      cases i with
      | zero => simp [peakK, drawdownK]
      | succ i =>
        have hm : x ∈ ((x :: xs).take (i + 1 + 1)).dropLast := by
          rw [List.take_succ_eq_append_getElem hi0, List.dropLast_concat, List.take_succ_cons]; simp
        have hx : x ≤ peakK ((x :: xs).take (i + 1 + 1)).dropLast := (peakK_greatest _).2 (.inr hm)
        generalize peakK ((x :: xs).take (i + 1 + 1)).dropLast = k at hx
        have hk : 0 < k := lt_of_lt_of_le (by positivity) (h1.trans hx)
        have hk1 : ¬ |k| < 1 / 10000 := by rw [abs_of_pos hk, not_lt]; exact h1.trans hx
        have hk2 : ¬ |c * k| < 1 / 10000 := by
          rw [abs_of_pos (mul_pos hc hk), not_lt]; exact h2.trans (mul_le_mul_of_nonneg_left hx hc.le)
        rw [drawdownK, drawdownK, if_neg hk1, if_neg hk2, mul_div_mul_left _ _ hc.ne']
  rw [g1', ← e]
example := C59_drawdown_losses (K := ℚ) (c := 2) (by norm_num) (x := 5) (xs := [3, 1, 4]) (by norm_num) (by norm_num)

theorem daysK_scale (hc : 0 < c) {l : List K}
    (h : ∀ x older, (x :: older) <:+ l → (1 / 10000 < x - peakK older.reverse ↔ 1 / 10000 < c * (x - peakK older.reverse))) : daysK (l.map fun x => c * x) = daysK l := by
  induction l with
  | nil => rfl
  | cons x l ih =>
    have h0 := h x l (List.suffix_refl _)
    rw [List.map_cons, daysK, daysK, ih fun y older hs => h y older (hs.trans (List.suffix_cons _ _)), ← List.map_reverse, peakK_scale hc, ← mul_max_of_nonneg _ _ hc.le, ← mul_sub]
    have hn : 0 ≤ max x (peakK l.reverse) - peakK l.reverse := sub_nonneg.2 (le_max_right _ _)
    rw [abs_of_nonneg hn, abs_of_nonneg (mul_nonneg hc.le hn)]
    congr 1
    rcases le_total x (peakK l.reverse) with hle | hle
    · rw [max_eq_right hle, sub_self, mul_zero]
    · rw [max_eq_left hle]; exact propext h0.symm

/-- **C59, both outputs** are the same in both units when the first price is at least 0.0001 in both, and every price exceeds the maximum `m` of zero and the prices before it
by more than 0.0001 in one unit exactly if it does in the other. -/
theorem C59_drawdown_same (hc : 0 < c) {x : K} {xs : List K} (h1 : 1 / 10000 ≤ x) (h2 : 1 / 10000 ≤ c * x)
    (h3 : ∀ i (hi : i < (x :: xs).length) m, IsGreatest {y | y = 0 ∨ y ∈ (x :: xs).take i} m → (1 / 10000 < (x :: xs)[i] - m ↔ 1 / 10000 < c * ((x :: xs)[i] - m))) :
    ∃ (o sf s0 sf' s0' : Val (XR K)), call Drawdown (finSeries (x :: xs)) none = .ok (o, sf, s0) ∧ call Drawdown (finSeries ((x :: xs).map fun x => c * x)) none = .ok (o, sf', s0') := by
  obtain ⟨os, ds, ds', sf, s0, sf', s0', g1, g2⟩ := C59_drawdown_losses hc h1 h2 (xs := xs)
  obtain ⟨sf1, s01, k1⟩ := (dd_reals (K := K)).at' (xs := x :: xs) (by simp)
  obtain ⟨sf2, s02, k2⟩ := (dd_reals (K := K)).at' (xs := (x :: xs).map fun x => c * x) (by simp)
  rw [numInts_fin] at k1 k2
  rw [g1] at k1
  rw [g2] at k2
  simp only [Except.ok.injEq, Prod.mk.injEq, finInts] at k1 k2
  have e1 := k1.1
  have e2 := k2.1
  have hd : ds' = ds := by
    simp only [PyVal.tup, PyVal.node.injEq, List.cons.injEq, and_true, true_and] at e1 e2
    rw [vIBuf_inj e1.2, vIBuf_inj e2.2]
    simp only [scan, List.map_map, List.length_map, List.nil_append]
    refine List.map_congr_left fun i hi => ?_
    simp only [Function.comp_def, ddK]
    rw [← List.map_take, ← List.map_reverse]
    refine daysK_scale hc fun y older hs => ?_
    obtain ⟨pre, hpre⟩ := hs
    have hrev : (x :: xs).take (i + 1) = older.reverse ++ [y] ++ pre.reverse := by
      have := congrArg List.reverse hpre
      rw [List.reverse_reverse] at this
      rw [← this]; simp
    have hxs : x :: xs = older.reverse ++ [y] ++ (pre.reverse ++ (x :: xs).drop (i + 1)) := by
      rw [← List.append_assoc, ← hrev, List.take_append_drop]
    have hlt : older.reverse.length < (x :: xs).length := by rw [hxs]; simp
    have := h3 older.reverse.length hlt (peakK older.reverse) (by
      have ht : (x :: xs).take older.reverse.length = older.reverse := by
        rw [hxs, List.append_assoc, List.take_left]
      rw [ht]; exact peakK_greatest _)
    have hy : (x :: xs)[older.reverse.length]'hlt = y := by
      have : (x :: xs)[older.reverse.length]? = some y := by
        rw [hxs, List.append_assoc, List.getElem?_append_right (le_refl _)]; simp
      rw [List.getElem?_eq_getElem hlt] at this
      exact Option.some.inj this
    rwa [hy] at this
  subst hd
  exact ⟨_, sf, s0, sf', s0', g1, g2⟩

/-- Prices 100, 50, 101 in two units: the first price and the rises are above the threshold in both. -/
example : output (call (Drawdown (α := XR ℚ)) (series [100, 50, 101]) none) = output (call (Drawdown (α := XR ℚ)) (series ([100, 50, 101].map fun x => 1 / 100 * x)) none) := by
  exact (by decide +kernel : output (call (Drawdown (α := XR ℚ)) (series [100, 50, 101]) none) = output (call (Drawdown (α := XR ℚ)) (series ([100, 50, 101].map fun x => 1 / 100 * x)) none))

/-- **C59 There is no other unit in which all drawdowns are the same.** -/
theorem C59_drawdown_iff (hc : 0 < c) : (∀ xs : List K, xs ≠ [] → (∀ x ∈ xs, 0 < x) → ∃ (o sf s0 sf' s0' : Val (XR K)),
      call Drawdown (finSeries xs) none = .ok (o, sf, s0) ∧ call Drawdown (finSeries (xs.map fun x => c * x)) none = .ok (o, sf', s0')) ↔ c = 1 := by
  constructor
  · intro h
    by_contra hne
    have hdd : ∀ x : K, 0 < x → ∃ (ds : Int × Int) (sf s0 : Val (XR K)), call Drawdown (finSeries [x, x / 2]) none = .ok (finInts [(0, ds.1), (if x < 1 / 10000 then 0 else -(1 / 2), ds.2)], sf, s0) := by
      intro x hx
      obtain ⟨sf, s0, k⟩ := (dd_reals (K := K)).at' (xs := [x, x / 2]) (by simp)
      rw [numInts_fin] at k
      refine ⟨(daysK [x], daysK [x / 2, x]), sf, s0, ?_⟩
      rw [k]
      have h1 : x / 2 / x - 1 = -(1 / 2) := by field_simp; norm_num
      have h2 : min (0 : K) (-(1 / 2)) = -(1 / 2) := min_eq_right (by norm_num)
      simp [scan, List.range_succ, ddK, peakK, drawdownK, max_eq_left hx.le, abs_of_pos hx, h1, h2]
    have key : ∀ a : K, 0 < a → a < 1 → ∀ o sf s0 sf' s0' : Val (XR K), call Drawdown (finSeries [1 / 10000, 1 / 10000 / 2]) none = .ok (o, sf, s0) →
        call Drawdown (finSeries [a * (1 / 10000), a * (1 / 10000) / 2]) none = .ok (o, sf', s0') → False := by
      intro a h0 ha o sf s0 sf' s0' k1 k2
      obtain ⟨ds, t1, t2, k3⟩ := hdd (1 / 10000) (by positivity)
      obtain ⟨ds', t3, t4, k4⟩ := hdd (a * (1 / 10000)) (by positivity)
      rw [k1] at k3
      rw [k2, if_pos (by nlinarith)] at k4
      rw [if_neg (lt_irrefl _)] at k3
      simp only [Except.ok.injEq, Prod.mk.injEq] at k3 k4
      have e := k3.1.symm.trans k4.1
      simp only [finInts, PyVal.tup, PyVal.node.injEq, List.cons.injEq, and_true, true_and] at e
      have := finSeries_inj e.1
      simp at this
    rcases lt_or_gt_of_ne hne with h1 | h1
    · obtain ⟨o, sf, s0, sf', s0', k1, k2⟩ := h [1 / 10000, 1 / 10000 / 2] (by simp) (by simp)
      refine key c hc h1 o sf s0 sf' s0' k1 ?_
      rw [← k2]; congr 2; simp [mul_div_assoc]
    · have hd : c * (c⁻¹ * (1 / 10000)) = 1 / 10000 := by field_simp
      obtain ⟨o, sf, s0, sf', s0', k1, k2⟩ := h [c⁻¹ * (1 / 10000), c⁻¹ * (1 / 10000) / 2] (by simp) (by
        have : 0 < c⁻¹ * (1 / 10000) := by positivity
        intro x hx
        rcases List.mem_cons.1 hx with rfl | hx
        · exact this
        · rw [List.mem_singleton.1 hx]; linarith)
      refine key c⁻¹ (inv_pos.2 hc) (inv_lt_one_of_one_lt₀ h1) o sf' s0' sf s0 ?_ k1
      have hd' : c * (c⁻¹ * (1 / 10000) / 2) = 1 / 10000 / 2 := by rw [← mul_div_assoc, hd]
      rw [← k2, List.map_cons, List.map_cons, List.map_nil, hd, hd']
  · rintro rfl xs hx _
    obtain ⟨sf, s0, k⟩ := (dd_reals (K := K)).at' hx
    exact ⟨_, sf, s0, sf, s0, k, by simpa using k⟩

example : output (call (Drawdown (α := XR ℚ)) (series [10, 5, 8, 20]) none) = .ok (.tup [series [0, -1 / 2, -1 / 5, 0], vIBuf [0, 1, 2, 0]]) ∧
    output (call (Drawdown (α := XR ℚ)) (series ([10, 5, 8, 20].map fun x => 1 / 1000 * x)) none) = .ok (.tup [series [0, -1 / 2, -1 / 5, 0], vIBuf [0, 1, 2, 0]]) :=
  ⟨by decide +kernel, by decide +kernel⟩

end

/-- Two of the operators on a series with an infinity, in two units. -/
example : output (call (RSI 2) (vSBuf [.fin 3, .fin 5, .fin 4, .fin 8, XR.pinf] : Val (XR ℚ)) none) =
      output (call (RSI 2) (vSBuf ([.fin 3, .fin 5, .fin 4, .fin 8, XR.pinf].map (scale 2)) : Val (XR ℚ)) none) ∧
    output (call (SMA 2) (vSBuf [.fin 3, .fin 5, XR.pinf, .fin 8] : Val (XR ℚ)) none) = .ok (vSBuf [.fin 0, .fin 4, XR.pinf, XR.pinf]) ∧
    output (call (SMA 2) (vSBuf ([.fin 3, .fin 5, XR.pinf, .fin 8].map (scale 3)) : Val (XR ℚ)) none) = .ok (vSBuf [.fin 0, .fin 12, XR.pinf, XR.pinf]) :=
  ⟨by decide +kernel, by decide +kernel, by decide +kernel⟩

end TS
