import Verif.Spec.Handover
import Verif.Props.Bands
import Verif.Props.Correlation
import Verif.Props.Windows
import Verif.Props.AveragesExact
import Verif.Lemmas.Typed
import Verif.Lemmas.TrackCorr
/-
C89: the states of operators contain the states of their parts.
-/
namespace TS
open PyVal

section
variable {α A B C : Type}

theorem provides_of {op part : Operator α} {enc : A → Val α} {out st : List A → Val α} (T : Tracks op Any enc out st)
    {ser : List A → Val α} (hs : ∀ l, (ser l).WF ∧ flatten (ser l) ≠ [] ∧ IsSeries (ser l) (l.map enc))
    {enc' : B → Val α} {out' st' : List B → Val α} (T' : Tracks part Any enc' out' st')
    {ser' : List B → Val α} (hs' : ∀ l, (ser' l).WF ∧ flatten (ser' l) ≠ [] ∧ IsSeries (ser' l) (l.map enc'))
    {outs : List C → Val α} {dec : C → Val α} (ho : ∀ l, IsSeries (outs l) (l.map dec)) {y : List B → C} (hy : ∀ h, out' h = dec (y h))
    {sel : Val α → Option (Val α)} {g : List A → List B} (e : ∀ h, sel (st h) = some (st' (g h))) : Provides op ser sel part ser' outs g := by
  intro xs hx
  obtain ⟨z, h1, _⟩ := T.call_fresh hx (fun _ _ _ => trivial) (hs xs).1 (hs xs).2.1 (hs xs).2.2
  refine ⟨z, _, _, _, h1, e xs, fun ys hys => ⟨scan y [] (g xs), scan y (g xs) ys, st' (g xs ++ ys), st' [], ?_, by simp, by simp, ?_⟩⟩
  · have h2 := T'.eval (z := outs (scan y [] (g xs ++ ys))) (xs := g xs ++ ys) (by simp [hys]) (fun _ _ _ => trivial) (hs' _).1 (hs' _).2.1 (hs' _).2.2 (by
      have := ho (scan y [] (g xs ++ ys))
      rw [scan_map] at this
      rwa [show out' = fun k => dec (y k) from funext hy])
    rw [scan_append, List.nil_append] at h2
    exact h2
  · exact T'.eval_resume hys (fun _ _ _ => trivial) (hs' ys).1 (hs' ys).2.1 (hs' ys).2.2 (by
      have := ho (scan y (g xs) ys)
      rw [scan_map] at this
      rwa [show out' = fun k => dec (y k) from funext hy])

end

variable {α : Type} [TFNum α] {s : List Nat}

theorem smaS_tracks {p : Nat} (hp : 0 < p) : Tracks (SMA (p : Int) : Operator α) Any vS (fun h => vS (movingAvg p h)) (retState p) :=
  ((sma_tracks (α := α) hp []).comap pt).congr (fun h _ => congrArg vF (movingAvg_pt p h)) fun h => by rw [retState, vSBuf_padded, bufState, List.length_map]

/-- **C89 SimpleMovingAverage and MovingStandardDeviation** have the same states. -/
theorem C89_sma_msd {p : Nat} (hp : 0 < p) : Provides (SMA (p : Int) : Operator α) (vBuf (s := s)) some (MSD (p : Int)) vBuf (vBuf (s := s)) id :=
  provides_of (sma_tracks hp s) rows_ok (msd_tracks hp s) rows_ok isSeries_vBuf (fun _ => rfl) fun _ => rfl
example := C89_sma_msd (α := XR ℚ) (s := [2]) (p := 2) (by norm_num)

theorem C89_msd_sma {p : Nat} (hp : 0 < p) : Provides (MSD (p : Int) : Operator α) (vBuf (s := s)) some (SMA (p : Int)) vBuf (vBuf (s := s)) id :=
  provides_of (msd_tracks hp s) rows_ok (sma_tracks hp s) rows_ok isSeries_vBuf (fun _ => rfl) fun _ => rfl
example := C89_msd_sma (α := XR ℚ) (s := [2]) (p := 2) (by norm_num)

/-- `BollingerBands`: the states of its deviation and its average; -/
theorem C89_bollinger {p : Nat} (hp : 0 < p) (k : ℚ) : Provides (BollingerBands (p : Int) k : Operator α) (vBuf (s := s)) (item 0) (MSD (p : Int)) vBuf (vBuf (s := s)) id ∧
    Provides (BollingerBands (p : Int) k : Operator α) (vBuf (s := s)) (item 1) (SMA (p : Int)) vBuf (vBuf (s := s)) id :=
  ⟨provides_of (bollinger_tracks hp k s) rows_ok (msd_tracks hp s) rows_ok isSeries_vBuf (fun _ => rfl) fun _ => rfl,
    provides_of (bollinger_tracks hp k s) rows_ok (sma_tracks hp s) rows_ok isSeries_vBuf (fun _ => rfl) fun _ => rfl⟩
example := C89_bollinger (α := XR ℚ) (s := [2]) (p := 2) (by norm_num) 2

/-- `ExponentialMovingAverage` and `RollingMovingAverage`: the state of the simple average over the first `p` samples; -/
theorem C89_ema {p : Nat} (hp : 0 < p) : Provides (EMA (p : Int) : Operator α) (vBuf (s := s)) (item 2) (SMA (p : Int)) vBuf (vBuf (s := s)) (List.take p) :=
  provides_of (ema_tracks hp s) rows_ok (sma_tracks hp s) rows_ok isSeries_vBuf (fun _ => rfl) fun _ => rfl
example := C89_ema (α := XR ℚ) (s := [2]) (p := 2) (by norm_num)

theorem C89_rma {p : Nat} (hp : 0 < p) : Provides (RMA (p : Int) : Operator α) (vBuf (s := s)) (item 2) (SMA (p : Int)) vBuf (vBuf (s := s)) (List.take p) :=
  provides_of (rma_tracks hp s) rows_ok (sma_tracks hp s) rows_ok isSeries_vBuf (fun _ => rfl) fun _ => rfl
example := C89_rma (α := XR ℚ) (s := [2]) (p := 2) (by norm_num)

/-- `MovingAverageConvergenceDivergence`: the states of its two averages and of the signal line over the macd line; -/
theorem C89_macd {slow fast m : Nat} (h1 : 0 < slow) (h2 : 0 < fast) (h3 : 0 < m) :
    Provides (MACD (slow : Int) fast m : Operator α) (vBuf (s := s)) (item 1) (EMA (slow : Int)) vBuf (vBuf (s := s)) id ∧
    Provides (MACD (slow : Int) fast m : Operator α) (vBuf (s := s)) (item 2) (EMA (fast : Int)) vBuf (vBuf (s := s)) id ∧
    Provides (MACD (slow : Int) fast m : Operator α) (vBuf (s := s)) (item 3) (EMA (m : Int)) vBuf (vBuf (s := s)) (macdHistory slow fast) :=
  ⟨provides_of (macd_tracks h1 h2 h3 s) rows_ok (ema_tracks h1 s) rows_ok isSeries_vBuf (fun _ => rfl) fun _ => rfl,
    provides_of (macd_tracks h1 h2 h3 s) rows_ok (ema_tracks h2 s) rows_ok isSeries_vBuf (fun _ => rfl) fun _ => rfl,
    provides_of (macd_tracks h1 h2 h3 s) rows_ok (ema_tracks h3 s) rows_ok isSeries_vBuf (fun _ => rfl) fun _ => rfl⟩
example := C89_macd (α := XR ℚ) (s := [2]) (slow := 3) (fast := 2) (m := 2) (by norm_num) (by norm_num) (by norm_num)

/-- `Correlation`: the states of a moving average of each series; -/
theorem C89_correlation {p : Nat} (hp : 0 < p) :
    Provides (Correlation (p : Int) : Operator α) (vBuf2 (s := s)) (items 0 1) (SMA (p : Int)) vBuf (vBuf (s := s)) (List.map Prod.fst) ∧
    Provides (Correlation (p : Int) : Operator α) (vBuf2 (s := s)) (items 0 2) (SMA (p : Int)) vBuf (vBuf (s := s)) (List.map Prod.snd) :=
  ⟨provides_of (corr_tracks hp s) pairs_ok (sma_tracks hp s) rows_ok isSeries_vBuf (fun _ => rfl) fun _ => by simp [items, item, corrState, bufState, PyVal.tup],
    provides_of (corr_tracks hp s) pairs_ok (sma_tracks hp s) rows_ok isSeries_vBuf (fun _ => rfl) fun _ => by simp [items, item, corrState, bufState, PyVal.tup]⟩
example := C89_correlation (α := XR ℚ) (s := [2]) (p := 2) (by norm_num)

/-- `CrossCorrelation`: the states of the correlation of the shifted series and of the lag of the second one; `AutoCorrelation` that of the cross-correlation of the series with itself; -/
theorem C89_cross {p lag : Nat} (hp : 0 < p) (hl : 0 < lag) :
    Provides (CrossCorrelation (p : Int) lag : Operator α) (vBuf2 (s := s)) (item 1) (Correlation (p : Int)) vBuf2 (vBuf (s := s)) (lagPairs lag) ∧
    Provides (CrossCorrelation (p : Int) lag : Operator α) (vBuf2 (s := s)) (item 2) (Lag (lag : Int)) vBuf (vBuf (s := s)) (List.map Prod.snd) :=
  ⟨provides_of (cross_tracks hp hl s) pairs_ok (corr_tracks hp s) pairs_ok isSeries_vBuf (fun _ => rfl) fun _ => rfl,
    provides_of (cross_tracks hp hl s) pairs_ok (lag_tracks hl s) rows_ok isSeries_vBuf (fun _ => rfl) fun _ => rfl⟩
example := C89_cross (α := XR ℚ) (s := [2]) (p := 2) (lag := 1) (by norm_num) (by norm_num)

theorem C89_auto {p lag : Nat} (hp : 0 < p) (hl : 0 < lag) :
    Provides (AutoCorrelation (p : Int) lag : Operator α) (vBuf (s := s)) (item 0) (CrossCorrelation (p : Int) lag) vBuf2 (vBuf (s := s)) (List.map fun x => (x, x)) :=
  provides_of (auto_tracks hp hl s) rows_ok (cross_tracks hp hl s) pairs_ok isSeries_vBuf (fun _ => rfl) fun _ => rfl
example := C89_auto (α := XR ℚ) (s := [2]) (p := 2) (lag := 1) (by norm_num) (by norm_num)

/-- `AverageTrueRange`: the state of the rolling average of the true ranges; -/
theorem C89_atr {p : Nat} (hp : 0 < p) : Provides (ATR (p : Int) : Operator α) candles (item 1) (RMA (p : Int)) vBuf (vBuf (s := [])) (fun h => (trueRanges h).map pt) :=
  provides_of (atr_tracks hp) candles_ok (rma_tracks hp []) rows_ok isSeries_vBuf (fun _ => rfl) fun _ => rfl
example := C89_atr (α := XR ℚ) (p := 2) (by norm_num)

/-- the returns: that of a moving average, which also is part of that of `RelativeStrengthIndex`; -/
theorem C89_return (hz : TFNum.eq (Arith.zero : α) (Arith.ofRat 0) = true) {p : Nat} (hp : 0 < p) :
    Provides (Return (p : Int) : Operator α) vSBuf some (SMA (p : Int)) vSBuf (vSBuf (α := α)) id ∧
    Provides (LogReturn (p : Int) : Operator α) vSBuf some (SMA (p : Int)) vSBuf (vSBuf (α := α)) id ∧
    Provides (SMA (p : Int) : Operator α) vSBuf some (Return (p : Int)) vSBuf (vSBuf (α := α)) id ∧
    Provides (RSI (p : Int) : Operator α) vSBuf (items 0 1) (Return (p : Int)) vSBuf (vSBuf (α := α)) id :=
  ⟨provides_of (return_tracks hz _ hp) nums_ok (smaS_tracks hp) nums_ok isSeries_vSBuf (fun _ => rfl) fun _ => rfl,
    provides_of (return_tracks hz _ hp) nums_ok (smaS_tracks hp) nums_ok isSeries_vSBuf (fun _ => rfl) fun _ => rfl,
    provides_of (smaS_tracks hp) nums_ok (return_tracks hz _ hp) nums_ok isSeries_vSBuf (fun _ => rfl) fun _ => rfl,
    provides_of (rsi_tracks hp) nums_ok (return_tracks hz _ hp) nums_ok isSeries_vSBuf (fun _ => rfl) fun _ => by
      simp [items, item, rsiState, retState, PyVal.tup]⟩
example := C89_return (α := XR ℚ) (by simp) (p := 2) (by norm_num)

/-- `Skewness` and the local extrema: the same, with the two components exchanged; `SharpeRatio` that of the excess returns; -/
theorem C89_skewness {p : Nat} (hp : 0 < p) :
    Provides (Skewness (p : Int) : Operator α) vSBuf (items 1 0) (SMA (p : Int)) vSBuf (vSBuf (α := α)) id ∧
    Provides (SMA (p : Int) : Operator α) vSBuf (items 1 0) (Skewness (p : Int)) vSBuf (vSBuf (α := α)) id ∧
    Provides (Skewness (p : Int) : Operator α) vSBuf some (LocalMinimum (p : Int)) vSBuf (vSBuf (α := α)) id ∧
    Provides (LocalMinimum (p : Int) : Operator α) vSBuf some (LocalMaximum (p : Int)) vSBuf (vSBuf (α := α)) id ∧
    Provides (SharpeRatio (p : Int) : Operator α) vSBuf2 some (Skewness (p : Int)) vSBuf (vSBuf (α := α)) (List.map fun x => x.1 - x.2) :=
  ⟨provides_of (skewness_tracks hp) nums_ok (smaS_tracks hp) nums_ok isSeries_vSBuf (fun _ => rfl) fun _ => rfl,
    provides_of (smaS_tracks hp) nums_ok (skewness_tracks hp) nums_ok isSeries_vSBuf (fun _ => rfl) fun _ => rfl,
    provides_of (skewness_tracks hp) nums_ok (localExtremum_tracks _ _ hp) nums_ok isSeries_vSBuf (fun _ => rfl) fun _ => rfl,
    provides_of (localExtremum_tracks _ _ hp) nums_ok (localExtremum_tracks _ _ hp) nums_ok isSeries_vSBuf (fun _ => rfl) fun _ => rfl,
    provides_of (sharpe_tracks hp) numPairs_ok (skewness_tracks hp) nums_ok isSeries_vSBuf (fun _ => rfl) fun _ => rfl⟩
example := C89_skewness (α := XR ℚ) (p := 2) (by norm_num)

/-- `SimpleMovingAverageCrossover`: those of its two averages. -/
theorem C89_crossover {slow fast : Nat} (hs : 0 < slow) (hf : 0 < fast) :
    Provides (SMACrossover (slow : Int) fast : Operator α) (vBuf (s := s)) (fun a => (item 1 a).bind (item 1)) (SMA (slow : Int)) vBuf (vBuf (s := s)) id ∧
    Provides (SMACrossover (slow : Int) fast : Operator α) (vBuf (s := s)) (fun a => ((item 1 a).bind (item 0)).bind (item 0)) (SMA (fast : Int)) vBuf (vBuf (s := s)) id :=
  ⟨provides_of (crossover_tracks hs hf s) rows_ok (sma_tracks hs s) rows_ok isSeries_vBuf (fun _ => rfl) fun _ => rfl,
    provides_of (crossover_tracks hs hf s) rows_ok (sma_tracks hf s) rows_ok isSeries_vBuf (fun _ => rfl) fun _ => rfl⟩
example := C89_crossover (α := XR ℚ) (s := [2]) (slow := 3) (fast := 2) (by norm_num) (by norm_num)

/-- Concretely: two samples are averaged; their state lets the local minimum, with its components exchanged, go on as if it had seen them.  The states of the
exponential and the rolling average have the same structure as well, but contain different values. -/
example : (call (SMA 3) (vSBuf [XR.fin (4 : ℚ), .fin 7]) none).bind (fun r => match items 1 0 r.2.1 with
    | some t => output (call (LocalMinimum 3) (vSBuf [.fin 9, .fin 8]) (some t)) | none => .error .attributeError) = .ok (vSBuf [.fin 4, .fin 7]) := by decide +kernel
example : output (call (LocalMinimum 3) (vSBuf [XR.fin (4 : ℚ), .fin 7, .fin 9, .fin 8]) none) = .ok (vSBuf [.fin 4, .fin 4, .fin 4, .fin 7]) := by decide +kernel
example : (call (EMA 2) (vSBuf [XR.fin (4 : ℚ), .fin 8, .fin 3]) none).map (·.2.1) ≠ (call (RMA 2) (vSBuf [XR.fin (4 : ℚ), .fin 8, .fin 3]) none).map (·.2.1) := by decide +kernel

end TS
