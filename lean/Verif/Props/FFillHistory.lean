import Verif.Lemmas.FFillTracks
import Verif.Props.Bands
import Verif.Lemmas.Typed
import Verif.Props.Drawdown
import Verif.Props.Moments
import Verif.Props.Correlation
import Verif.Props.RSI
/-
C57: what forward-filled operators compute.
-/
namespace TS
open PyVal
variable {α : Type} [TFNum α]
set_option linter.unusedSimpArgs false

/-- dtypes of a counter and a buffer -/
abbrev dBuf : PyVal DType := .tup [.leaf .int, .leaf .float]
/-- dtypes of the state of EMA and RMA -/
abbrev dAvg : PyVal DType := .tup [.leaf .int, .leaf .float, dBuf]
/-- dtypes of the state of Correlation -/
abbrev dCorr : PyVal DType := .tup [.leaf .int, .leaf .float, .leaf .float]

theorem someZero_iff {s : List Nat} {x : Idx s → α} : someZero x = true ↔ ∃ c, TFNum.eq (x c) Arith.zero = true := by
  simp only [someZero, List.any_eq_true]
  exact ⟨fun ⟨c, _, h⟩ => ⟨c, h⟩, fun ⟨c, h⟩ => ⟨c, Idx.mem_all c, h⟩⟩

theorem Tracks.ffill_streams {A B : Type} {op : Operator α} {enc : A → Val α} {out st : List A → Val α} (T : Tracks op Any enc out st)
    {S} (hS : ∀ h, HasType (st h) S) (pS : S = PyVal.unit ∨ Passable S)
    {ser : List A → Val α} (hs : ∀ l, (ser l).WF ∧ flatten (ser l) ≠ [] ∧ IsSeries (ser l) (l.map enc))
    {outs : List B → Val α} {dec : B → Val α} (ho : ∀ l, IsSeries (outs l) (l.map dec)) {y : List A → B} (hy : ∀ h, out h = dec (y h))
    {O} (hO : ∀ b, HasSig (dec b) O) (pO : Passable O) {z0 : B} (hZw : (dec z0).WF) (hZ : ∀ b, (dec b).map zeroLeaf = dec z0)
    (hX : ∀ a, Floats (enc a)) {z : A → Bool} (hz : ∀ a, hasZero (enc a) = z a) : StreamsAs (FFill op) ser outs (skipping z z0 y) := by
  refine (T.ffill hX (O := O) (fun h _ => by rw [hy]; exact hO _) hS pO pS ⟨hZw, hO z0⟩ (fun x => by rw [hy, hZ]) hz).streams hs ho fun h => ?_
  unfold skipping
  split
  · rfl
  · exact hy _

theorem hasZero_row {s : List Nat} (x : Idx s → α) : hasZero (vF x) = someZero x := by
  simp [hasZero, flatten, someZero, Tensor.elems, List.any_map, Function.comp_def]

theorem hasZero_num (x : α) : hasZero (vS x) = isZero x := by
  simp [hasZero, flatten, isZero, Tensor.elems, Idx.all, Tensor.scalar]

omit [TFNum α] in
theorem floats_row {s : List Nat} (x : Idx s → α) : Floats (vF x) := by simp [Floats, flatten]

omit [TFNum α] in
theorem passable_leaf {T : Type} (t : T) : Passable (PyVal.leaf t) := ⟨by simp [IsEmptySeq], by simp [IsSingleton]⟩

/-- tensors to tensors -/
theorem Tracks.ffill_rows {s : List Nat} {op : Operator α} {st : List (Idx s → α) → Val α} {y : List (Idx s → α) → Idx s → α}
    (T : Tracks op Any (fun x : Idx s → α => vF x) (fun h => vF (y h)) st) {S} (hS : ∀ h, HasType (st h) S) (pS : S = PyVal.unit ∨ Passable S) :
    StreamsAs (FFill op) (vBuf (s := s)) vBuf (skipping someZero (fun _ => Arith.zero) y) :=
  T.ffill_streams hS pS rows_ok isSeries_vBuf (fun _ => rfl) (O := tF s) (fun _ => rfl) (passable_leaf _) (by simp) (fun _ => rfl) floats_row hasZero_row

/-- numbers to numbers -/
theorem Tracks.ffill_nums {op : Operator α} {st : List α → Val α} {y : List α → α}
    (T : Tracks op Any vS (fun h => vS (y h)) st) {S} (hS : ∀ h, HasType (st h) S) (pS : S = PyVal.unit ∨ Passable S) :
    StreamsAs (FFill op) vSBuf vSBuf (skipping isZero Arith.zero y) :=
  T.ffill_streams hS pS nums_ok isSeries_vSBuf (fun _ => rfl) (O := tF []) (fun _ => rfl) (passable_leaf _) (by simp) (fun _ => rfl) (fun _ => floats_row _)
    hasZero_num

/-- tuple states of these types can be passed through -/
macro "passes" : tactic => `(tactic| exact .inr ⟨by simp [IsEmptySeq, PyVal.tup, flattens], by simp [IsSingleton, PyVal.tup]⟩)

/-! ### C57 -/

/-- **C57 FFill, as a function of the history**: the outputs of the forward-filled operator are those of the operator itself on the history without the
samples that contain a zero, and zeros before the first other sample. -/
theorem C57_ffill_sma {p : Nat} (hp : 0 < p) (s : List Nat) :
    StreamsAs (FFill (SMA (p : Int)) : Operator α) (vBuf (s := s)) vBuf (skipping someZero (fun _ => Arith.zero) (movingAvg p)) :=
  (sma_tracks hp s).ffill_rows (S := dBuf) (fun _ => HasType_iff.2 rfl) (by passes)
example := C57_ffill_sma (α := XR ℚ) (p := 2) (by norm_num) [2]

theorem C57_ffill_msd {p : Nat} (hp : 0 < p) (s : List Nat) :
    StreamsAs (FFill (MSD (p : Int)) : Operator α) (vBuf (s := s)) vBuf (skipping someZero (fun _ => Arith.zero) (movingStd p)) :=
  (msd_tracks hp s).ffill_rows (S := dBuf) (fun _ => HasType_iff.2 rfl) (by passes)
example := C57_ffill_msd (α := XR ℚ) (p := 2) (by norm_num) [2]

theorem C57_ffill_ema {p : Nat} (hp : 0 < p) (s : List Nat) :
    StreamsAs (FFill (EMA (p : Int)) : Operator α) (vBuf (s := s)) vBuf (skipping someZero (fun _ => Arith.zero) (expAvg p)) :=
  (ema_tracks hp s).ffill_rows (S := dAvg) (fun _ => HasType_iff.2 rfl) (by passes)
example := C57_ffill_ema (α := XR ℚ) (p := 2) (by norm_num) [2]

theorem C57_ffill_rma {p : Nat} (hp : 0 < p) (s : List Nat) :
    StreamsAs (FFill (RMA (p : Int)) : Operator α) (vBuf (s := s)) vBuf (skipping someZero (fun _ => Arith.zero) (rollAvg p)) :=
  (rma_tracks hp s).ffill_rows (S := dAvg) (fun _ => HasType_iff.2 rfl) (by passes)
example := C57_ffill_rma (α := XR ℚ) (p := 2) (by norm_num) [2]

theorem C57_ffill_lag {p : Nat} (hp : 0 < p) (s : List Nat) :
    StreamsAs (FFill (Lag (p : Int)) : Operator α) (vBuf (s := s)) vBuf (skipping someZero (fun _ => Arith.zero) (lagged (fun _ => Arith.zero) p)) :=
  (lag_tracks hp s).ffill_rows (S := .leaf .float) (fun _ => HasType_iff.2 rfl) (.inr (passable_leaf _))
example := C57_ffill_lag (α := XR ℚ) (p := 2) (by norm_num) [2]

theorem C57_ffill_momentum {p : Nat} (hp : 0 < p) (s : List Nat) :
    StreamsAs (FFill (Momentum (p : Int)) : Operator α) (vBuf (s := s)) vBuf (skipping someZero (fun _ => Arith.zero) (momentum p)) :=
  (momentum_tracks hp s).ffill_rows (S := .tup [.unit, .tup [.unit, .leaf .float], .unit, .tup [.leaf .int]]) (fun _ => HasType_iff.2 rfl) (by passes)
example := C57_ffill_momentum (α := XR ℚ) (p := 2) (by norm_num) [2]

theorem C57_ffill_crossover {slow fast : Nat} (hs : 0 < slow) (hf : 0 < fast) (s : List Nat) :
    StreamsAs (FFill (SMACrossover (slow : Int) fast) : Operator α) (vBuf (s := s)) vBuf (skipping someZero (fun _ => Arith.zero) (smaDiff slow fast)) :=
  (crossover_tracks hs hf s).ffill_rows (S := .tup [.unit, .tup [.tup [dBuf, .tup [.leaf .int]], dBuf], .unit]) (fun _ => HasType_iff.2 rfl) (by passes)
example := C57_ffill_crossover (α := XR ℚ) (slow := 3) (fast := 2) (by norm_num) (by norm_num) [2]

theorem C57_ffill_globalMin : StreamsAs (FFill GlobalMinimum : Operator α) vSBuf vSBuf (skipping isZero Arith.zero runMin) :=
  globalMin_tracks.ffill_nums (S := .tup [.leaf .float, .leaf .bool]) (fun _ => HasType_iff.2 rfl) (by passes)
example := C57_ffill_globalMin (α := XR ℚ)

theorem C57_ffill_globalMax : StreamsAs (FFill GlobalMaximum : Operator α) vSBuf vSBuf (skipping isZero Arith.zero runMax) :=
  globalMax_tracks.ffill_nums (S := .tup [.leaf .float, .leaf .bool]) (fun _ => HasType_iff.2 rfl) (by passes)
example := C57_ffill_globalMax (α := XR ℚ)

theorem C57_ffill_localMin {p : Nat} (hp : 0 < p) :
    StreamsAs (FFill (LocalMinimum (p : Int)) : Operator α) vSBuf vSBuf (skipping isZero Arith.zero fun h => Arith.redMin (window p h)) :=
  (localExtremum_tracks _ _ hp).ffill_nums (S := .tup [.leaf .float, .leaf .int]) (fun _ => HasType_iff.2 rfl) (by passes)
example := C57_ffill_localMin (α := XR ℚ) (p := 2) (by norm_num)

theorem C57_ffill_localMax {p : Nat} (hp : 0 < p) :
    StreamsAs (FFill (LocalMaximum (p : Int)) : Operator α) vSBuf vSBuf (skipping isZero Arith.zero fun h => Arith.redMax (window p h)) :=
  (localExtremum_tracks _ _ hp).ffill_nums (S := .tup [.leaf .float, .leaf .int]) (fun _ => HasType_iff.2 rfl) (by passes)
example := C57_ffill_localMax (α := XR ℚ) (p := 2) (by norm_num)

theorem C57_ffill_return (hz : TFNum.eq (Arith.zero : α) (Arith.ofRat 0) = true) {p : Nat} (hp : 0 < p) :
    StreamsAs (FFill (Return (p : Int)) : Operator α) vSBuf vSBuf
      (skipping isZero Arith.zero (growth (fun now before => now / before - Arith.ofRat 1) p)) :=
  (return_tracks hz _ hp).ffill_nums (S := dBuf) (fun _ => HasType_iff.2 rfl) (by passes)
example := C57_ffill_return (α := XR ℚ) (by simp) (p := 2) (by norm_num)

theorem C57_ffill_logReturn (hz : TFNum.eq (Arith.zero : α) (Arith.ofRat 0) = true) {p : Nat} (hp : 0 < p) :
    StreamsAs (FFill (LogReturn (p : Int)) : Operator α) vSBuf vSBuf
      (skipping isZero Arith.zero (growth (fun now before => Arith.log (now / before)) p)) :=
  (return_tracks hz _ hp).ffill_nums (S := dBuf) (fun _ => HasType_iff.2 rfl) (by passes)
example := C57_ffill_logReturn (α := XR ℚ) (by simp) (p := 2) (by norm_num)

theorem C57_ffill_volatility (hz : TFNum.eq (Arith.zero : α) (Arith.ofRat 0) = true) {m r : Nat} (hm : 0 < m) (hr : 0 < r) :
    StreamsAs (FFill (Volatility (m : Int) r) : Operator α) vSBuf vSBuf (skipping isZero Arith.zero (volatility m r)) :=
  (volatility_tracks hz hm hr).ffill_nums (S := .tup [dBuf, dBuf, .tup [.leaf .int]]) (fun _ => HasType_iff.2 rfl) (by passes)
example := C57_ffill_volatility (α := XR ℚ) (by simp) (m := 2) (r := 3) (by norm_num) (by norm_num)

theorem C57_ffill_skewness {p : Nat} (hp : 0 < p) :
    StreamsAs (FFill (Skewness (p : Int)) : Operator α) vSBuf vSBuf (skipping isZero Arith.zero fun h => computeSkewness (window p h)) :=
  (skewness_tracks hp).ffill_nums (S := .tup [.leaf .float, .leaf .int]) (fun _ => HasType_iff.2 rfl) (by passes)
example := C57_ffill_skewness (α := XR ℚ) (p := 2) (by norm_num)

theorem C57_ffill_rsi {p : Nat} (hp : 0 < p) :
    StreamsAs (FFill (RSI (p : Int)) : Operator α) vSBuf vSBuf (skipping isZero Arith.zero (rsi p)) :=
  (rsi_tracks hp).ffill_nums (S := .tup [.leaf .int, .leaf .float, .leaf .float, .leaf .float]) (fun _ => HasType_iff.2 rfl) (by passes)
example := C57_ffill_rsi (α := XR ℚ) (p := 2) (by norm_num)

/-- Correlation: a pair is left out if either tensor has a zero. -/
theorem C57_ffill_correlation {p : Nat} (hp : 0 < p) (s : List Nat) :
    StreamsAs (FFill (Correlation (p : Int)) : Operator α) (vBuf2 (s := s)) vBuf
      (skipping (fun x => someZero x.1 || someZero x.2) (fun _ => Arith.zero) (corrOf p)) :=
  (corr_tracks hp s).ffill_streams (S := dCorr) (fun _ => HasType_iff.2 rfl) (by passes) pairs_ok isSeries_vBuf (fun _ => rfl) (O := tF s) (fun _ => rfl)
    (passable_leaf _) (by simp) (fun _ => rfl) (fun _ => by simp [Floats, flatten, flattens])
    (fun a => by rw [← hasZero_row, ← hasZero_row]; simp [hasZero, flatten, flattens])
example := C57_ffill_correlation (α := XR ℚ) (p := 2) (by norm_num) [2]

/-- ATR: a candle is left out if its close, low or high is zero. -/
theorem C57_ffill_atr {p : Nat} (hp : 0 < p) :
    StreamsAs (FFill (ATR (p : Int)) : Operator α) candles vSBuf
      (skipping (fun c => isZero c.close || isZero c.low || isZero c.high) Arith.zero (fun h => rollAvg p (trueRanges h))) :=
  (atr_tracks hp).ffill_streams (S := .tup [.leaf .float, dAvg]) (fun _ => HasType_iff.2 rfl) (by passes) candles_ok isSeries_vSBuf (fun _ => rfl) (O := tF [])
    (fun _ => rfl) (passable_leaf _) (by simp) (fun _ => rfl) (fun _ => by simp [Floats, flatten, flattens, encCLH])
    (fun a => by rw [← hasZero_num, ← hasZero_num, ← hasZero_num]; simp [hasZero, flatten, flattens, encCLH, Bool.or_assoc])
example := C57_ffill_atr (α := XR ℚ) (p := 2) (by norm_num)

/-- Heikin-Ashi candles: a candle with a zero repeats the candle before. -/
theorem C57_ffill_heikinAshi :
    StreamsAs (FFill HeikinAshi : Operator α) candles4 candles4
      (skipping (fun c => isZero c.opn || isZero c.high || isZero c.low || isZero c.close) ⟨Arith.zero, Arith.zero, Arith.zero, Arith.zero⟩
        (fun h => haCandle (h.dropLast.getLastD noCandle) (h.getLastD noCandle))) :=
  ha_tracks.ffill_streams (S := .tup [.leaf .float, .leaf .float]) (fun _ => HasType_iff.2 rfl) (by passes) candles4_ok (fun l => (candles4_ok l).2.2) (fun _ => rfl)
    (O := .tup [tF [], tF [], tF [], tF []]) (fun _ => rfl) ⟨by simp [IsEmptySeq, PyVal.tup], by simp [IsSingleton, PyVal.tup]⟩ (encOHLC_ok _).1 (fun _ => rfl)
    (fun _ => by simp [Floats, flatten, flattens, encOHLC])
    (fun a => by rw [← hasZero_num, ← hasZero_num, ← hasZero_num, ← hasZero_num]; simp [hasZero, flatten, flattens, encOHLC, Bool.or_assoc])
example := C57_ffill_heikinAshi (α := XR ℚ)

/-- Drawdown: the number of days does not count the missing days. -/
theorem C57_ffill_drawdown :
    StreamsAs (FFill Drawdown : Operator α) vSBuf numInts
      (skipping isZero (Arith.zero, 0) fun h => (drawdownOf (peakOf h.dropLast) (h.getLastD Arith.zero), daysSincePeak h.reverse)) :=
  drawdown_tracks.ffill_streams (S := .tup [.leaf .float, .leaf .int]) (fun _ => HasType_iff.2 rfl) (by passes) nums_ok (dec := fun x => .tup [vS x.1, vI x.2])
    (fun l => (isSeries_tup_map (A := α × Int) (es := [fun x => vS x.1, fun x => vI x.2]) (.cons (numSeries_map _ l) (.cons (intSeries_map _ l) .nil)))) (fun _ => rfl)
    (O := .tup [tF [], tI []]) (fun _ => rfl) ⟨by simp [IsEmptySeq, PyVal.tup], by simp [IsSingleton, PyVal.tup]⟩ (by simp [WF_tup]) (fun _ => rfl)
    (fun _ => floats_row _) hasZero_num
example := C57_ffill_drawdown (α := XR ℚ)

/-- Bollinger bands. -/
theorem C57_ffill_bollinger {p : Nat} (hp : 0 < p) (k : ℚ) (s : List Nat) :
    StreamsAs (FFill (BollingerBands (p : Int) k) : Operator α) (vBuf (s := s)) vBuf3
      (skipping someZero (fun _ => Arith.zero, fun _ => Arith.zero, fun _ => Arith.zero) (bands3 p k)) :=
  (bollinger_tracks hp k s).ffill_streams (S := .tup [dBuf, dBuf]) (fun _ => HasType_iff.2 rfl) (by passes) rows_ok
    (dec := fun x => .tup [vF x.1, vF x.2.1, vF x.2.2])
    (fun l => isSeries_tup_map (A := (Idx s → α) × (Idx s → α) × (Idx s → α)) (es := [fun x => vF x.1, fun x => vF x.2.1, fun x => vF x.2.2])
      (.cons (rowSeries_map _ l) (.cons (rowSeries_map _ l) (.cons (rowSeries_map _ l) .nil)))) (fun _ => rfl)
    (O := .tup [tF s, tF s, tF s]) (fun _ => rfl) ⟨by simp [IsEmptySeq, PyVal.tup], by simp [IsSingleton, PyVal.tup]⟩ (by simp [WF_tup]) (fun _ => rfl)
    floats_row hasZero_row

/-- The first sample is missing (output 0), then 1, 3, a missing one (2 is repeated) and 5. -/
example : scan (skipping isZero (.fin 0) (movingAvg (E := XR ℚ) 2)) [] [.fin 0, .fin 1, .fin 3, .fin 0, .fin 5] = [.fin 0, .fin 0, .fin 2, .fin 2, .fin 4] := by decide +kernel
example : output (call (FFill (SMA 2)) (series [0, 1, 3, 0, 5]) none) = .ok (series [0, 0, 2, 2, 4]) := by decide +kernel

end TS
