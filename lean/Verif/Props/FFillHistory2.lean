import Verif.Props.FFillHistory
import Verif.Props.Signals
import Verif.Props.AtrVectors
/-
C57 for further operators.
-/
namespace TS
open PyVal
variable {α : Type} [TFNum α]

/-- SharpeRatio: a pair is left out if the return or the risk-free rate is zero. -/
theorem C57_ffill_sharpe {p : Nat} (hp : 0 < p) : StreamsAs (FFill (SharpeRatio (p : Int)) : Operator α) vSBuf2 vSBuf
    (skipping (fun x => isZero x.1 || isZero x.2) Arith.zero (fun h => sharpe (window p (h.map fun x => x.1 - x.2)))) :=
  (sharpe_tracks hp).ffill_streams (S := .tup [.leaf .float, .leaf .int]) (fun _ => HasType_iff.2 rfl) (by passes) numPairs_ok isSeries_vSBuf (fun _ => rfl) (O := tF []) (fun _ => rfl)
    (passable_leaf _) (by simp) (fun _ => rfl) (fun _ => by simp [Floats, flatten, flattens])
    (fun a => by rw [← hasZero_num, ← hasZero_num]; simp [hasZero, flatten, flattens])
example := C57_ffill_sharpe (α := XR ℚ) (p := 2) (by norm_num)

/-- With a risk-free rate of zero every sample counts as missing: nothing but zeros is output. -/
theorem C57_ffill_sharpe_riskless (hz : isZero (Arith.zero : α) = true) {p : Nat} (hp : 0 < p) {rs : List α} (hr : rs ≠ []) :
    ∃ sf s0, call (FFill (SharpeRatio (p : Int))) (vSBuf2 (rs.map fun r => (r, Arith.zero))) none = .ok (vSBuf (List.replicate rs.length Arith.zero), sf, s0) := by
  obtain ⟨sf, s0, h⟩ := (C57_ffill_sharpe (α := α) hp).at' (xs := rs.map fun r => (r, Arith.zero)) (by simpa using hr)
  refine ⟨sf, s0, h.trans ?_⟩
  have : scan (skipping (fun x : α × α => isZero x.1 || isZero x.2) Arith.zero (fun h => sharpe (window p (h.map fun x => x.1 - x.2)))) [] (rs.map fun r => (r, Arith.zero)) =
      List.replicate rs.length Arith.zero := by
    rw [List.eq_replicate_iff]
    refine ⟨by simp, fun y hy => ?_⟩
    simp only [scan, List.mem_map, List.nil_append] at hy
    obtain ⟨i, _, rfl⟩ := hy
    rw [skipping, if_pos]
    rw [List.all_eq_true]
    intro a ha
    obtain ⟨r, _, rfl⟩ := List.mem_map.1 (List.mem_of_mem_take ha)
    simp [hz]
  rw [this]
example := C57_ffill_sharpe_riskless (α := XR ℚ) (by decide +kernel) (p := 2) (by norm_num) (rs := [.fin 1, .fin 2]) (by simp)

/-- CrossCorrelation: a pair is left out if either tensor has a zero. -/
theorem C57_ffill_crossCorrelation {p lag : Nat} (hp : 0 < p) (hl : 0 < lag) (s : List Nat) :
    StreamsAs (FFill (CrossCorrelation (p : Int) lag) : Operator α) (vBuf2 (s := s)) vBuf
      (skipping (fun x => someZero x.1 || someZero x.2) (fun _ => Arith.zero) (crossOf p lag)) :=
  (cross_tracks hp hl s).ffill_streams (S := .tup [.leaf .int, dCorr, .leaf .float]) (fun h => (crossState_ok h).2) (by passes) pairs_ok isSeries_vBuf (fun _ => rfl) (O := tF s) (fun _ => rfl)
    (passable_leaf _) (by simp) (fun _ => rfl) (fun _ => by simp [Floats, flatten, flattens])
    (fun a => by rw [← hasZero_row, ← hasZero_row]; simp [hasZero, flatten, flattens])
example := C57_ffill_crossCorrelation (α := XR ℚ) (p := 2) (lag := 1) (by norm_num) (by norm_num) [2]

/-- ZeroCrossoverSignal: the crossings are those of the samples other than zero. -/
theorem C57_ffill_zeroCrossover (s : List Nat) : StreamsAs (FFill ZeroCrossoverSignal : Operator α) (vBuf (s := s)) vIsBuf
    (skipping someZero (fun _ => 0) (fun h c => TFNum.toInt (crossing (h.map (· c))))) :=
  zc_tracks.ffill_streams (S := .tup [.leaf .bool, .leaf .float]) (fun _ => HasType_iff.2 rfl) (by passes) rows_ok isSeries_vIsBuf (fun _ => rfl)
    (O := .leaf (.int, s)) (fun _ => rfl) (passable_leaf _) (by simp) (fun _ => rfl) floats_row hasZero_row
example := C57_ffill_zeroCrossover (α := XR ℚ) [2]

/-- MACD -/
theorem C57_ffill_macd {slow fast m : Nat} (hs : 0 < slow) (hf : 0 < fast) (hm : 0 < m) (s : List Nat) :
    StreamsAs (FFill (MACD (slow : Int) fast m) : Operator α) (vBuf (s := s)) vBuf5
      (skipping someZero (fun _ => Arith.zero, fun _ => Arith.zero, fun _ => Arith.zero, fun _ => Arith.zero, fun _ => Arith.zero)
        (fun h => (expAvg slow h, expAvg fast h, macdLine slow fast h, macdSignal slow fast m h, macdHist slow fast m h))) :=
  (macd_tracks hs hf hm s).ffill_streams (S := .tup [.leaf .int, dAvg, dAvg, dAvg]) (fun _ => HasType_iff.2 rfl) (by passes) rows_ok
    (dec := fun b => .tup [vF b.1, vF b.2.1, vF b.2.2.1, vF b.2.2.2.1, vF b.2.2.2.2])
    (fun l => isSeries_tup_map (A := (Idx s → α) × (Idx s → α) × (Idx s → α) × (Idx s → α) × (Idx s → α))
      (es := [fun b => vF b.1, fun b => vF b.2.1, fun b => vF b.2.2.1, fun b => vF b.2.2.2.1, fun b => vF b.2.2.2.2])
      (.cons (rowSeries_map _ l) (.cons (rowSeries_map _ l) (.cons (rowSeries_map _ l) (.cons (rowSeries_map _ l) (.cons (rowSeries_map _ l) .nil))))))
    (fun _ => rfl) (O := .tup [tF s, tF s, tF s, tF s, tF s]) (fun _ => rfl) ⟨by simp [IsEmptySeq, PyVal.tup], by simp [IsSingleton, PyVal.tup]⟩ (by simp [WF_tup])
    (fun _ => rfl) floats_row hasZero_row
example := C57_ffill_macd (α := XR ℚ) (slow := 3) (fast := 2) (m := 2) (by norm_num) (by norm_num) (by norm_num) [2]

/-- SimpleMovingAverageCrossoverSignal: buys and sells on the samples without a zero; a missing sample repeats the last signal. -/
theorem C57_ffill_smaSignal {slow fast : Nat} (hs : 0 < slow) (hf : 0 < fast) (s : List Nat) :
    StreamsAs (FFill (SMACrossoverSignal (slow : Int) fast) : Operator α) (vBuf (s := s)) vIsBuf
      (skipping someZero (fun _ => 0) (fun h c => smaSignal slow fast (h.map (· c)))) :=
  (smaSignal_tracks hs hf s).ffill_streams (S := .tup [.tup [PyVal.unit, .tup [.tup [dBuf, .tup [.leaf .int]], dBuf], PyVal.unit], .tup [.leaf .bool, .leaf .float], .tup [.leaf .int]]) (fun _ => HasType_iff.2 rfl)
    (by passes) rows_ok isSeries_vIsBuf (fun _ => rfl) (O := .leaf (.int, s)) (fun _ => rfl) (passable_leaf _) (by simp) (fun _ => rfl) floats_row hasZero_row
example := C57_ffill_smaSignal (α := XR ℚ) (slow := 3) (fast := 2) (by norm_num) (by norm_num) [2]

/-- MACDSignal -/
theorem C57_ffill_macdSignal {slow fast m : Nat} (hs : 0 < slow) (hf : 0 < fast) (hm : 0 < m) (s : List Nat) :
    StreamsAs (FFill (MACDSignal (slow : Int) fast m) : Operator α) (vBuf (s := s)) vIsBuf
      (skipping someZero (fun _ => 0) (fun h c => macdTrade slow fast m (h.map (· c)))) :=
  (macdTrade_tracks hs hf hm s).ffill_streams (S := .tup [.tup [.leaf .int, dAvg, dAvg, dAvg], PyVal.unit, .tup [.leaf .bool, .leaf .float], .tup [.leaf .int]])
    (fun _ => HasType_iff.2 rfl)
    (by passes) rows_ok isSeries_vIsBuf (fun _ => rfl) (O := .leaf (.int, s)) (fun _ => rfl) (passable_leaf _) (by simp) (fun _ => rfl) floats_row hasZero_row
example := C57_ffill_macdSignal (α := XR ℚ) (slow := 3) (fast := 2) (m := 2) (by norm_num) (by norm_num) (by norm_num) [2]

/-- AverageTrueRange of tensors: a candle is left out if any of its coordinates is zero. -/
theorem C57_ffill_atr_tensors {p : Nat} (hp : 0 < p) (s : List Nat) :
    StreamsAs (FFill (ATR (p : Int)) : Operator α) (candlesOf (s := s)) vSBuf
      (skipping (fun c => someZero c.close || someZero c.low || someZero c.high) Arith.zero (fun h => rollAvg p (rangesOver h))) :=
  (atrs_tracks hp).ffill_streams (S := .tup [.leaf .float, dAvg]) (fun h => (atrsState_ok p h).2) (by passes) candlesOf_ok isSeries_vSBuf (fun _ => rfl) (O := tF []) (fun _ => rfl)
    (passable_leaf _) (by simp) (fun _ => rfl) (fun _ => by simp [Floats, flatten, encCLHs])
    (fun a => by rw [← hasZero_row, ← hasZero_row, ← hasZero_row]; simp [hasZero, flatten, encCLHs, Bool.or_assoc])
example := C57_ffill_atr_tensors (α := XR ℚ) (p := 2) (by norm_num) [2]

end TS
