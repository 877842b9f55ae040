import Verif.Props.AveragesExact
import Verif.Props.Averages
import Verif.Props.Correlation
import Verif.Props.Moments
import Verif.Props.Returns
import Verif.Props.Signals
/-
C52: windowed operators forget.
-/
namespace TS
open PyVal

/-- Whatever came before, `w` inputs determine the output from there on: streaming `xs ++ t` and `ys ++ t` gives the same outputs from the `w`-th
element of `t` on. -/
def Forgets {α A B : Type} (op : Operator α) (ser : List A → Val α) (outs : List B → Val α) (w : Nat) : Prop :=
  ∀ xs ys t : List A, t ≠ [] → w ≤ t.length → ∃ (os os' o : List B) (sf s0 sf' s0' : Val α),
    call op (ser (xs ++ t)) none = .ok (outs (os ++ o), sf, s0) ∧ call op (ser (ys ++ t)) none = .ok (outs (os' ++ o), sf', s0') ∧
    os.length = xs.length + (w - 1) ∧ os'.length = ys.length + (w - 1) ∧ o.length = t.length - (w - 1)

/-- a function of the last `w` samples -/
def Recent {A B : Type} (y : List A → B) (w : Nat) : Prop := ∀ xs t : List A, w ≤ t.length → y (xs ++ t) = y t

section
variable {α A B : Type}

theorem scan_append (y : List A → B) (h a b : List A) : scan y h (a ++ b) = scan y h a ++ scan y (h ++ a) b := by
  induction a generalizing h with
  | nil => simp [scan_nil]
  | cons x a ih => simp [scan_cons, ih]

theorem Recent.scan {y : List A → B} {w : Nat} (hy : Recent y w) {xs a b : List A} (ha : w ≤ a.length + 1) : TS.scan y (xs ++ a) b = TS.scan y a b := by
  unfold TS.scan
  refine List.map_congr_left fun i hi => ?_
  rw [List.append_assoc, hy]
  have := List.mem_range.1 hi
  rw [List.length_append, List.length_take]
  omega

theorem StreamsAs.forgets {op : Operator α} {ser : List A → Val α} {outs : List B → Val α} {y : List A → B} (h : StreamsAs op ser outs y) {w : Nat}
    (hy : Recent y w) : Forgets op ser outs w := by
  intro xs ys t ht hw
  obtain ⟨sf, s0, h1⟩ := h.at' (xs := xs ++ t) (by simp [ht])
  obtain ⟨sf', s0', h2⟩ := h.at' (xs := ys ++ t) (by simp [ht])
  have key : ∀ zs : List A, scan y [] (zs ++ t) = scan y [] (zs ++ t.take (w - 1)) ++ scan y (t.take (w - 1)) (t.drop (w - 1)) := fun zs => by
    rw [← hy.scan (xs := zs) (a := t.take (w - 1)) (by rw [List.length_take]; omega)]
    conv_lhs => rw [← List.take_append_drop (w - 1) t, ← List.append_assoc, scan_append, List.nil_append]
  rw [key] at h1 h2
  exact ⟨_, _, _, sf, s0, sf', s0', h1, h2, by simp; omega, by simp; omega, by simp⟩

theorem window_recent_app {p : Nat} {t : List A} (h : p ≤ t.length) (xs : List A) : window p (xs ++ t) = window p t := by
  rw [window, window, List.reverse_append, List.take_append_of_le_length (by simpa using h)]

theorem lagged_recent {p : Nat} {t : List A} (h : p < t.length) (z : A) (xs : List A) : lagged z p (xs ++ t) = lagged z p t := by
  rw [lagged, lagged, List.reverse_append, List.getElem?_append_left (by simpa using h)]

theorem getLastD_recent {t : List A} (h : t ≠ []) (z : A) (xs : List A) : (xs ++ t).getLastD z = t.getLastD z := by
  induction t using List.reverseRecOn with
  | nil => exact absurd rfl h
  | append_singleton t x _ => rw [← List.append_assoc, getLastD_snoc, getLastD_snoc]

theorem movingAvg_recent {E : Type} [Arith E] (p : Nat) : Recent (movingAvg (E := E) p) p := fun xs t h => by
  rw [movingAvg, movingAvg, if_neg (by simp; omega), if_neg (by omega), window_recent_app h]

theorem movingStd_recent {E : Type} [Arith E] (p : Nat) : Recent (movingStd (E := E) p) p := fun xs t h => by
  rw [movingStd, movingStd, if_neg (by simp; omega), if_neg (by omega), window_recent_app h]

theorem corrOf_recent {E : Type} [Arith E] (p : Nat) : Recent (corrOf (E := E) p) (p + 1) := fun xs t h => by
  rw [corrOf, corrOf, if_neg (by simp; omega), if_neg (by omega), List.map_append, List.map_append, window_recent_app (by simp; omega), window_recent_app (by simp; omega)]

theorem lagPairs_recent {E : Type} [Arith E] {lag : Nat} {t : List (E × E)} (h : lag ≤ t.length) (xs : List (E × E)) :
    ∃ u, lagPairs lag (xs ++ t) = u ++ lagPairs lag t := by
  unfold lagPairs
  have e : ((xs ++ t).map Prod.fst).drop lag = (((xs ++ t).map Prod.fst).drop lag).take xs.length ++ (t.map Prod.fst).drop lag := by
    conv_lhs => rw [← List.take_append_drop xs.length (((xs ++ t).map Prod.fst).drop lag)]
    congr 1
    rw [List.drop_drop, List.map_append, List.drop_append]
    have : xs.length + lag - (xs.map Prod.fst).length = lag := by simp
    rw [Nat.add_comm lag, List.drop_eq_nil_of_le (by simp), this, List.nil_append]
  rw [e, List.map_append (f := Prod.snd), List.zip_append (by simp; omega)]
  exact ⟨_, rfl⟩

theorem crossOf_recent {E : Type} [Arith E] (p lag : Nat) : Recent (crossOf (E := E) p lag) (p + 1 + lag) := fun xs t h => by
  obtain ⟨u, hu⟩ := lagPairs_recent (show lag ≤ t.length by omega) xs
  rw [crossOf, crossOf, hu, corrOf_recent p _ _ (by rw [lagPairs_length]; omega)]

theorem growth_recent [TFNum α] (f : α → α → α) (p : Nat) : Recent (growth f p) (p + 1) := fun xs t h => by
  have ht : t ≠ [] := by rintro rfl; simp at h
  have e : ((xs ++ t).length ≤ p ∨ TFNum.eq (lagged Arith.zero p t) (Arith.ofRat 0) = true) ↔ (t.length ≤ p ∨ TFNum.eq (lagged Arith.zero p t) (Arith.ofRat 0) = true) := by
    rw [List.length_append]; constructor <;> rintro (h | h) <;> first | omega | exact .inr h
  simp only [growth, lagged_recent (show p < t.length by omega), getLastD_recent ht, e]

theorem volatility_recent [TFNum α] {m r : Nat} (hm : 0 < m) (hr : 0 < r) : Recent (volatility (α := α) m r) (m + r) := fun xs t h => by
  rw [volatility, volatility, if_neg (by simp; omega), if_neg (by omega)]
  have e : ∀ zs : List α, scan (growth (fun v p => Arith.log (v / p)) r) [] (zs ++ t) =
      scan (growth (fun v p => Arith.log (v / p)) r) [] (zs ++ t.take r) ++ scan (growth (fun v p => Arith.log (v / p)) r) (t.take r) (t.drop r) := fun zs => by
    rw [← (growth_recent (fun v p : α => Arith.log (v / p)) r).scan (xs := zs) (a := t.take r) (by rw [List.length_take]; omega)]
    conv_lhs => rw [← List.take_append_drop r t, ← List.append_assoc, scan_append, List.nil_append]
  have e2 := e []
  rw [List.nil_append] at e2
  rw [e, e2, movingStd_recent m _ _ (by simp; omega), movingStd_recent m _ _ (by simp; omega)]

end

section
variable {α : Type} [TFNum α]

/-- **C52 Windowed operators forget**, every arithmetic: `SimpleMovingAverage(p)`, -/
theorem C52_sma {p : Nat} (hp : 0 < p) (s : List Nat) : Forgets (SMA (p : Int) : Operator α) (vBuf (s := s)) (vBuf (s := s)) p := (C25_sma hp s).forgets (movingAvg_recent p)
example := C52_sma (α := XR ℚ) (p := 2) (by norm_num) [2]

/-- `MovingStandardDeviation(p)`, -/
theorem C52_msd {p : Nat} (hp : 0 < p) (s : List Nat) : Forgets (MSD (p : Int) : Operator α) (vBuf (s := s)) (vBuf (s := s)) p := (C29_msd_streams hp s).forgets (movingStd_recent p)
example := C52_msd (α := XR ℚ) (p := 2) (by norm_num) [2]

/-- `BollingerBands(p, k)`, -/
theorem C52_bollinger {p : Nat} (hp : 0 < p) (k : ℚ) (s : List Nat) : Forgets (BollingerBands (p : Int) k : Operator α) (vBuf (s := s)) (vBuf3 (s := s)) p :=
  (C30_bollinger_streams hp k s).forgets fun xs t h => by simp only [bands3, movingAvg_recent p xs t h, movingStd_recent p xs t h]
example := C52_bollinger (α := XR ℚ) (p := 2) (by norm_num) 2 [2]

/-- `SimpleMovingAverageCrossover(slow, fast)`, -/
theorem C52_crossover {slow fast : Nat} (hs : 0 < slow) (hf : 0 < fast) (s : List Nat) :
    Forgets (SMACrossover (slow : Int) fast : Operator α) (vBuf (s := s)) (vBuf (s := s)) (max slow fast) :=
  (C32_crossover hs hf s).forgets fun xs t h => by
    rw [smaDiff, smaDiff, if_neg (by simp; omega), if_neg (by omega), movingAvg_recent slow xs t (by omega), movingAvg_recent fast xs t (by omega)]
example := C52_crossover (α := XR ℚ) (slow := 3) (fast := 2) (by norm_num) (by norm_num) [2]

/-- `Lag(p)`, -/
theorem C52_lag {p : Nat} (hp : 0 < p) (s : List Nat) : Forgets (Lag (p : Int) : Operator α) (vBuf (s := s)) (vBuf (s := s)) (p + 1) :=
  (C17_lag_streams hp s).forgets fun xs _ h => lagged_recent h _ xs
example := C52_lag (α := XR ℚ) (p := 2) (by norm_num) [2]

/-- `Momentum(p)`, -/
theorem C52_momentum {p : Nat} (hp : 0 < p) (s : List Nat) : Forgets (Momentum (p : Int) : Operator α) (vBuf (s := s)) (vBuf (s := s)) (p + 1) :=
  (C19_momentum_streams hp s).forgets fun xs t h => by
    rw [momentum, momentum, if_neg (by simp; omega), if_neg (by omega), lagged_recent (by omega), getLastD_recent (by rintro rfl; simp at h)]
example := C52_momentum (α := XR ℚ) (p := 2) (by norm_num) [2]

/-- `LocalMinimum(p)` and `LocalMaximum(p)`, -/
theorem C52_local_min {p : Nat} (hp : 0 < p) : Forgets (LocalMinimum (p : Int) : Operator α) vSBuf vSBuf p :=
  (C21_local_min_streams hp).forgets fun xs _ h => by dsimp only; rw [window_recent_app h]
example := C52_local_min (α := XR ℚ) (p := 2) (by norm_num)

theorem C52_local_max {p : Nat} (hp : 0 < p) : Forgets (LocalMaximum (p : Int) : Operator α) vSBuf vSBuf p :=
  (C21_local_max_streams hp).forgets fun xs _ h => by dsimp only; rw [window_recent_app h]
example := C52_local_max (α := XR ℚ) (p := 2) (by norm_num)

/-- `Return(p)` and `LogReturn(p)`, -/
theorem C52_return (hz : TFNum.eq (Arith.zero : α) (Arith.ofRat 0) = true) {p : Nat} (hp : 0 < p) : Forgets (Return (p : Int) : Operator α) vSBuf vSBuf (p + 1) :=
  (C37_return_streams hz hp).forgets (growth_recent _ p)
example := C52_return (α := XR ℚ) (by simp) (p := 2) (by norm_num)

theorem C52_logReturn (hz : TFNum.eq (Arith.zero : α) (Arith.ofRat 0) = true) {p : Nat} (hp : 0 < p) : Forgets (LogReturn (p : Int) : Operator α) vSBuf vSBuf (p + 1) :=
  (C37_logReturn_streams hz hp).forgets (growth_recent _ p)
example := C52_logReturn (α := XR ℚ) (by simp) (p := 2) (by norm_num)

/-- `Volatility(m, r)`, -/
theorem C52_volatility (hz : TFNum.eq (Arith.zero : α) (Arith.ofRat 0) = true) {m r : Nat} (hm : 0 < m) (hr : 0 < r) :
    Forgets (Volatility (m : Int) r : Operator α) vSBuf vSBuf (m + r) := (C38_volatility_streams hz hm hr).forgets (volatility_recent hm hr)
example := C52_volatility (α := XR ℚ) (by simp) (m := 2) (r := 3) (by norm_num) (by norm_num)

/-- `SharpeRatio(p)`, -/
theorem C52_sharpe {p : Nat} (hp : 0 < p) : Forgets (SharpeRatio (p : Int) : Operator α) vSBuf2 vSBuf p :=
  (C39_sharpe_streams hp).forgets fun xs t h => by dsimp only; rw [List.map_append, window_recent_app (by simpa using h)]
example := C52_sharpe (α := XR ℚ) (p := 2) (by norm_num)

/-- `Skewness(p)`, -/
theorem C52_skewness {p : Nat} (hp : 0 < p) : Forgets (Skewness (p : Int) : Operator α) vSBuf vSBuf p :=
  (skewness_streams hp).forgets fun xs _ h => by dsimp only; rw [window_recent_app h]
example := C52_skewness (α := XR ℚ) (p := 2) (by norm_num)

/-- `Correlation(p)`, `CrossCorrelation(p, lag)` and `AutoCorrelation(p, lag)`. -/
theorem C52_correlation {p : Nat} (hp : 0 < p) (s : List Nat) : Forgets (Correlation (p : Int) : Operator α) (vBuf2 (s := s)) (vBuf (s := s)) (p + 1) :=
  (C41_correlation_streams hp s).forgets (corrOf_recent p)
example := C52_correlation (α := XR ℚ) (p := 2) (by norm_num) [2]

theorem C52_cross {p lag : Nat} (hp : 0 < p) (hl : 0 < lag) (s : List Nat) : Forgets (CrossCorrelation (p : Int) lag : Operator α) (vBuf2 (s := s)) (vBuf (s := s)) (p + 1 + lag) :=
  (C42_cross_streams hp hl s).forgets (crossOf_recent p lag)
example := C52_cross (α := XR ℚ) (p := 2) (lag := 1) (by norm_num) (by norm_num) [2]

theorem C52_auto {p lag : Nat} (hp : 0 < p) (hl : 0 < lag) (s : List Nat) : Forgets (AutoCorrelation (p : Int) lag : Operator α) (vBuf (s := s)) (vBuf (s := s)) (p + 1 + lag) :=
  (C42_auto_streams hp hl s).forgets fun xs t h => by dsimp only; rw [List.map_append]; exact crossOf_recent p lag _ _ (by simpa using h)

end

/-- A NaN leaves the window after two steps. -/
example : output (call (SMA (α := XR ℚ) 2) (vSBuf [.nan, .fin 1, .fin 3, .fin 5]) none) = .ok (vSBuf [.fin 0, .nan, .fin 2, .fin 4]) := by decide +kernel

example : output (call (SMA (α := XR ℚ) 2) (vSBuf [.fin 7, .fin 1, .fin 3, .fin 5]) none) = .ok (vSBuf [.fin 0, .fin 4, .fin 2, .fin 4]) := by decide +kernel

/-- The exponential average does not forget. -/
example : output (call (EMA (α := XR ℚ) 2) (vSBuf [.nan, .fin 1, .fin 3, .fin 5]) none) = .ok (vSBuf [.fin 0, .nan, .nan, .nan]) := by decide +kernel

end TS
