import Verif.Props.Superposition
import Verif.Props.ExtremaInt
/-
C62: series that do not change.
-/
namespace TS
open PyVal XR
set_option linter.unusedSectionVars false

theorem StreamsAs.const {α A B : Type} {op : Operator α} {ser : List A → Val α} {outs : List B → Val α} {y : List A → B}
    (h : StreamsAs op ser outs y) {x : A} {f : Nat → B} (e : ∀ n, y (List.replicate (n + 1) x) = f n) : OnConstant op ser outs x f := by
  intro n hn
  obtain ⟨sf, s0, h1⟩ := h.at' (xs := List.replicate n x) (by simpa using hn.ne')
  refine ⟨sf, s0, ?_⟩
  rw [h1]
  congr 3
  apply List.ext_getElem (by simp)
  intro i h1 h2
  simp only [List.length_map, List.length_range] at h2
  simp only [scan_getElem, List.nil_append, List.getElem_map, List.getElem_range, List.take_replicate, Nat.min_eq_left (show i + 1 ≤ n by omega), e]

/-- What averaging needs to know about a number. -/
structure Still {E : Type} [Arith E] (x : E) : Prop where
  avg : ∀ p : Nat, 0 < p → Arith.sum (List.replicate p x) / Arith.ofInt p = x
  exp : ∀ q : ℚ, x * Arith.ofRat q + x * Arith.ofRat (1 - q) = x
  roll : ∀ p : Nat, 0 < p → (x * Arith.ofInt ((p : Int) - 1) + x) / Arith.ofInt p = x
  sub : x - x = Arith.zero

theorem Still.pointwise {ι E : Type} [Arith E] {x : ι → E} (h : ∀ i, Still (x i)) : Still x where
  avg p hp := funext fun i => by
    show Arith.sum ((List.replicate p x).map (· i)) / _ = x i
    rw [List.map_replicate]; exact (h i).avg p hp
  exp q := funext fun i => (h i).exp q
  roll p hp := funext fun i => (h i).roll p hp
  sub := funext fun i => (h i).sub

theorem getD_replicate {A : Type} {i n : Nat} (h : i < n) (x d : A) : (List.replicate n x).getD i d = x := by
  simp [List.getD_eq_getElem?_getD, h]

theorem window_replicate {A : Type} (p n : Nat) (x : A) : window p (List.replicate n x) = List.replicate (min p n) x := by
  simp [window, List.take_replicate]

namespace Still
variable {E : Type} [Arith E] {x : E} (h : Still x)
include h

theorem movingAvg {p : Nat} (hp : 0 < p) (n : Nat) : movingAvg p (List.replicate n x) = if n < p then Arith.zero else x := by
  simp only [TS.movingAvg, List.length_replicate, window_replicate]
  split
  · rfl
  · rw [Nat.min_eq_left (by omega), h.avg p hp]

theorem recursiveAvg {p : Nat} (hp : 0 < p) {rec : E → E → E} (hr : rec x x = x) (n : Nat) :
    recursiveAvg p rec (List.replicate n x) = if n < p then Arith.zero else x := by
  simp only [TS.recursiveAvg, List.drop_replicate, List.take_replicate, h.movingAvg hp]
  by_cases hn : n < p
  · simp [hn, show n - p = 0 by omega]
  · rw [if_neg (by omega), if_neg hn]
    induction n - p with
    | zero => rfl
    | succ k ih => rw [List.replicate_succ, List.foldl_cons, hr, ih]

theorem expAvg {p : Nat} (hp : 0 < p) (n : Nat) : expAvg p (List.replicate n x) = if n < p then Arith.zero else x := h.recursiveAvg hp (h.exp _) n
theorem rollAvg {p : Nat} (hp : 0 < p) (n : Nat) : rollAvg p (List.replicate n x) = if n < p then Arith.zero else x := h.recursiveAvg hp (h.roll p hp) n

theorem smaDiff (h0 : Still (Arith.zero : E)) {slow fast : Nat} (hf : 0 < fast) (hs : fast ≤ slow) (n : Nat) : smaDiff slow fast (List.replicate n x) = Arith.zero := by
  simp only [TS.smaDiff, List.length_replicate, h.movingAvg hf, h.movingAvg (hf.trans_le hs)]
  by_cases hn : n < slow
  · simp only [hn, if_true, h0.sub]
  · simp only [hn, if_false, show ¬ n < fast by omega, h.sub]

theorem macdLine {slow fast : Nat} (hf : 0 < fast) (hs : fast ≤ slow) (n : Nat) : macdLine slow fast (List.replicate n x) = Arith.zero := by
  simp only [TS.macdLine, List.length_replicate, h.expAvg hf, h.expAvg (hf.trans_le hs)]
  by_cases hn : n < slow
  · simp only [hn, if_true]
  · simp only [hn, if_false, show ¬ n < fast by omega, h.sub]

theorem macdSignal (h0 : Still (Arith.zero : E)) {slow fast m : Nat} (hf : 0 < fast) (hs : fast ≤ slow) (hm : 0 < m) (n : Nat) :
    macdSignal slow fast m (List.replicate n x) = Arith.zero := by
  have e : scan (TS.macdLine slow fast) [] (List.replicate n x) = List.replicate n Arith.zero := by
    apply List.ext_getElem (by simp)
    intro i h1 h2
    simp only [scan_getElem, List.nil_append, List.take_replicate, h.macdLine hf hs, List.getElem_replicate]
  simp only [TS.macdSignal, macdHistory, e, List.drop_replicate, h0.expAvg hm, ite_self]

theorem macdHist (h0 : Still (Arith.zero : E)) {slow fast m : Nat} (hf : 0 < fast) (hs : fast ≤ slow) (hm : 0 < m) (n : Nat) :
    macdHist slow fast m (List.replicate n x) = Arith.zero := by
  simp only [TS.macdHist, h.macdLine hf hs, h.macdSignal h0 hf hs hm, h0.sub, ite_self]

omit h in
theorem lagged (x : E) (p n : Nat) : lagged Arith.zero p (List.replicate n x) = if p < n then x else Arith.zero := by
  simp only [TS.lagged, List.reverse_replicate]
  split
  · simp [*]
  · rw [List.getElem?_eq_none (by simp; omega)]; rfl

omit h in
theorem last (x : E) {n : Nat} : (List.replicate (n + 1) x).getLastD Arith.zero = x := by
  simp [List.replicate_succ', ]

theorem momentum (p n : Nat) : momentum p (List.replicate (n + 1) x) = Arith.zero := by
  simp only [TS.momentum, List.length_replicate, lagged, last]
  split
  · rfl
  · rw [if_pos (by omega), h.sub]

end Still

section
variable {K : Type} [Field K] [LinearOrder K] [IsStrictOrderedRing K] [Transc K] [FloorRing K]

theorem XR.still (a : K) : Still (XR.fin a) where
  avg p hp := by
    have hp' : (p : K) ≠ 0 := by exact_mod_cast hp.ne'
    have := XR.mean_fin (l := List.replicate p a) (by simpa using hp.ne')
    simp only [Arith.mean, List.map_replicate, List.length_replicate] at this
    rw [this, avg_const (by simpa using hp.ne') fun x hx => List.eq_of_mem_replicate hx]
  exp q := by
    show XR.fin a * XR.fin (q : K) + XR.fin a * XR.fin ((1 - q : ℚ) : K) = XR.fin a
    rw [fin_mul, fin_mul, fin_add]; congr 1; push_cast; ring
  roll p hp := by
    have hp' : (p : K) ≠ 0 := by exact_mod_cast hp.ne'
    rw [ofInt_eq, ofInt_eq, fin_mul, fin_add, fin_div _ _ (by exact_mod_cast hp.ne')]
    congr 1; push_cast; field_simp; ring
  sub := by rw [fin_sub, sub_self]; exact zero_eq.symm

theorem XR.stillT {s : List Nat} (t : Idx s → K) : Still (fun i => XR.fin (t i)) := Still.pointwise fun i => XR.still (t i)

theorem XR.still0 : Still (Arith.zero : XR K) := zero_eq (K := K) ▸ XR.still 0
theorem XR.still0T {s : List Nat} : Still (Arith.zero : Idx s → XR K) := Still.pointwise fun _ => XR.still0

/-- **C62 Constant series**, exact arithmetic: when every sample is the finite tensor `t`, `SimpleMovingAverage` is 0 before index `p - 1` and `t` from there on, -/
theorem C62_sma {p : Nat} (hp : 0 < p) {s : List Nat} (t : Idx s → K) :
    OnConstant (SMA (p : Int)) (vBuf (s := s)) (vBuf (s := s)) (fun i => XR.fin (t i)) (fun i => if i + 1 < p then Arith.zero else fun i => XR.fin (t i)) :=
  (C25_sma hp s).const fun n => (XR.stillT t).movingAvg hp (n + 1)

/-- so are `ExponentialMovingAverage` -/
theorem C62_ema {p : Nat} (hp : 0 < p) {s : List Nat} (t : Idx s → K) :
    OnConstant (EMA (p : Int)) (vBuf (s := s)) (vBuf (s := s)) (fun i => XR.fin (t i)) (fun i => if i + 1 < p then Arith.zero else fun i => XR.fin (t i)) :=
  (C26_ema hp s).const fun n => (XR.stillT t).expAvg hp (n + 1)
example := C62_ema (K := ℚ) (p := 2) (by norm_num) (s := [2]) (fun c => if c.1 = 0 then 3 else 5)

/-- and `RollingMovingAverage`; -/
theorem C62_rma {p : Nat} (hp : 0 < p) {s : List Nat} (t : Idx s → K) :
    OnConstant (RMA (p : Int)) (vBuf (s := s)) (vBuf (s := s)) (fun i => XR.fin (t i)) (fun i => if i + 1 < p then Arith.zero else fun i => XR.fin (t i)) :=
  (C27_rma hp s).const fun n => (XR.stillT t).rollAvg hp (n + 1)
example := C62_rma (K := ℚ) (p := 2) (by norm_num) (s := [2]) (fun c => if c.1 = 0 then 3 else 5)

/-- macd line, signal and histogram of `MACD` are 0 when the fast period is not longer than the slow one, -/
theorem C62_macd {slow fast m : Nat} (hf : 0 < fast) (hs : fast ≤ slow) (hm : 0 < m) {s : List Nat} (t : Idx s → K) :
    OnConstant (MACD (slow : Int) fast m) (vBuf (s := s)) (vBuf5 (s := s)) (fun i => XR.fin (t i))
      (fun i => (if i + 1 < slow then Arith.zero else fun i => XR.fin (t i), if i + 1 < fast then Arith.zero else fun i => XR.fin (t i), Arith.zero, Arith.zero, Arith.zero)) :=
  have h := XR.stillT (s := s) t
  (C31_macd (hf.trans_le hs) hf hm s).const fun n => by
    simp only [macdAll, h.expAvg hf, h.expAvg (hf.trans_le hs), h.macdLine hf hs, h.macdSignal XR.still0T hf hs hm, h.macdHist XR.still0T hf hs hm]
example := C62_macd (K := ℚ) (slow := 3) (fast := 2) (m := 2) (by norm_num) (by norm_num) (by norm_num) (s := [2]) (fun c => if c.1 = 0 then 3 else 5)

/-- also `SimpleMovingAverageCrossover`; -/
theorem C62_crossover {slow fast : Nat} (hf : 0 < fast) (hs : fast ≤ slow) {s : List Nat} (t : Idx s → K) :
    OnConstant (SMACrossover (slow : Int) fast) (vBuf (s := s)) (vBuf (s := s)) (fun i => XR.fin (t i)) (fun _ => Arith.zero) :=
  (C32_crossover (hf.trans_le hs) hf s).const fun n => (XR.stillT t).smaDiff XR.still0T hf hs (n + 1)
example := C62_crossover (K := ℚ) (slow := 3) (fast := 2) (by norm_num) (by norm_num) (s := [2]) (fun c => if c.1 = 0 then 3 else 5)

/-- `Momentum` is 0, -/
theorem C62_momentum {p : Nat} (hp : 0 < p) {s : List Nat} (t : Idx s → K) :
    OnConstant (Momentum (p : Int)) (vBuf (s := s)) (vBuf (s := s)) (fun i => XR.fin (t i)) (fun _ => Arith.zero) :=
  (C19_momentum_streams hp s).const fun n => (XR.stillT t).momentum p n
example := C62_momentum (K := ℚ) (p := 2) (by norm_num) (s := [2]) (fun c => if c.1 = 0 then 3 else 5)

/-- `Lag` gives 0 before index `p` and the sample from there on, in every arithmetic, -/
theorem C62_lag {α : Type} [TFNum α] {p : Nat} (hp : 0 < p) {s : List Nat} (t : Idx s → α) :
    OnConstant (Lag (p : Int)) (vBuf (s := s)) (vBuf (s := s)) t (fun i => if i < p then Arith.zero else t) :=
  (C17_lag_streams hp s).const fun n => by
    rw [Still.lagged]; split_ifs <;> first | rfl | omega
example := C62_lag (α := XR ℚ) (p := 2) (by norm_num) (s := [2]) (fun c => if c.1 = 0 then .fin 3 else .pinf)

theorem runMin_replicate (n : Nat) (x : XR K) : runMin (List.replicate (n + 1) x) = x := by
  rw [List.replicate_succ, runMin]
  induction n with
  | zero => rfl
  | succ n ih => rw [List.replicate_succ, List.foldl_cons, ite_self, ih]

theorem runMax_replicate (n : Nat) (x : XR K) : runMax (List.replicate (n + 1) x) = x := by
  rw [List.replicate_succ, runMax]
  induction n with
  | zero => rfl
  | succ n ih => rw [List.replicate_succ, List.foldl_cons, ite_self, ih]

/-- the extrema are the sample, whatever it is; -/
theorem C62_globalMin (x : XR K) : OnConstant GlobalMinimum vSBuf vSBuf x (fun _ => x) := C20_global_min_streams.const fun n => runMin_replicate n x
example := C62_globalMin (K := ℚ) (.fin 3)
theorem C62_globalMax (x : XR K) : OnConstant GlobalMaximum vSBuf vSBuf x (fun _ => x) := C20_global_max_streams.const fun n => runMax_replicate n x
example := C62_globalMax (K := ℚ) (.fin 3)

theorem redMin_replicate (n : Nat) (x : XR K) : (Arith.redMin (List.replicate (n + 1) x) : XR K) = x := by
  show (List.replicate (n + 1) x).foldr XR.min pinf = x
  induction n with
  | zero => rcases x with a | _ | _ | _ <;> simp [XR.min, lt]
  | succ n ih => rw [List.replicate_succ, List.foldr_cons, ih]; rcases x with a | _ | _ | _ <;> simp [XR.min, lt]

theorem redMax_replicate (n : Nat) (x : XR K) : (Arith.redMax (List.replicate (n + 1) x) : XR K) = x := by
  show (List.replicate (n + 1) x).foldr XR.max ninf = x
  induction n with
  | zero => rcases x with a | _ | _ | _ <;> simp [XR.max, lt]
  | succ n ih => rw [List.replicate_succ, List.foldr_cons, ih]; rcases x with a | _ | _ | _ <;> simp [XR.max, lt]

theorem C62_localMin {p : Nat} (hp : 0 < p) (x : XR K) : OnConstant (LocalMinimum (p : Int)) vSBuf vSBuf x (fun _ => x) :=
  (C21_local_min_streams hp).const fun n => by
    obtain ⟨k, hk⟩ : ∃ k, min p (n + 1) = k + 1 := ⟨min p (n + 1) - 1, by omega⟩
    rw [window_replicate, hk, redMin_replicate]
example := C62_localMin (K := ℚ) (p := 2) (by norm_num) (.fin 3)
theorem C62_localMax {p : Nat} (hp : 0 < p) (x : XR K) : OnConstant (LocalMaximum (p : Int)) vSBuf vSBuf x (fun _ => x) :=
  (C21_local_max_streams hp).const fun n => by
    obtain ⟨k, hk⟩ : ∃ k, min p (n + 1) = k + 1 := ⟨min p (n + 1) - 1, by omega⟩
    rw [window_replicate, hk, redMax_replicate]
example := C62_localMax (K := ℚ) (p := 2) (by norm_num) (.fin 3)

theorem ones (a : K) (h : ¬ TFNum.eq (XR.fin a) (Arith.ofRat 0) = true) : XR.fin a / XR.fin a = XR.fin (1 : K) := by
  have ha : a ≠ 0 := by simpa using h
  rw [fin_div _ _ ha, div_self ha]

theorem growth_replicate {f : XR K → XR K → XR K} {a : K} (hf : a ≠ 0 → f (XR.fin a) (XR.fin a) = Arith.zero) {p : Nat} (n : Nat) :
    growth f p (List.replicate (n + 1) (XR.fin a)) = Arith.zero := by
  simp only [growth, List.length_replicate, Still.lagged, Still.last]
  split_ifs with h1 h2 h3
  · rfl
  · exact hf (by simpa using fun e => h2 (.inr (by simpa using e)))
  · rfl
  · exact absurd (.inl (by omega)) h3

/-- `Return` and `LogarithmicReturn` are 0 (also when the price is 0), -/
theorem C62_return {p : Nat} (hp : 0 < p) (a : K) : OnConstant (Return (p : Int)) vSBuf vSBuf (XR.fin a) (fun _ => Arith.zero) :=
  (C37_return_streams (by simp) hp).const <| growth_replicate fun ha => by rw [fin_div _ _ ha, div_self ha]; simp
example := C62_return (K := ℚ) (p := 2) (by norm_num) 2

/-- `RelativeStrengthIndex` is 0 before index `p` and NaN from there on: there are neither gains nor losses; -/
theorem C62_rsi {p : Nat} (hp : 0 < p) (a : K) : OnConstant (RSI (p : Int)) vSBuf vSBuf (XR.fin a) (fun i => if i < p then Arith.zero else XR.nan) :=
  (C36_rsi_streams hp).const fun n => by
    split
    · rw [rsi, List.length_replicate, if_pos (by omega)]; simp
    · have hm : ∀ x ∈ moves (List.replicate (n + 1) a) n, x = 0 := by
        simp only [moves, List.mem_map, List.mem_range]
        rintro _ ⟨k, hk, rfl⟩
        rw [getD_replicate (by omega), getD_replicate (by omega), sub_self]
      have hw : ∀ f : K → K, f 0 = 0 → wilderAvg p ((moves (List.replicate (n + 1) a) n).map f) = 0 := by
        intro f hf
        have e : (moves (List.replicate (n + 1) a) n).map f = List.replicate n 0 := by
          rw [List.eq_replicate_iff]
          refine ⟨by simp [moves], ?_⟩
          simp only [List.mem_map]
          rintro _ ⟨x, hx, rfl⟩
          rw [hm x hx, hf]
        rw [e, wilderAvg, List.drop_replicate, List.take_replicate, avg_const (c := 0) (by simp; omega) fun x hx => List.eq_of_mem_replicate hx]
        induction n - p with
        | zero => rfl
        | succ k ih => rw [List.replicate_succ, List.foldl_cons, zero_mul, zero_add, zero_div, ih]
      have := rsi_fin hp (xs := List.replicate (n + 1) a) (i := n) (by simp) (by omega)
      rw [gainAt, lossAt, hw _ (by simp), hw _ (by simp), List.map_replicate, List.take_of_length_le (by simp)] at this
      rw [this]
      have : (XR.fin (0 : K) / XR.fin 0 : XR K) = XR.nan := by show XR.div _ _ = _; simp [XR.div, XR.infOf]
      rw [this]; rfl

theorem lastSign_replicate {a : K} (ha : a ≠ 0) (n : Nat) : lastSign (List.replicate (n + 1) a) = sgn a := by
  simp only [lastSign]
  induction n with
  | zero => simp [ha]
  | succ n ih => rw [List.replicate_succ', List.foldl_append]; simp [ha]

theorem crossing_replicate (a : K) (n : Nat) : TFNum.toInt (crossing (List.replicate (n + 1) (XR.fin a))) = 0 := by
  have := crossing_fin (us := List.replicate (n + 1) a) (i := n) (by simp)
  rw [List.map_replicate, List.take_of_length_le (by simp)] at this
  rw [this, turnAt, if_pos]
  rw [getD_replicate (by omega), List.take_replicate, Nat.min_eq_left (by omega)]
  rcases n with _ | n
  · exact .inl rfl
  · by_cases ha : a = 0
    · exact .inr (.inl ha)
    · exact .inr (.inr (lastSign_replicate ha n).symm)

theorem scan_replicate {A B : Type} {y : List A → B} {x : A} {c : B} (h : ∀ n, y (List.replicate (n + 1) x) = c) (n : Nat) :
    scan y [] (List.replicate n x) = List.replicate n c := by
  apply List.ext_getElem (by simp)
  intro i h1 h2
  simp only [List.length_replicate] at h2
  simp only [scan_getElem, List.nil_append, List.take_replicate, Nat.min_eq_left (show i + 1 ≤ n by omega), h, List.getElem_replicate]

/-- `ZeroCrossoverSignal` is silent, whether the samples are negative, zero or positive, -/
theorem C62_zeroCrossover (a : K) : OnConstant ZeroCrossoverSignal vSBuf vIBuf (XR.fin a) (fun _ => 0) :=
  ((C33_zero_crossover_streams (α := XR K) []).scalarInt (y := fun h => TFNum.toInt (crossing h))).const fun n => crossing_replicate a n
example := C62_zeroCrossover (K := ℚ) 2

/-- and so are the trading signals of the moving averages -/
theorem C62_sma_signal {slow fast : Nat} (hf : 0 < fast) (hs : fast ≤ slow) (a : K) :
    OnConstant (SMACrossoverSignal (slow : Int) fast) vSBuf vIBuf (XR.fin a) (fun _ => 0) :=
  (C34_sma_streams (hf.trans_le hs) hf).const fun n => by
    rw [smaSignal, scan_replicate (fun n => (XR.still a).smaDiff XR.still0 hf hs (n + 1)), zero_eq, crossing_replicate, ite_self]
example := C62_sma_signal (K := ℚ) (slow := 3) (fast := 2) (by norm_num) (by norm_num) 2

/-- and of the macd. -/
theorem C62_macd_signal {slow fast m : Nat} (hf : 0 < fast) (hs : fast ≤ slow) (hm : 0 < m) (a : K) :
    OnConstant (MACDSignal (slow : Int) fast m) vSBuf vIBuf (XR.fin a) (fun _ => 0) :=
  (C34_macd_streams (hf.trans_le hs) hf hm).const fun n => by
    rw [macdTrade, scan_replicate (fun n => (XR.still a).macdHist XR.still0 hf hs hm (n + 1)), zero_eq, crossing_replicate, ite_self]
example := C62_macd_signal (K := ℚ) (slow := 3) (fast := 2) (m := 2) (by norm_num) (by norm_num) (by norm_num) 2

theorem peakK_replicate (a : K) (n : Nat) : peakK (List.replicate (n + 1) a) = max a 0 := by
  induction n with
  | zero => simp [peakK]
  | succ n ih => rw [List.replicate_succ', peakK_snoc, ih, ← max_assoc, max_self]

/-- `Drawdown` reports no loss; the days are counted from the first sample when that is a peak (more than 0.0001), else from before it. -/
theorem C62_drawdown (a : K) : OnConstant Drawdown finSeries finInts a (fun i => (0, if 1 / 10000 < a then (i : Int) else i + 1)) :=
  have h0 : StreamsAs (Drawdown : Operator (XR K)) finSeries finInts ddK := by
    rw [← show (fun l : List (K × Int) => numInts (l.map (Prod.map XR.fin id))) = finInts from funext numInts_fin]; exact dd_reals
  h0.const fun n => by
    have d : drawdownK (peakK (List.replicate n a)) a = 0 := by
      rcases n with _ | n
      · simp [drawdownK, peakK]
      · rw [peakK_replicate, drawdownK]
        split
        · rfl
        · rename_i h
          rcases le_total a 0 with h0 | h0
          · rw [max_eq_right h0, abs_zero] at h; norm_num at h
          · rw [max_eq_left h0, abs_of_nonneg h0] at h
            rw [max_eq_left h0, div_self (fun e => by rw [e] at h; norm_num at h)]; simp
    have t : ∀ n : Nat, daysK (List.replicate (n + 1) a) = if 1 / 10000 < a then (n : Int) else n + 1 := by
      intro n
      induction n with
      | zero =>
        have e : (1 / 10000 < |max a 0 - 0|) ↔ 1 / 10000 < a := by
          rw [sub_zero, abs_of_nonneg (le_max_right _ _), lt_max_iff, or_iff_left (by norm_num)]
        show (if 1 / 10000 < |max a 0 - 0| then (0 : Int) else 0 + 1) = _
        rw [if_congr e rfl rfl]; rfl
      | succ n ih =>
        rw [List.replicate_succ, daysK, List.reverse_replicate, peakK_replicate, ← max_assoc, max_self, sub_self, abs_zero, if_neg (by norm_num), ih]
        split <;> push_cast <;> rfl
    rw [ddK, List.reverse_replicate, t, List.dropLast_replicate, Nat.add_sub_cancel, show (List.replicate (n + 1) a).getLastD 0 = a by simp [List.replicate_succ'], d]
example := C62_drawdown (K := ℚ) 2

end

/-! ### Real numbers -/

theorem log_one : (Arith.log (XR.fin 1) : XR ℝ) = Arith.zero := by
  rw [zero_eq]
  show XR.log (XR.fin 1) = _
  simp only [XR.log, show ¬ (1 : ℝ) < 0 by norm_num, if_false, one_ne_zero]
  exact congrArg XR.fin Real.log_one

theorem variance_replicate (p : Nat) (a : ℝ) : variance (List.replicate p a) = 0 :=
  variance_eq_zero.2 fun x hx y hy => by rw [List.eq_of_mem_replicate hx, List.eq_of_mem_replicate hy]

theorem stdDev_replicate (p : Nat) (a : ℝ) : stdDev (List.replicate p a) = 0 := by
  rw [stdDev, variance_replicate p, Real.sqrt_zero]

theorem std_replicate {p : Nat} (hp : 0 < p) (a : ℝ) : (Arith.sqrt (Arith.moments (List.replicate p (XR.fin a))).2 : XR ℝ) = Arith.zero := by
  have := XR.std_fin (l := List.replicate p a) (by simpa using hp.ne')
  rw [List.map_replicate] at this
  rw [this, stdDev_replicate p, XR.zero_eq]

theorem movingStd_replicate {p : Nat} (hp : 0 < p) (a : ℝ) (n : Nat) : movingStd p (List.replicate n (XR.fin a)) = Arith.zero := by
  rw [movingStd, window_replicate, List.length_replicate]
  split
  · rfl
  · rw [Nat.min_eq_left (by omega), std_replicate hp]

theorem movingStdT_replicate {p : Nat} (hp : 0 < p) {s : List Nat} (t : Idx s → ℝ) (n : Nat) :
    movingStd p (List.replicate n fun i => XR.fin (t i)) = Arith.zero := funext fun i => by
  rw [movingStd_apply, List.map_replicate, movingStd_replicate hp]; rfl

/-- Over the reals `MovingStandardDeviation` is 0, -/
theorem C62_msd {p : Nat} (hp : 0 < p) {s : List Nat} (t : Idx s → ℝ) :
    OnConstant (MSD (p : Int)) (vBuf (s := s)) (vBuf (s := s)) (fun i => XR.fin (t i)) (fun _ => Arith.zero) :=
  (C29_msd_streams hp s).const fun n => movingStdT_replicate hp t (n + 1)
example := C62_msd (p := 2) (by norm_num) (s := [2]) (fun c => if c.1 = 0 then 3 else 5)

/-- the three Bollinger bands coincide, -/
theorem C62_bollinger {p : Nat} (hp : 0 < p) (k : ℚ) {s : List Nat} (t : Idx s → ℝ) :
    OnConstant (BollingerBands (p : Int) k) (vBuf (s := s)) (vBuf3 (s := s)) (fun i => XR.fin (t i))
      (fun i => let m := if i + 1 < p then Arith.zero else fun i => XR.fin (t i); (m, m, m)) :=
  (C30_bollinger_streams hp k s).const fun n => by
    have h1 : movingStd p (List.replicate (n + 1) fun i => XR.fin (t i)) = (Arith.zero : Idx s → XR ℝ) := funext fun i => by
      rw [movingStd_apply, List.map_replicate, movingStd_replicate hp]; rfl
    have h2 : movingAvg p (List.replicate (n + 1) fun i => XR.fin (t i)) = if n + 1 < p then (Arith.zero : Idx s → XR ℝ) else fun i => XR.fin (t i) := funext fun i => by
      rw [movingAvg_apply, List.map_replicate, (XR.still (t i)).movingAvg hp]
      split <;> rfl
    have h3 : (Arith.zero : Idx s → XR ℝ) * Arith.ofRat k = Arith.zero := funext fun i => by
      show (Arith.zero : XR ℝ) * Arith.ofRat k = Arith.zero
      simp
    have h4 : ∀ m : Idx s → XR ℝ, m - Arith.zero = m ∧ m + Arith.zero = m := fun m => ⟨funext fun i => by show m i - (Arith.zero : XR ℝ) = m i; cases m i <;> simp <;> rfl, funext fun i => by show m i + (Arith.zero : XR ℝ) = m i; cases m i <;> simp <;> rfl⟩
    rw [bands3, h1, h2, h3, (h4 _).1, (h4 _).2]
example := C62_bollinger (p := 2) (by norm_num) 2 (s := [2]) (fun c => if c.1 = 0 then 3 else 5)

/-- `LogarithmicReturn` is 0, -/
theorem C62_logReturn {p : Nat} (hp : 0 < p) (a : ℝ) : OnConstant (LogReturn (p : Int)) vSBuf vSBuf (XR.fin a) (fun _ => Arith.zero) :=
  (C37_logReturn_streams (by simp) hp).const <| growth_replicate fun ha => by
    rw [fin_div _ _ ha, div_self ha]; exact log_one
example := C62_logReturn (p := 2) (by norm_num) 2

/-- so is `Volatility`, -/
theorem C62_volatility {m r : Nat} (hm : 0 < m) (hr : 0 < r) (a : ℝ) : OnConstant (Volatility (m : Int) r) vSBuf vSBuf (XR.fin a) (fun _ => Arith.zero) :=
  (C38_volatility_streams (by simp) hm hr).const fun n => by
    rw [volatility, scan_replicate (c := XR.fin 0) fun n => (growth_replicate (fun ha => by rw [fin_div _ _ ha, div_self ha]; exact log_one) n).trans zero_eq,
      movingStd_replicate hm, ite_self]
example := C62_volatility (m := 2) (r := 3) (by norm_num) (by norm_num) 2

/-- `SharpeRatio` of a return and a rate that do not change, -/
theorem C62_sharpe {p : Nat} (hp : 0 < p) (a b : ℝ) : OnConstant (SharpeRatio (p : Int)) vSBuf2 vSBuf (XR.fin a, XR.fin b) (fun _ => Arith.zero) :=
  (C39_sharpe_streams hp).const fun n => by
    rw [List.map_replicate, window_replicate, sharpe, fin_sub, std_replicate (by omega), if_pos (by simp)]; simp
example := C62_sharpe (p := 2) (by norm_num) 2 2

/-- `Skewness`; -/
theorem C62_skewness {p : Nat} (hp : 0 < p) (a : ℝ) : OnConstant (Skewness (p : Int)) vSBuf vSBuf (XR.fin a) (fun _ => Arith.zero) :=
  (skewness_streams hp).const fun n => by
    have := skewness_fin (l := List.replicate (min p (n + 1)) a) (by simp; omega)
    rw [List.map_replicate] at this
    rw [window_replicate, this, if_pos (stdDev_replicate _ a), zero_eq]
example := C62_skewness (p := 2) (by norm_num) 2

theorem corrOf_replicate {p : Nat} (hp : 0 < p) {s : List Nat} (a b : Idx s → ℝ) (n : Nat) :
    corrOf p (List.replicate n (fun i => XR.fin (a i), fun i => XR.fin (b i))) = if n ≤ p then (Arith.zero : Idx s → XR ℝ) else fun _ => XR.nan := funext fun i => by
  rw [corrOf_apply, List.map_replicate]
  simp only [corrOf, List.length_replicate, List.map_replicate, window_replicate]
  split
  · rfl
  · rw [Nat.min_eq_left (by omega)]
    have := pearson_constant (l := List.replicate p (a i, b i)) (by simpa using hp.ne') (by simp +contextual [Varies])
    simpa only [List.map_replicate] using this

/-- `Correlation` of two series that do not change is 0 before index `p` and NaN from there on, -/
theorem C62_correlation {p : Nat} (hp : 0 < p) {s : List Nat} (a b : Idx s → ℝ) :
    OnConstant (Correlation (p : Int)) (vBuf2 (s := s)) (vBuf (s := s)) (fun i => XR.fin (a i), fun i => XR.fin (b i)) (fun i => if i < p then Arith.zero else fun _ => XR.nan) :=
  (C41_correlation_streams hp s).const fun n => by rw [corrOf_replicate hp]; rfl
example := C62_correlation (p := 2) (by norm_num) (s := [2]) (fun c => if c.1 = 0 then 3 else 5) fun _ => 7

theorem crossOf_replicate {p : Nat} (hp : 0 < p) (lag : Nat) {s : List Nat} (a b : Idx s → ℝ) (n : Nat) :
    crossOf p lag (List.replicate n (fun i => XR.fin (a i), fun i => XR.fin (b i))) = if n ≤ p + lag then (Arith.zero : Idx s → XR ℝ) else fun _ => XR.nan := by
  rw [crossOf, lagPairs, List.map_replicate, List.map_replicate, List.drop_replicate, List.zip_replicate, Nat.min_eq_left (by omega), corrOf_replicate hp]
  exact if_congr (by omega) rfl rfl

/-- `CrossCorrelation` 0 before index `p + lag` and NaN from there on, -/
theorem C62_crossCorrelation {p lag : Nat} (hp : 0 < p) (hl : 0 < lag) {s : List Nat} (a b : Idx s → ℝ) :
    OnConstant (CrossCorrelation (p : Int) lag) (vBuf2 (s := s)) (vBuf (s := s)) (fun i => XR.fin (a i), fun i => XR.fin (b i)) (fun i => if i < p + lag then Arith.zero else fun _ => XR.nan) :=
  (C42_cross_streams hp hl s).const fun n => by rw [crossOf_replicate hp]; rfl
example := C62_crossCorrelation (p := 2) (lag := 1) (by norm_num) (by norm_num) (s := [2]) (fun c => if c.1 = 0 then 3 else 5) fun _ => 7

/-- and so is `AutoCorrelation`. -/
theorem C62_autoCorrelation {p lag : Nat} (hp : 0 < p) (hl : 0 < lag) {s : List Nat} (a : Idx s → ℝ) :
    OnConstant (AutoCorrelation (p : Int) lag) (vBuf (s := s)) (vBuf (s := s)) (fun i => XR.fin (a i)) (fun i => if i < p + lag then Arith.zero else fun _ => XR.nan) :=
  (C42_auto_streams hp hl s).const fun n => by rw [List.map_replicate, crossOf_replicate hp]; rfl
example := C62_autoCorrelation (p := 2) (lag := 1) (by norm_num) (by norm_num) (s := [2]) (fun c => if c.1 = 0 then 3 else 5)

example : ∃ sf s0, call (RSI 2) (vSBuf (List.replicate 4 (XR.fin (3 : ℚ)))) none = .ok (vSBuf [XR.fin 0, XR.fin 0, XR.nan, XR.nan], sf, s0) := by
  obtain ⟨sf, s0, h⟩ := C62_rsi (K := ℚ) (p := 2) (by decide) 3 4 (by decide)
  exact ⟨sf, s0, by simpa [List.range_succ] using h⟩

example : ∃ sf s0, call (SMA 3) (vBuf (s := []) (List.replicate 4 fun _ => XR.fin (7 : ℚ))) none =
    .ok (vBuf (s := []) [fun _ => XR.fin 0, fun _ => XR.fin 0, fun _ => XR.fin 7, fun _ => XR.fin 7], sf, s0) := by
  obtain ⟨sf, s0, h⟩ := C62_sma (K := ℚ) (p := 3) (by decide) (s := []) (fun _ => 7) 4 (by decide)
  exact ⟨sf, s0, by simpa [List.range_succ, show (Arith.zero : Idx [] → XR ℚ) = fun _ => XR.fin 0 from funext fun _ => XR.zero_eq] using h⟩

end TS
