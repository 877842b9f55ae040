import Verif.Props.Constant
/-
C63: adding a constant to all samples.
-/
namespace TS
open PyVal XR
set_option linter.unusedSectionVars false

theorem StreamsAs.commutesAt {α A B : Type} {op : Operator α} {ser : List A → Val α} {outs : List B → Val α} {y : List A → B} (h : StreamsAs op ser outs y)
    {f : A → A} {g : Nat → B → B} (e : ∀ l n, l.length = n + 1 → y (l.map f) = g n (y l)) : CommutesAt op ser outs f g := by
  intro xs hx
  obtain ⟨sf, s0, h1⟩ := h.at' hx
  obtain ⟨sf', s0', h2⟩ := h.at' (xs := xs.map f) (by simpa using hx)
  refine ⟨_, sf, s0, sf', s0', h1, ?_⟩
  rw [h2]
  congr 3
  apply List.ext_getElem (by simp)
  intro i h1 h2
  simp only [scan_length, List.length_map] at h1
  simp only [scan_getElem, List.nil_append, List.getElem_mapIdx, ← List.map_take]
  exact e _ _ (by rw [List.length_take]; omega)

/-- With a condition on the series that all its beginnings inherit. -/
theorem StreamsAs.commutes' {α A B : Type} {op : Operator α} {ser : List A → Val α} {outs : List B → Val α} {y : List A → B} (h : StreamsAs op ser outs y)
    {f : A → A} {g : B → B} (e : ∀ l, l ≠ [] → y (l.map f) = g (y l)) : Commutes op ser outs f g := by
  intro xs hx
  obtain ⟨os, sf, s0, sf', s0', h1, h2⟩ := h.commutesAt (f := f) (g := fun _ => g) (fun l n hl => e l (by rintro rfl; simp at hl)) xs hx
  exact ⟨os, sf, s0, sf', s0', h1, by rw [h2, show os.mapIdx (fun _ => g) = os.map g from List.ext_getElem (by simp) fun i _ _ => by simp]⟩

/-- A number that cancels. -/
structure Cancels {E : Type} [Arith E] (c : E) : Prop extends Still c where
  cancel : ∀ x y : E, x + c - (y + c) = x - y
  keep : ∀ x : E, x + Arith.zero = x

theorem Cancels.pointwise {ι E : Type} [Arith E] {c : ι → E} (h : ∀ i, Cancels (c i)) : Cancels c where
  __ := Still.pointwise fun i => (h i).toStill
  cancel x y := funext fun i => (h i).cancel (x i) (y i)
  keep x := funext fun i => (h i).keep (x i)

section
variable {E : Type} [Arith E] {c : E}

theorem map_plus (l : List E) : l.map (· + c) = (l.map fun x => (x, c)).map (fun z => z.1 + z.2) := by simp [Function.comp_def]
theorem map_fst' (l : List E) : (l.map fun x => (x, c)).map Prod.fst = l := by simp [Function.comp_def]
theorem map_snd' (l : List E) : (l.map fun x => (x, c)).map Prod.snd = List.replicate l.length c := by simp [Function.comp_def]

/-- An additive function of the history. -/
theorem shifted {B : Type} {y : List E → B} {plus : B → B → B}
    (ha : ∀ l : List (E × E), y (l.map fun z => z.1 + z.2) = plus (y (l.map Prod.fst)) (y (l.map Prod.snd))) (l : List E) :
    y (l.map (· + c)) = plus (y l) (y (List.replicate l.length c)) := by
  rw [map_plus, ha, map_fst', map_snd']

variable (A : Adding E) (h : Cancels c)
include A h

theorem shifted_mean {l : List E} (hl : l ≠ []) : Arith.mean (l.map (· + c)) = Arith.mean l + c := by
  have hl' : 0 < l.length := List.length_pos_iff.2 hl
  have e : Arith.sum (l.map (· + c)) = Arith.sum l + Arith.sum (List.replicate l.length c) := shifted A.sum l
  rw [Arith.mean, e, List.length_map, A.div _ _ _ hl', h.avg _ hl']; rfl

theorem shifted_var {l : List E} (hl : l ≠ []) : (Arith.moments (l.map (· + c))).2 = (Arith.moments l).2 := by
  simp only [Arith.moments, shifted_mean A h hl, List.map_map, Function.comp_def, h.cancel]

theorem shifted_std {p : Nat} (hp : 0 < p) {l : List E} : movingStd p (l.map (· + c)) = movingStd p l := by
  simp only [movingStd, List.length_map, window_of_map]
  split
  · rfl
  · rw [shifted_var A h (window_ne_nil hp (by rw [← List.length_pos_iff]; omega))]

theorem shifted_smaDiff (h0 : Still (Arith.zero : E)) {slow fast : Nat} (hf : 0 < fast) (hs : fast ≤ slow) (l : List E) :
    smaDiff slow fast (l.map (· + c)) = smaDiff slow fast l := by
  rw [shifted (A.smaDiff (hf.trans_le hs) hf), h.toStill.smaDiff h0 hf hs, h.keep]

theorem shifted_macdLine {slow fast : Nat} (hf : 0 < fast) (hs : fast ≤ slow) (l : List E) :
    macdLine slow fast (l.map (· + c)) = macdLine slow fast l := by
  rw [shifted (A.macdLine (hf.trans_le hs) hf), h.toStill.macdLine hf hs, h.keep]

theorem shifted_macdSignal (h0 : Still (Arith.zero : E)) {slow fast m : Nat} (hf : 0 < fast) (hs : fast ≤ slow) (hm : 0 < m) (l : List E) :
    macdSignal slow fast m (l.map (· + c)) = macdSignal slow fast m l := by
  rw [shifted (A.macdSignal (hf.trans_le hs) hf hm), h.toStill.macdSignal h0 hf hs hm, h.keep]

theorem shifted_macdHist (h0 : Still (Arith.zero : E)) {slow fast m : Nat} (hf : 0 < fast) (hs : fast ≤ slow) (hm : 0 < m) (l : List E) :
    macdHist slow fast m (l.map (· + c)) = macdHist slow fast m l := by
  rw [shifted (A.macdHist (hf.trans_le hs) hf hm), h.toStill.macdHist h0 hf hs hm, h.keep]

theorem shifted_momentum {p : Nat} {l : List E} (hl : l ≠ []) : momentum p (l.map (· + c)) = momentum p l := by
  obtain ⟨n, hn⟩ : ∃ n, l.length = n + 1 := ⟨l.length - 1, by have := List.length_pos_iff.2 hl; omega⟩
  rw [shifted (A.momentum p), hn, h.toStill.momentum, h.keep]

theorem shifted_pearson {d : E} (g : Cancels d) {xs ys : List E} (hx : xs ≠ []) (hy : ys ≠ []) : pearson (xs.map (· + c)) (ys.map (· + d)) = pearson xs ys := by
  simp only [pearson, shifted_mean A h hx, shifted_mean A g hy, List.zipWith_map, List.map_map, Function.comp_def, h.cancel, g.cancel]

end

section
variable {K : Type} [Field K] [LinearOrder K] [IsStrictOrderedRing K] [Transc K] [FloorRing K]

theorem XR.cancels (c : K) : Cancels (XR.fin c) where
  __ := XR.still c
  cancel x y := by
    show add (add x (fin c)) (neg (add y (fin c))) = add x (neg y)
    rcases x with a | _ | _ | _ <;> rcases y with b | _ | _ | _ <;> simp [add, neg]
  keep x := by
    rw [zero_eq]
    show add x (fin 0) = x
    rcases x with a | _ | _ | _ <;> simp [add]

theorem XR.cancelsT {s : List Nat} (c : Idx s → K) : Cancels (fun i => XR.fin (c i)) := Cancels.pointwise fun i => XR.cancels (c i)

theorem shifted_changes (c : K) (l : List (XR K)) : changes (l.map (plus c)) = changes l := by
  simp only [changes, ← List.map_tail, List.zipWith_map, plus, (XR.cancels c).cancel]

variable {s : List Nat} (c : Idx s → K) (k : K)

theorem after (x : Idx s → XR K) (n p : Nat) : x + (if n < p then Arith.zero else fun i => XR.fin (c i)) = if n < p then x else plusT c x := by
  split
  · exact (XR.cancelsT c).keep x
  · rfl

/-- **C63 Offset**, exact arithmetic with infinities and NaN: adding the number `c` to all samples adds `c` to the outputs of `SimpleMovingAverage` once the
warm-up is over, and leaves the zeros before, -/
theorem C63_sma {p : Nat} (hp : 0 < p) :
    CommutesAt (SMA (p : Int)) (vBuf (s := s)) (vBuf (s := s)) (plusT c) (fun i o => if i + 1 < p then o else plusT c o) :=
  (C25_sma hp s).commutesAt fun l n hn => by
    rw [← after, ← hn, ← (XR.stillT c).movingAvg hp l.length]; exact shifted (XR.adding.pointwise.movingAvg hp) l
example := C63_sma (K := ℚ) (s := [2]) (fun c => if c.1 = 0 then 3 else 5) (p := 2) (by norm_num)

/-- likewise `ExponentialMovingAverage`, -/
theorem C63_ema {p : Nat} (hp : 0 < p) :
    CommutesAt (EMA (p : Int)) (vBuf (s := s)) (vBuf (s := s)) (plusT c) (fun i o => if i + 1 < p then o else plusT c o) :=
  (C26_ema hp s).commutesAt fun l n hn => by
    rw [← after, ← hn, ← (XR.stillT c).expAvg hp l.length]; exact shifted (XR.adding.pointwise.expAvg hp) l
example := C63_ema (K := ℚ) (s := [2]) (fun c => if c.1 = 0 then 3 else 5) (p := 2) (by norm_num)

/-- `RollingMovingAverage` -/
theorem C63_rma {p : Nat} (hp : 0 < p) :
    CommutesAt (RMA (p : Int)) (vBuf (s := s)) (vBuf (s := s)) (plusT c) (fun i o => if i + 1 < p then o else plusT c o) :=
  (C27_rma hp s).commutesAt fun l n hn => by
    rw [← after, ← hn, ← (XR.stillT c).rollAvg hp l.length]; exact shifted (XR.adding.pointwise.rollAvg hp) l
example := C63_rma (K := ℚ) (s := [2]) (fun c => if c.1 = 0 then 3 else 5) (p := 2) (by norm_num)

/-- and `Lag`. -/
theorem C63_lag {p : Nat} (hp : 0 < p) :
    CommutesAt (Lag (p : Int)) (vBuf (s := s)) (vBuf (s := s)) (plusT c) (fun i o => if i < p then o else plusT c o) :=
  (C17_lag_streams hp s).commutesAt fun l n hn => by
    rw [← after, show (if n < p then (Arith.zero : Idx s → XR K) else fun i => XR.fin (c i)) = lagged Arith.zero p (List.replicate l.length fun i => XR.fin (c i)) by
      rw [Still.lagged]; split_ifs <;> first | rfl | omega]
    exact shifted (XR.adding.pointwise.lagged p) l
example := C63_lag (K := ℚ) (s := [2]) (fun c => if c.1 = 0 then 3 else 5) (p := 2) (by norm_num)

/-- The macd line, signal and histogram do not change, the two averages do after their warm-ups; the fast period is not longer than the slow one. -/
theorem C63_macd {slow fast m : Nat} (hf : 0 < fast) (hs : fast ≤ slow) (hm : 0 < m) :
    CommutesAt (MACD (slow : Int) fast m) (vBuf (s := s)) (vBuf5 (s := s)) (plusT c)
      (fun i o => (if i + 1 < slow then o.1 else plusT c o.1, if i + 1 < fast then o.2.1 else plusT c o.2.1, o.2.2)) :=
  have A := (XR.adding (K := K)).pointwise (ι := Idx s)
  have h := XR.cancelsT c
  (C31_macd (hf.trans_le hs) hf hm s).commutesAt fun l n hn => by
    show macdAll slow fast m (l.map (· + fun i => XR.fin (c i))) = _
    rw [← after, ← after, ← hn, ← (XR.stillT c).expAvg hf l.length, ← (XR.stillT c).expAvg (hf.trans_le hs) l.length]
    simp only [macdAll, shifted_macdLine A h hf hs, shifted_macdSignal A h XR.still0T hf hs hm, shifted_macdHist A h XR.still0T hf hs hm,
      shifted (A.expAvg hf) l, shifted (A.expAvg (hf.trans_le hs)) l]
example := C63_macd (K := ℚ) (s := [2]) (fun c => if c.1 = 0 then 3 else 5) (slow := 3) (fast := 2) (m := 2) (by norm_num) (by norm_num) (by norm_num)

/-- Nothing changes in `SimpleMovingAverageCrossover`, -/
theorem C63_crossover {slow fast : Nat} (hf : 0 < fast) (hs : fast ≤ slow) :
    Commutes (SMACrossover (slow : Int) fast) (vBuf (s := s)) (vBuf (s := s)) (plusT c) id :=
  (C32_crossover (hf.trans_le hs) hf s).commutes (shifted_smaDiff XR.adding.pointwise (XR.cancelsT c) XR.still0T hf hs)
example := C63_crossover (K := ℚ) (s := [2]) (fun c => if c.1 = 0 then 3 else 5) (slow := 3) (fast := 2) (by norm_num) (by norm_num)

/-- `Momentum`, -/
theorem C63_momentum {p : Nat} (hp : 0 < p) : Commutes (Momentum (p : Int)) (vBuf (s := s)) (vBuf (s := s)) (plusT c) id :=
  (C19_momentum_streams hp s).commutes' fun _ hl => shifted_momentum XR.adding.pointwise (XR.cancelsT c) hl
example := C63_momentum (K := ℚ) (s := [2]) (fun c => if c.1 = 0 then 3 else 5) (p := 2) (by norm_num)

/-- `MovingStandardDeviation`, -/
theorem C63_msd {p : Nat} (hp : 0 < p) : Commutes (MSD (p : Int)) (vBuf (s := s)) (vBuf (s := s)) (plusT c) id :=
  (C29_msd_streams hp s).commutes fun _ => shifted_std XR.adding.pointwise (XR.cancelsT c) hp
example := C63_msd (K := ℚ) (s := [2]) (fun c => if c.1 = 0 then 3 else 5) (p := 2) (by norm_num)

theorem shifted_bands {p : Nat} (hp : 0 < p) (q : ℚ) (l : List (XR K)) :
    bands3 p q (l.map (plus k)) = if l.length < p then bands3 p q l else (plus k (bands3 p q l).1, plus k (bands3 p q l).2.1, plus k (bands3 p q l).2.2) := by
  have e := shifted (c := XR.fin k) (XR.adding.movingAvg hp) l
  rw [(XR.still k).movingAvg hp] at e
  show bands3 p q (l.map (· + XR.fin k)) = _
  rw [bands3, shifted_std XR.adding (XR.cancels k) hp, e]
  split
  · rw [(XR.cancels k).keep]; rfl
  · have a : ∀ x y : XR K, x + fin k - y = x - y + fin k := fun x y => by
      have := XR.adding.sub x (fin k) y Arith.zero
      rw [(XR.cancels k).keep, show (fin k - Arith.zero : XR K) = fin k by simp] at this
      exact this
    have b : ∀ x y : XR K, x + fin k + y = x + y + fin k := fun x y => by rw [add_assoc', add_assoc', add_comm' (fin k)]
    rw [a, b]; rfl

/-- while the Bollinger bands move along after the warm-up; -/
theorem C63_bollinger {p : Nat} (hp : 0 < p) (q : ℚ) :
    CommutesAt (BollingerBands (p : Int) q) (vBuf (s := s)) (vBuf3 (s := s)) (plusT c) (fun i o => if i + 1 < p then o else (plusT c o.1, plusT c o.2.1, plusT c o.2.2)) :=
  (C30_bollinger_streams hp q s).commutesAt fun l n hn => by
    have e : ∀ i, (l.map (plusT c)).map (fun t => t i) = (l.map fun t => t i).map (plus (c i)) := fun i => by simp [plusT, Function.comp_def]
    have hb : ∀ (m : List (Idx s → XR K)) i, ((bands3 p q m).1 i, (bands3 p q m).2.1 i, (bands3 p q m).2.2 i) = bands3 p q (m.map fun t => t i) := fun m i => by
      show (movingAvg p m i - movingStd p m i * _, movingAvg p m i, movingAvg p m i + movingStd p m i * _) = _
      rw [movingAvg_apply, movingStd_apply]; rfl
    have key := fun i => shifted_bands (c i) hp q (l.map fun t => t i)
    simp only [← e, ← hb, List.length_map, hn] at key
    split
    · rename_i h
      simp only [if_pos h, Prod.mk.injEq] at key
      exact Prod.ext (funext fun i => (key i).1) (Prod.ext (funext fun i => (key i).2.1) (funext fun i => (key i).2.2))
    · rename_i h
      simp only [if_neg h, Prod.mk.injEq] at key
      exact Prod.ext (funext fun i => (key i).1) (Prod.ext (funext fun i => (key i).2.1) (funext fun i => (key i).2.2))
example := C63_bollinger (K := ℚ) (s := [2]) (fun c => if c.1 = 0 then 3 else 5) (p := 2) (by norm_num) 2

/-- Unchanged are also `RelativeStrengthIndex`, -/
theorem C63_rsi {p : Nat} (hp : 0 < p) : Commutes (RSI (p : Int)) vSBuf vSBuf (plus k) id :=
  (C36_rsi_streams hp).commutes fun l => by
    rw [rsi, rsi, shifted_changes, List.length_map]; rfl
example := C63_rsi (K := ℚ) 2 (p := 2) (by norm_num)

theorem shifted_corrOf {p : Nat} (hp : 0 < p) (k' : K) (l : List (XR K × XR K)) : corrOf p (l.map (Prod.map (plus k) (plus k'))) = corrOf p l := by
  simp only [corrOf, List.length_map, List.map_map, window_of_map]
  split
  · rfl
  · rename_i h
    have hw : window p l ≠ [] := window_ne_nil hp (by rw [← List.length_pos_iff]; omega)
    have := shifted_pearson (E := XR K) XR.adding (XR.cancels k) (XR.cancels k') (xs := (window p l).map Prod.fst) (ys := (window p l).map Prod.snd) (by simpa using hw) (by simpa using hw)
    rw [List.map_map, List.map_map] at this
    exact this

theorem shifted_corrOfT {p : Nat} (hp : 0 < p) (c' : Idx s → K) (l : List ((Idx s → XR K) × (Idx s → XR K))) : corrOf p (l.map (Prod.map (plusT c) (plusT c'))) = corrOf p l :=
  funext fun i => by
    rw [corrOf_apply, corrOf_apply, ← shifted_corrOf (c i) hp (c' i) (l.map _), List.map_map, List.map_map]; rfl

/-- the correlation (different numbers may be added to the two series), -/
theorem C63_correlation {p : Nat} (hp : 0 < p) (c' : Idx s → K) : Commutes (Correlation (p : Int)) (vBuf2 (s := s)) (vBuf (s := s)) (Prod.map (plusT c) (plusT c')) id :=
  (C41_correlation_streams hp s).commutes fun l => shifted_corrOfT c hp c' l
example := C63_correlation (K := ℚ) (s := [2]) (fun c => if c.1 = 0 then 3 else 5) (p := 2) (by norm_num) fun _ => 7

/-- `CrossCorrelation`, likewise, -/
theorem C63_crossCorrelation {p lag : Nat} (hp : 0 < p) (hl : 0 < lag) (c' : Idx s → K) :
    Commutes (CrossCorrelation (p : Int) lag) (vBuf2 (s := s)) (vBuf (s := s)) (Prod.map (plusT c) (plusT c')) id :=
  (C42_cross_streams hp hl s).commutes fun l => by
    rw [crossOf, lagPairs_of_map, shifted_corrOfT c hp]; rfl
example := C63_crossCorrelation (K := ℚ) (s := [2]) (fun c => if c.1 = 0 then 3 else 5) (p := 2) (lag := 1) (by norm_num) (by norm_num) fun _ => 7

/-- `AutoCorrelation`, -/
theorem C63_autoCorrelation {p lag : Nat} (hp : 0 < p) (hl : 0 < lag) : Commutes (AutoCorrelation (p : Int) lag) (vBuf (s := s)) (vBuf (s := s)) (plusT c) id :=
  (C42_auto_streams hp hl s).commutes fun l => by
    have e : (l.map (plusT c)).map (fun x => (x, x)) = (l.map fun x => (x, x)).map (Prod.map (plusT c) (plusT c)) := by simp [Function.comp_def]
    rw [crossOf, e, lagPairs_of_map, shifted_corrOfT c hp]; rfl
example := C63_autoCorrelation (K := ℚ) (s := [2]) (fun c => if c.1 = 0 then 3 else 5) (p := 2) (lag := 1) (by norm_num) (by norm_num)

/-- `SharpeRatio` when the same number is added to the returns and the rates, -/
theorem C63_sharpe {p : Nat} (hp : 0 < p) : Commutes (SharpeRatio (p : Int)) vSBuf2 vSBuf (Prod.map (plus k) (plus k)) id :=
  (C39_sharpe_streams hp).commutes fun l => by
    simp only [List.map_map, Function.comp_def, Prod.map, plus, (XR.cancels k).cancel, id]
example := C63_sharpe (K := ℚ) 2 (p := 2) (by norm_num)

/-- and the trading signals of the moving averages -/
theorem C63_sma_signal {slow fast : Nat} (hf : 0 < fast) (hs : fast ≤ slow) : Commutes (SMACrossoverSignal (slow : Int) fast) vSBuf vIBuf (plus k) id :=
  (C34_sma_streams (hf.trans_le hs) hf).commutes fun l => by
    rw [smaSignal, smaSignal, scan_of_map' (g := id) (f := plus k) (shifted_smaDiff XR.adding (XR.cancels k) XR.still0 hf hs), List.map_id, List.length_map]; rfl
example := C63_sma_signal (K := ℚ) 2 (slow := 3) (fast := 2) (by norm_num) (by norm_num)

/-- and of the macd. -/
theorem C63_macd_signal {slow fast m : Nat} (hf : 0 < fast) (hs : fast ≤ slow) (hm : 0 < m) : Commutes (MACDSignal (slow : Int) fast m) vSBuf vIBuf (plus k) id :=
  (C34_macd_streams (hf.trans_le hs) hf hm).commutes fun l => by
    rw [macdTrade, macdTrade, scan_of_map' (g := id) (f := plus k) (shifted_macdHist XR.adding (XR.cancels k) XR.still0 hf hs hm), List.map_id, List.length_map]; rfl
example := C63_macd_signal (K := ℚ) 2 (slow := 3) (fast := 2) (m := 2) (by norm_num) (by norm_num) (by norm_num)

theorem plus_lt (x y : XR K) : lt (plus k x) (plus k y) = lt x y := by
  show lt (add x (fin k)) (add y (fin k)) = lt x y
  rcases x with a | _ | _ | _ <;> rcases y with b | _ | _ | _ <;> simp [add, lt]

theorem plus_min (x y : XR K) : plus k (XR.min x y) = XR.min (plus k x) (plus k y) := by
  show add (XR.min x y) (fin k) = XR.min (add x (fin k)) (add y (fin k))
  rcases x with a | _ | _ | _ <;> rcases y with b | _ | _ | _ <;> simp [add, XR.min, lt] <;> split_ifs <;> simp [add]

theorem plus_max (x y : XR K) : plus k (XR.max x y) = XR.max (plus k x) (plus k y) := by
  show add (XR.max x y) (fin k) = XR.max (add x (fin k)) (add y (fin k))
  rcases x with a | _ | _ | _ <;> rcases y with b | _ | _ | _ <;> simp [add, XR.max, lt] <;> split_ifs <;> simp [add]

theorem run_plus (cmp : XR K → XR K → Bool) (hc : ∀ x y, cmp (plus k x) (plus k y) = cmp x y) (l : List (XR K)) (a : XR K) :
    (l.map (plus k)).foldl (fun m x => if cmp x m then x else m) (plus k a) = plus k (l.foldl (fun m x => if cmp x m then x else m) a) := by
  induction l generalizing a with
  | nil => rfl
  | cons x l ih =>
    simp only [List.map_cons, List.foldl_cons, hc]
    rw [← ih]
    split <;> rfl

/-- The extrema move along. -/
theorem C63_globalMin : Commutes GlobalMinimum vSBuf vSBuf (plus k) (plus k) := C20_global_min_streams.commutes' fun l hl => by
  obtain ⟨a, l, rfl⟩ := List.exists_cons_of_ne_nil hl
  exact run_plus k _ (plus_lt k) l a
example := C63_globalMin (K := ℚ) 2

theorem C63_globalMax : Commutes GlobalMaximum vSBuf vSBuf (plus k) (plus k) := C20_global_max_streams.commutes' fun l hl => by
  obtain ⟨a, l, rfl⟩ := List.exists_cons_of_ne_nil hl
  exact run_plus k (fun x y => TFNum.lt y x) (fun x y => plus_lt k y x) l a
example := C63_globalMax (K := ℚ) 2

theorem C63_localMin {p : Nat} (hp : 0 < p) : Commutes (LocalMinimum (p : Int)) vSBuf vSBuf (plus k) (plus k) :=
  (C21_local_min_streams hp).commutes fun l => by
    rw [window_of_map]
    show ((window p l).map (plus k)).foldr XR.min pinf = plus k ((window p l).foldr XR.min pinf)
    induction window p l with
    | nil => rfl
    | cons x l ih => rw [List.map_cons, List.foldr_cons, List.foldr_cons, ih, plus_min]
example := C63_localMin (K := ℚ) 2 (p := 2) (by norm_num)

theorem C63_localMax {p : Nat} (hp : 0 < p) : Commutes (LocalMaximum (p : Int)) vSBuf vSBuf (plus k) (plus k) :=
  (C21_local_max_streams hp).commutes fun l => by
    rw [window_of_map]
    show ((window p l).map (plus k)).foldr XR.max ninf = plus k ((window p l).foldr XR.max ninf)
    induction window p l with
    | nil => rfl
    | cons x l ih => rw [List.map_cons, List.foldr_cons, List.foldr_cons, ih, plus_max]
example := C63_localMax (K := ℚ) 2 (p := 2) (by norm_num)

end

/-- `Skewness` of real numbers does not change. -/
theorem C63_skewness {p : Nat} (hp : 0 < p) (k : ℝ) : Commutes (Skewness (p : Int)) finSeries finSeries (· + k) id :=
  (skew_reals hp).commutes fun l => by
    simp only [window_of_map, skewOf, skew, stdDev, variance_shift, thirdMoment_shift, id]
    by_cases h : Real.sqrt (variance (window p l)) = 0 <;> simp [h]

example : output (call (EMA 2) (series [1, 2, 6]) none) = .ok (series [0, 3 / 2, 9 / 2]) ∧
    output (call (EMA 2) (series [11, 12, 16]) none) = .ok (series [0, 23 / 2, 29 / 2]) := ⟨by decide +kernel, by decide +kernel⟩
example : output (call (RSI 2) (series [1, 2, 6, 3]) none) = output (call (RSI 2) (series [11, 12, 16, 13]) none) := by decide +kernel

end TS
