import Verif.Props.Units
/-
C60: turning the series upside down.
-/
namespace TS
open PyVal XR

theorem StreamsAs.transports {α A B A' B' : Type} {op op' : Operator α} {ser : List A → Val α} {outs : List B → Val α} {ser' : List A' → Val α} {outs' : List B' → Val α}
    {y : List A → B} {y' : List A' → B'} (h : StreamsAs op ser outs y) (h' : StreamsAs op' ser' outs' y') {f : A → A'} {g : B → B'}
    (e : ∀ l, l ≠ [] → y' (l.map f) = g (y l)) : Transports op op' ser outs ser' outs' f g := by
  intro xs hx
  obtain ⟨sf, s0, h1⟩ := h.at' hx
  obtain ⟨sf', s0', h2⟩ := h'.at' (xs := xs.map f) (by simpa using hx)
  have := scan_comap (y := y') (y' := y) (f := f) (g := g) e [] xs
  rw [List.map_nil] at this
  exact ⟨_, sf, s0, sf', s0', h1, by rw [h2, this]⟩

section
set_option linter.unusedSectionVars false
variable {K : Type} [Field K] [LinearOrder K] [IsStrictOrderedRing K] [Transc K] [FloorRing K]

theorem scale_neg_one : (scale (-1) : XR K → XR K) = fun x => - x := by
  funext x
  show scale (-1) x = neg x
  rcases x with a | _ | _ | _ <;> simp [neg, scale_pinf', scale_ninf']

theorem neg_lin : Lin (fun x : XR K => - x) := scale_neg_one (K := K) ▸ scale_lin (by simp)

theorem negT_lin {s : List Nat} : Lin (fun t : Idx s → XR K => - t) := neg_lin.pointwise

theorem lt_neg (x y : XR K) : TFNum.lt (- x) (- y) = TFNum.lt y x := by
  show lt (neg x) (neg y) = lt y x
  rcases x with a | _ | _ | _ <;> rcases y with b | _ | _ | _ <;> simp [lt, neg]

theorem max_neg (x y : XR K) : Arith.max (- x) (- y) = - Arith.min x y := by
  show XR.max (neg x) (neg y) = neg (XR.min x y)
  rcases x with a | _ | _ | _ <;> rcases y with b | _ | _ | _ <;> simp [XR.max, XR.min, lt, neg]
  split_ifs <;> rfl

theorem neg_neg' (x : XR K) : - - x = x := by
  show neg (neg x) = x
  rcases x with a | _ | _ | _ <;> simp [neg]

theorem min_neg (x y : XR K) : Arith.min (- x) (- y) = - Arith.max x y := by
  rw [← neg_neg' (Arith.min (- x) (- y)), ← max_neg, neg_neg', neg_neg']

theorem runMax_neg (l : List (XR K)) : runMax (l.map fun x => - x) = - runMin l := by
  cases l with
  | nil => exact neg_lin.zero.symm
  | cons x l =>
    simp only [runMin, runMax, List.map_cons]
    induction l generalizing x with
    | nil => rfl
    | cons y l ih =>
      rw [List.map_cons, List.foldl_cons, List.foldl_cons, lt_neg, ← ih]
      congr 1
      split_ifs <;> rfl

theorem redMax_neg (l : List (XR K)) : (Arith.redMax (l.map fun x => - x) : XR K) = - Arith.redMin l := by
  induction l with
  | nil => rfl
  | cons x l ih => rw [List.map_cons, redMax_cons, redMin_cons, ih, max_neg]

theorem map_neg_neg (l : List (XR K)) : (l.map fun x => - x).map (fun x => - x) = l := by simp [Function.comp_def, neg_neg']

theorem redMin_neg (l : List (XR K)) : (Arith.redMin (l.map fun x => - x) : XR K) = - Arith.redMax l := by
  conv_rhs => rw [← map_neg_neg l]
  rw [redMax_neg, neg_neg']

theorem runMin_neg (l : List (XR K)) : runMin (l.map fun x => - x) = - runMax l := by
  conv_rhs => rw [← map_neg_neg l]
  rw [runMax_neg, neg_neg']

/-- **C60 Mirror symmetry**, exact arithmetic with infinities and NaN.  The averages of the negated series are the negated averages: `SimpleMovingAverage`, -/
theorem C60_sma {p : Nat} (hp : 0 < p) (s : List Nat) : Commutes (SMA (p : Int) : Operator (XR K)) (vBuf (s := s)) (vBuf (s := s)) (fun t => - t) (fun t => - t) :=
  (C25_sma hp s).commutes (negT_lin.movingAvg p)
example := C60_sma (K := ℚ) (p := 2) (by norm_num) [2]

/-- `ExponentialMovingAverage`, -/
theorem C60_ema {p : Nat} (hp : 0 < p) (s : List Nat) : Commutes (EMA (p : Int) : Operator (XR K)) (vBuf (s := s)) (vBuf (s := s)) (fun t => - t) (fun t => - t) :=
  (C26_ema hp s).commutes (negT_lin.expAvg p)
example := C60_ema (K := ℚ) (p := 2) (by norm_num) [2]

/-- `RollingMovingAverage`, -/
theorem C60_rma {p : Nat} (hp : 0 < p) (s : List Nat) : Commutes (RMA (p : Int) : Operator (XR K)) (vBuf (s := s)) (vBuf (s := s)) (fun t => - t) (fun t => - t) :=
  (C27_rma hp s).commutes (negT_lin.rollAvg p)
example := C60_rma (K := ℚ) (p := 2) (by norm_num) [2]

/-- `MACD`, -/
theorem C60_macd {slow fast m : Nat} (h1 : 0 < slow) (h2 : 0 < fast) (h3 : 0 < m) (s : List Nat) :
    Commutes (MACD (slow : Int) fast m : Operator (XR K)) (vBuf (s := s)) (vBuf5 (s := s)) (fun t => - t)
      (fun o => (- o.1, - o.2.1, - o.2.2.1, - o.2.2.2.1, - o.2.2.2.2)) :=
  have h := negT_lin (K := K) (s := s)
  (C31_macd h1 h2 h3 s).commutes fun l => by simp only [macdAll, h.expAvg, h.macdLine, h.macdSignal, h.macdHist]
example := C60_macd (K := ℚ) (slow := 3) (fast := 2) (m := 2) (by norm_num) (by norm_num) (by norm_num) [2]

/-- `SimpleMovingAverageCrossover`, -/
theorem C60_crossover {slow fast : Nat} (hs : 0 < slow) (hf : 0 < fast) (s : List Nat) :
    Commutes (SMACrossover (slow : Int) fast : Operator (XR K)) (vBuf (s := s)) (vBuf (s := s)) (fun t => - t) (fun t => - t) :=
  (C32_crossover hs hf s).commutes (negT_lin.smaDiff slow fast)
example := C60_crossover (K := ℚ) (slow := 3) (fast := 2) (by norm_num) (by norm_num) [2]

/-- `Lag`, -/
theorem C60_lag {p : Nat} (hp : 0 < p) (s : List Nat) : Commutes (Lag (p : Int) : Operator (XR K)) (vBuf (s := s)) (vBuf (s := s)) (fun t => - t) (fun t => - t) :=
  (C17_lag_streams hp s).commutes (negT_lin.lagged p)
example := C60_lag (K := ℚ) (p := 2) (by norm_num) [2]

/-- `Momentum`. -/
theorem C60_momentum {p : Nat} (hp : 0 < p) (s : List Nat) : Commutes (Momentum (p : Int) : Operator (XR K)) (vBuf (s := s)) (vBuf (s := s)) (fun t => - t) (fun t => - t) :=
  (C19_momentum_streams hp s).commutes (negT_lin.momentum p)
example := C60_momentum (K := ℚ) (p := 2) (by norm_num) [2]

/-- The maximum of the negated series is the negated minimum, -/
theorem C60_global : Mirrors (GlobalMinimum : Operator (XR K)) GlobalMaximum ∧ Mirrors (GlobalMaximum : Operator (XR K)) GlobalMinimum :=
  ⟨C20_global_min_streams.transports C20_global_max_streams fun l _ => runMax_neg l, C20_global_max_streams.transports C20_global_min_streams fun l _ => runMin_neg l⟩
example := C60_global (K := ℚ)

/-- also over a window. -/
theorem C60_local {p : Nat} (hp : 0 < p) :
    Mirrors (LocalMinimum (p : Int) : Operator (XR K)) (LocalMaximum (p : Int)) ∧ Mirrors (LocalMaximum (p : Int) : Operator (XR K)) (LocalMinimum (p : Int)) :=
  ⟨(C21_local_min_streams hp).transports (C21_local_max_streams hp) fun l _ => by rw [window_of_map, redMax_neg],
    (C21_local_max_streams hp).transports (C21_local_min_streams hp) fun l _ => by rw [window_of_map, redMin_neg]⟩
example := C60_local (K := ℚ) (p := 2) (by norm_num)

theorem neg_square (x : XR K) : - x * - x = x * x := by rw [neg_lin.square, neg_neg']

theorem moments_neg (l : List (XR K)) : (Arith.moments (l.map fun x => - x)).2 = (Arith.moments l).2 := by rw [neg_lin.moments, neg_neg']

theorem movingStdT_neg (p : Nat) {s : List Nat} (l : List (Idx s → XR K)) : movingStd p (l.map fun t => - t) = movingStd p l := funext fun i => by
  have e : (l.map fun t => - t).map (· i) = (l.map (· i)).map fun x => - x := by simp only [List.map_map]; rfl
  rw [movingStd_apply, movingStd_apply, e]
  simp only [movingStd, List.length_map, window_of_map, moments_neg]

/-- `MovingStandardDeviation` does not change. -/
theorem C60_msd {p : Nat} (hp : 0 < p) (s : List Nat) : Commutes (MSD (p : Int) : Operator (XR K)) (vBuf (s := s)) (vBuf (s := s)) (fun t => - t) id :=
  (C29_msd_streams hp s).commutes (movingStdT_neg p)
example := C60_msd (K := ℚ) (p := 2) (by norm_num) [2]

theorem sub_neg' (x y : XR K) : - x - y = - (x + y) := by
  show add (neg x) (neg y) = neg (add x y)
  rcases x with a | _ | _ | _ <;> rcases y with b | _ | _ | _ <;> simp [add, neg, add_comm]

theorem add_neg' (x y : XR K) : - x + y = - (x - y) := by
  show add (neg x) y = neg (add x (neg y))
  rcases x with a | _ | _ | _ <;> rcases y with b | _ | _ | _ <;> simp [add, neg, add_comm]

/-- The lower Bollinger band of the negated series is the negated upper band and vice versa. -/
theorem C60_bollinger {p : Nat} (hp : 0 < p) (k : ℚ) (s : List Nat) :
    Commutes (BollingerBands (p : Int) k : Operator (XR K)) (vBuf (s := s)) (vBuf3 (s := s)) (fun t => - t) (fun o => (- o.2.2, - o.2.1, - o.1)) :=
  (C30_bollinger_streams hp k s).commutes fun l => by
    simp only [bands3, movingStdT_neg, negT_lin.movingAvg, Prod.mk.injEq, and_true, true_and]
    exact ⟨funext fun i => sub_neg' _ _, funext fun i => add_neg' _ _⟩
example := C60_bollinger (K := ℚ) (p := 2) (by norm_num) 2 [2]

/-- `SharpeRatio` changes its sign, -/
theorem C60_sharpe {p : Nat} (hp : 0 < p) : Commutes (SharpeRatio (p : Int) : Operator (XR K)) vSBuf2 vSBuf (fun z => (- z.1, - z.2)) (fun x => - x) :=
  (C39_sharpe_streams hp).commutes fun l => by
    have e : (l.map fun z => (- z.1, - z.2)).map (fun z => z.1 - z.2) = (l.map fun z => z.1 - z.2).map (fun x => - x) := by
      simp [Function.comp_def, neg_lin.sub]
    rw [e, window_of_map]
    simp only [sharpe, moments_neg, neg_lin.mean]
    split_ifs
    · exact neg_lin.zero.symm
    · exact (neg_lin.div _ _).symm
example := C60_sharpe (K := ℚ) (p := 2) (by norm_num)

theorem pow3_neg (x : XR K) : Arith.pow (- x) 3 = - Arith.pow x 3 := by
  have h : ∀ y : XR K, Arith.pow y 3 = Arith.pow y 0 * y * y * y := fun _ => rfl
  have h0 : (Arith.pow (- x) 0 : XR K) = Arith.pow x 0 := rfl
  rw [h, h, h0, ← neg_lin.mull, ← neg_lin.mull, ← neg_lin.mulr, neg_neg', ← neg_lin.mull, ← neg_lin.mulr, ← neg_lin.mulr]

/-- so do `Skewness`, -/
theorem C60_skewness {p : Nat} (hp : 0 < p) : Commutes (Skewness (p : Int) : Operator (XR K)) vSBuf vSBuf (fun x => - x) (fun x => - x) :=
  (skewness_streams hp).commutes fun l => by
    rw [window_of_map]
    generalize window p l = w
    have e : (w.map fun x => - x).map (fun x => Arith.pow x 3) = (w.map fun x => Arith.pow x 3).map (fun x => - x) := by
      simp only [List.map_map]
      exact List.map_congr_left fun x _ => pow3_neg x
    have hm : (Arith.moments (w.map fun x => - x)).1 = - (Arith.moments w).1 := by rw [neg_lin.moments]
    simp only [computeSkewness, moments_neg, hm, e, neg_lin.mean, pow3_neg, ← neg_lin.mull, ← neg_lin.mulr, ← neg_lin.sub, ← neg_lin.div]
    split_ifs
    · exact neg_lin.zero.symm
    · rfl
example := C60_skewness (K := ℚ) (p := 2) (by norm_num)

theorem pearson_neg (xs ys : List (XR K)) : pearson (xs.map fun x => - x) ys = - pearson xs ys := by
  have e1 : List.zipWith (fun a b => (a - - Arith.mean xs) * (b - Arith.mean ys)) (xs.map fun x => - x) ys =
      (List.zipWith (fun a b => (a - Arith.mean xs) * (b - Arith.mean ys)) xs ys).map fun x => - x := by
    simp only [List.zipWith_map_left, List.map_zipWith, neg_lin.mulr, neg_lin.sub]
  have e2 : (xs.map fun x => - x).map (fun x => (x - - Arith.mean xs) * (x - - Arith.mean xs)) = xs.map fun x => (x - Arith.mean xs) * (x - Arith.mean xs) := by
    simp only [List.map_map]
    refine List.map_congr_left fun x _ => ?_
    simp only [Function.comp_apply]
    rw [← neg_lin.sub, neg_square]
  simp only [pearson, neg_lin.mean, e1, e2]
  exact (neg_lin.div _ _).symm

/-- and `Correlation` when one of the two series is negated. -/
theorem C60_correlation {p : Nat} (hp : 0 < p) (s : List Nat) :
    Commutes (Correlation (p : Int) : Operator (XR K)) (vBuf2 (s := s)) (vBuf (s := s)) (fun z => (- z.1, z.2)) (fun t => - t) :=
  (C41_correlation_streams hp s).commutes fun l => funext fun i => by
    show _ = - corrOf p l i
    rw [corrOf_apply, corrOf_apply]
    have e1 : ((l.map fun z => (- z.1, z.2)).map fun x => (x.1 i, x.2 i)).map Prod.fst = ((l.map fun x => (x.1 i, x.2 i)).map Prod.fst).map fun x => - x := by
      simp only [List.map_map]; rfl
    have e2 : ((l.map fun z => (- z.1, z.2)).map fun x => (x.1 i, x.2 i)).map Prod.snd = (l.map fun x => (x.1 i, x.2 i)).map Prod.snd := by
      simp only [List.map_map]; rfl
    simp only [corrOf, e1, e2, window_of_map, pearson_neg, List.length_map]
    split_ifs
    · exact neg_lin.zero.symm
    · rfl
example := C60_correlation (K := ℚ) (p := 2) (by norm_num) [2]

theorem eq0_neg (x : XR K) : TFNum.eq (- x) (Arith.ofRat 0) = TFNum.eq x (Arith.ofRat 0) := by
  show XR.eq (neg x) (fin ((0 : ℚ) : K)) = XR.eq x (fin ((0 : ℚ) : K))
  rw [Rat.cast_zero]
  rcases x with a | _ | _ | _ <;> simp [XR.eq, neg]

theorem sub_neg_neg (x y : XR K) : - y - - x = x - y := by
  show add (neg y) (neg (neg x)) = add x (neg y)
  rcases x with a | _ | _ | _ <;> rcases y with b | _ | _ | _ <;> simp [add, neg, add_comm]

theorem abs_neg' (x : XR K) : Arith.abs (- x) = Arith.abs x := by
  show XR.abs (neg x) = XR.abs x
  rcases x with a | _ | _ | _ <;> simp [XR.abs, neg]

theorem max_left_comm' (x y z : XR K) : Arith.max x (Arith.max y z) = Arith.max y (Arith.max x z) := by
  rcases x with a | _ | _ | _ <;> rcases y with b | _ | _ | _ <;> rcases z with d | _ | _ | _
  case fin.fin.fin => simp [max_left_comm]
  all_goals
    show XR.max _ (XR.max _ _) = XR.max _ (XR.max _ _)
    simp [XR.max, lt]
  all_goals split_ifs <;> simp_all
  all_goals first | (apply le_antisymm <;> assumption) | (exfalso; order)

/-- a candle upside down -/
def CLH.mirror {α : Type} [Neg α] (x : CLH α) : CLH α := ⟨- x.close, - x.high, - x.low⟩

/-- a candle upside down -/
def OHLC.mirror {α : Type} [Neg α] (x : OHLC α) : OHLC α := ⟨- x.opn, - x.low, - x.high, - x.close⟩

theorem trueRangeOf_mirror (prev low high : XR K) : trueRangeOf (- prev) (- high) (- low) = trueRangeOf prev low high := by
  have e : ∀ x y : XR K, Arith.abs (- x - - y) = Arith.abs (x - y) := fun x y => by rw [← neg_lin.sub, abs_neg']
  simp only [trueRangeOf, eq0_neg, e]
  simp only [sub_neg_neg, redMax_cons]
  congr 1
  exact max_left_comm' _ _ _

/-- `AverageTrueRange` does not change when the candles are turned upside down. -/
theorem C60_atr {p : Nat} (hp : 0 < p) : Commutes (ATR (p : Int) : Operator (XR K)) candles vSBuf CLH.mirror id :=
  (C43_atr_streams hp).commutes fun l => by
    have e : (Arith.zero : XR K) :: (l.map CLH.mirror).map CLH.close = (Arith.zero :: l.map CLH.close).map fun x => - x := by
      rw [List.map_cons, neg_lin.zero, List.map_map, List.map_map]; rfl
    have : trueRanges (l.map CLH.mirror) = trueRanges l := by
      simp only [trueRanges, e, List.zipWith_map, CLH.mirror, trueRangeOf_mirror]
    rw [this, id_eq]
example := C60_atr (K := ℚ) (p := 2) (by norm_num)

theorem add_left_comm' (x y z : XR K) : x + (y + z) = y + (x + z) := by
  show add x (add y z) = add y (add x z)
  rcases x with a | _ | _ | _ <;> rcases y with b | _ | _ | _ <;> rcases z with d | _ | _ | _ <;> simp [add, add_left_comm]

theorem haCandle_mirror (a b : OHLC (XR K)) : haCandle a.mirror b.mirror = (haCandle a b).mirror := by
  have hsum : ∀ w x y z : XR K, Arith.sum [- w, - y, - x, - z] = - Arith.sum [w, x, y, z] := fun w x y z => by
    have h : ∀ w x y z : XR K, Arith.sum [w, y, x, z] = Arith.sum [w, x, y, z] := fun w x y z => congrArg (fun u => w + u) (add_left_comm' y x _)
    have h2 := neg_lin.sum [w, x, y, z]
    rw [h]; exact h2.symm
  have hmax : ∀ x y z : XR K, Arith.redMax [- x, - y, - z] = - Arith.redMin [x, y, z] := fun x y z => redMax_neg [x, y, z]
  have hmin : ∀ x y z : XR K, Arith.redMin [- x, - y, - z] = - Arith.redMax [x, y, z] := fun x y z => redMin_neg [x, y, z]
  simp only [haCandle, OHLC.mirror, eq0_neg]
  split_ifs
  · rfl
  · simp only [hsum, ← neg_lin.add, ← neg_lin.div, hmax, hmin]

/-- The Heikin-Ashi candles of the candles upside down are the Heikin-Ashi candles upside down. -/
theorem C60_heikinAshi : Commutes (HeikinAshi : Operator (XR K)) candles4 candles4 OHLC.mirror OHLC.mirror :=
  C46_heikinAshi_streams.commutes fun l => by
    have e : OHLC.mirror (noCandle (α := XR K)) = noCandle := by simp [OHLC.mirror, noCandle]
    rw [← haCandle_mirror, ← getLastD_of_map OHLC.mirror, ← getLastD_of_map OHLC.mirror, e, List.map_dropLast]
example := C60_heikinAshi (K := ℚ)

theorem moves_neg (xs : List K) (i : Nat) : moves (xs.map fun x => - x) i = (moves xs i).map fun x => - x := by
  have h : ∀ k, (xs.map fun x => - x).getD k 0 = - xs.getD k 0 := fun k => by
    rw [List.getD_eq_getElem?_getD, List.getD_eq_getElem?_getD, List.getElem?_map]; cases xs[k]? <;> simp
  simp only [moves, List.map_map, h]
  refine List.map_congr_left fun k _ => ?_
  simp only [Function.comp_apply]; ring

theorem gainAt_neg (p : Nat) (xs : List K) (i : Nat) : gainAt p (xs.map fun x => - x) i = lossAt p xs i := by
  rw [gainAt, moves_neg, lossAt, List.map_map]; rfl

theorem lossAt_neg (p : Nat) (xs : List K) (i : Nat) : lossAt p (xs.map fun x => - x) i = gainAt p xs i := by
  rw [gainAt, lossAt, moves_neg, List.map_map]; simp [Function.comp_def]

/-- `RelativeStrengthIndex` of the negated prices and of the prices add up to 100 from index `p` on (both are NaN when no price has moved). -/
theorem C60_rsi {p : Nat} (hp : 0 < p) {xs : List K} (hx : xs ≠ []) :
    ∃ (os os' : List (XR K)) (sf s0 sf' s0' : Val (XR K)), call (RSI (p : Int)) (finSeries xs) none = .ok (vSBuf os, sf, s0) ∧
      call (RSI (p : Int)) (finSeries (xs.map fun x => - x)) none = .ok (vSBuf os', sf', s0') ∧
      ∃ (hl : os.length = xs.length) (hl' : os'.length = xs.length), ∀ i (hi : i < xs.length), p ≤ i → os'[i] = XR.fin 100 - os[i] := by
  obtain ⟨os, sf, s0, h1, hl, h2⟩ := (C36_rsi_streams (α := XR K) hp).at (xs := xs.map XR.fin) (by simpa using hx)
  obtain ⟨os', sf', s0', h1', hl', h2'⟩ := (C36_rsi_streams (α := XR K) hp).at (xs := (xs.map fun x => - x).map XR.fin) (by simpa using hx)
  simp only [List.length_map] at hl hl'
  refine ⟨os, os', sf, s0, sf', s0', h1, h1', hl, hl', fun i hi hpi => ?_⟩
  rw [h2 i (by simpa using hi), h2' i (by simpa using hi), rsi_fin hp hi hpi, rsi_fin hp (by simpa using hi) hpi, gainAt_neg, lossAt_neg]
  have hg := gainAt_nonneg hp xs i
  have hs := lossAt_nonneg hp xs i
  generalize gainAt p xs i = g at *
  generalize lossAt p xs i = l at *
  rcases hg.eq_or_lt with rfl | hg
  · rcases hs.eq_or_lt with rfl | hs
    · show add (fin 100) (neg (div (fin 100) (add (fin 1) (div (fin 0) (fin 0))))) = add (fin 100) (neg (add (fin 100) (neg (div (fin 100) (add (fin 1) (div (fin 0) (fin 0)))))))
      simp [div, add, neg]
    · show add (fin 100) (neg (div (fin 100) (add (fin 1) (div (fin l) (fin 0))))) = add (fin 100) (neg (add (fin 100) (neg (div (fin 100) (add (fin 1) (div (fin 0) (fin l)))))))
      simp [div, add, neg, infOf, hs, hs.ne']
  · rcases hs.eq_or_lt with rfl | hs
    · show add (fin 100) (neg (div (fin 100) (add (fin 1) (div (fin 0) (fin g))))) = add (fin 100) (neg (add (fin 100) (neg (div (fin 100) (add (fin 1) (div (fin g) (fin 0)))))))
      simp [div, add, neg, infOf, hg, hg.ne']
    · have h3 : (1 : K) + l / g ≠ 0 := by positivity
      have h4 : (1 : K) + g / l ≠ 0 := by positivity
      rw [fin_div _ _ hg.ne', fin_div _ _ hs.ne', fin_add, fin_add, fin_div _ _ h3, fin_div _ _ h4, fin_sub, fin_sub, fin_sub]
      congr 1
      have : l + g ≠ 0 := by positivity
      field_simp
      ring
example := C60_rsi (K := ℚ) (p := 2) (by norm_num) (xs := [3, 1, 4]) (by simp)

theorem sgn_neg (x : K) : sgn (- x) = - sgn x := by
  rcases lt_trichotomy x 0 with h | h | h
  · simp [sgn, h, h.not_gt]
  · simp [sgn, h]
  · simp [sgn, h, h.not_gt]

theorem lastSign_mirror {x : K} (hx : x ≠ 0) (l : List K) : lastSign ((x :: l).map fun x => - x) = - lastSign (x :: l) := by
  induction l using List.reverseRecOn with
  | nil => simp [lastSign, hx, sgn_neg]
  | append_singleton l y ih =>
    rw [← List.cons_append, List.map_append, List.map_singleton, lastSign_snoc, lastSign_snoc, ih, sgn_neg]
    simp only [neg_eq_zero]
    split_ifs <;> rfl

/-- `ZeroCrossoverSignal` turns its signals when the series is negated, provided the first sample is not zero. -/
theorem C60_zeroCrossover {x : K} (hx : x ≠ 0) (xs : List K) :
    ∃ (os : List Int) (sf s0 sf' s0' : Val (XR K)), call ZeroCrossoverSignal (finSeries (x :: xs)) none = .ok (vIBuf os, sf, s0) ∧
      call ZeroCrossoverSignal (finSeries ((x :: xs).map fun x => - x)) none = .ok (vIBuf (os.map fun n => - n), sf', s0') := by
  obtain ⟨os, sf, s0, h1, hl, h2⟩ := ((C33_zero_crossover_streams (α := XR K) []).scalarInt (y := fun h => TFNum.toInt (crossing h))).at
    (xs := (x :: xs).map XR.fin) (by simp)
  obtain ⟨os', sf', s0', h1', hl', h2'⟩ := ((C33_zero_crossover_streams (α := XR K) []).scalarInt (y := fun h => TFNum.toInt (crossing h))).at
    (xs := ((x :: xs).map fun x => - x).map XR.fin) (by simp)
  simp only [List.length_map] at hl hl'
  refine ⟨os, sf, s0, sf', s0', h1, ?_⟩
  have e : os' = os.map fun n => - n := by
    apply List.ext_getElem
    · simp [hl, hl']
    · intro i hi hi'
      have hi0 : i < (x :: xs).length := by omega
      rw [List.getElem_map, h2 i (by simpa using hi0), h2' i (by simpa using hi0), crossing_fin hi0, crossing_fin (by simpa using hi0)]
      cases i with
      | zero => simp [turnAt]
      | succ i =>
        have hD : ((x :: xs).map fun x => - x).getD (i + 1) 0 = - (x :: xs).getD (i + 1) 0 := by
          rw [List.getD_eq_getElem?_getD, List.getD_eq_getElem?_getD, List.getElem?_map]; cases (x :: xs)[i + 1]? <;> simp
        unfold turnAt
        rw [hD, ← List.map_take, List.take_succ_cons, lastSign_mirror hx, sgn_neg]
        simp only [neg_eq_zero, neg_inj]
        split_ifs <;> simp
  rw [h1', e]
example := C60_zeroCrossover (K := ℚ) (x := 2) (by norm_num) [3, 1, 4]

end

/-- The proviso is needed: a zero in the beginning counts as positive. -/
theorem C60_zero_first :
    output (call (ZeroCrossoverSignal (α := XR ℚ)) (series [0, -2]) none) = .ok (vIBuf [0, -1]) ∧
    output (call (ZeroCrossoverSignal (α := XR ℚ)) (series [0, 2]) none) = .ok (vIBuf [0, 0]) := ⟨by decide +kernel, by decide +kernel⟩

example : output (call (ZeroCrossoverSignal (α := XR ℚ)) (series [2, -2, 0, 3]) none) = .ok (vIBuf [0, -1, 0, 1]) ∧
    output (call (ZeroCrossoverSignal (α := XR ℚ)) (series [-2, 2, 0, -3]) none) = .ok (vIBuf [0, 1, 0, -1]) := ⟨by decide +kernel, by decide +kernel⟩

example : output (call (RSI 2) (series [3, 5, 4, 8]) none) = .ok (series [0, 0, 200 / 3, 1000 / 11]) ∧
    output (call (RSI 2) (series [-3, -5, -4, -8]) none) = .ok (series [0, 0, 100 / 3, 100 / 11]) := ⟨by decide +kernel, by decide +kernel⟩

example : output (call (LocalMinimum 2) (series [3, 5, 4, 8]) none) = .ok (series [3, 3, 4, 4]) ∧
    output (call (LocalMaximum 2) (series [-3, -5, -4, -8]) none) = .ok (series [-3, -3, -4, -4]) := ⟨by decide +kernel, by decide +kernel⟩

end TS
