import Verif.Props.Limits
import Verif.Props.RSI
import Verif.Props.Bands
import Verif.Props.Moments
/-
C76: what operators output on a straight line.
-/
namespace TS
open PyVal XR
set_option linter.unusedSectionVars false

section
variable {K : Type} [Field K] [LinearOrder K] [IsStrictOrderedRing K] [Transc K] [FloorRing K]

/-- The straight line: sample `i` is `a + b * i`. -/
def ramp (a b : K) (i : Nat) : K := a + b * i

theorem sum_range_cast (p : Nat) : ((List.range p).map fun j : Nat => (j : K)).sum = p * (p - 1) / 2 := by
  induction p with
  | zero => simp
  | succ p ih => rw [List.range_succ, List.map_append, List.sum_append, ih]; push_cast; simp; ring

theorem ramp_window (a b : K) {p n : Nat} (h : p ≤ n + 1) :
    ((List.range p).map fun j => ramp a b (n - j)) = (List.range p).map fun j : Nat => ramp a b n + (-b) * (j : K) := by
  refine List.map_congr_left fun j hj => ?_
  have := List.mem_range.1 hj
  rw [ramp, ramp, Nat.cast_sub (by omega)]
  ring

theorem sum_affine (c d : K) (l : List Nat) : (l.map fun j : Nat => c + d * (j : K)).sum = l.length * c + d * (l.map fun j : Nat => (j : K)).sum := by
  induction l with
  | nil => simp
  | cons x l ih => simp only [List.map_cons, List.sum_cons, ih, List.length_cons]; push_cast; ring

theorem avg_ramp (a b : K) {p n : Nat} (hp : 0 < p) (h : p ≤ n + 1) : avg ((List.range p).map fun j => ramp a b (n - j)) = ramp a b n - b * (p - 1) / 2 := by
  have : (p : K) ≠ 0 := by positivity
  rw [ramp_window a b h, avg, sum_affine, sum_range_cast]
  simp only [List.length_map, List.length_range]
  field_simp
  ring

theorem movingAvgK_ramp (a b : K) {p : Nat} (hp : 0 < p) (n : Nat) : movingAvgK p (upTo (ramp a b) n) = if n + 1 < p then 0 else ramp a b n - b * (p - 1) / 2 := by
  rw [movingAvgK]
  simp only [List.length_map, List.length_range]
  split
  · rfl
  · rw [window_upTo _ (by omega), avg_ramp a b hp (by omega)]

/-- A recursive average whose value at the start is `r (p - 1)` and whose recursion `r` satisfies. -/
theorem recursiveAvgK_seq (x r : Nat → K) {f : K → K → K} {p : Nat} (hp : 0 < p) (h0 : movingAvgK p (upTo x (p - 1)) = r (p - 1))
    (hr : ∀ n, p ≤ n + 1 → f (r n) (x (n + 1)) = r (n + 1)) (n : Nat) : recursiveAvgK p f (upTo x n) = if n + 1 < p then 0 else r n := by
  induction n with
  | zero =>
    split
    · next h => rw [recursiveAvgK, movingAvgK, if_pos (by simp; omega), List.drop_of_length_le (by simp; omega)]; rfl
    · next h =>
      obtain rfl : p = 1 := by omega
      rw [recursiveAvgK, List.drop_of_length_le (by simp), List.take_of_length_le (by simp)]
      exact h0
  | succ n ih =>
    by_cases h : n + 1 < p
    · by_cases h' : n + 1 + 1 < p
      · rw [if_pos h', recursiveAvgK, movingAvgK, if_pos (by simp; omega), List.drop_of_length_le (by simp; omega)]; rfl
      · rw [if_neg h', recursiveAvgK, List.drop_of_length_le (by simp; omega), List.take_of_length_le (by simp; omega)]
        obtain rfl : p = n + 2 := by omega
        exact h0
    · rw [if_neg (by omega), upTo_succ, recursiveAvgK_append (by simpa using h), ih, if_neg h]
      exact hr n (by omega)

theorem ema_ramp (a b : K) {p : Nat} (hp : 0 < p) (n : Nat) :
    recursiveAvgK p (fun m x => m + 2 / ((p : K) + 1) * (x - m)) (upTo (ramp a b) n) = if n + 1 < p then 0 else ramp a b n - b * (p - 1) / 2 := by
  refine recursiveAvgK_seq _ (fun n => ramp a b n - b * (p - 1) / 2) hp ?_ (fun n hn => ?_) n
  · rw [movingAvgK_ramp a b hp, if_neg (by omega)]
  · have : (p : K) + 1 ≠ 0 := by positivity
    simp only [ramp]
    push_cast
    field_simp
    ring

/-- **C76 Straight lines.**  On the samples `a + b * i` the simple and the exponential average over `p` samples both lie exactly b (p - 1) / 2 behind, from index p - 1 on; -/
theorem C76_averages {p : Nat} (hp : 0 < p) (a b : K) :
    Yields (SMA (p : Int)) finSeries finSeries (ramp a b) (fun n => if n + 1 < p then 0 else ramp a b n - b * (p - 1) / 2) ∧
    Yields (EMA (p : Int)) finSeries finSeries (ramp a b) (fun n => if n + 1 < p then 0 else ramp a b n - b * (p - 1) / 2) :=
  ⟨((sma_reals hp).yields _).congr (movingAvgK_ramp a b hp), ((ema_reals hp).yields _).congr (ema_ramp a b hp)⟩
example := C76_averages (K := ℚ) (p := 3) (by norm_num) 5 2

/-- the rolling average starts as far behind and ends up b (p - 1) behind; -/
theorem C76_rma {p : Nat} (hp : 0 < p) (a b : K) : Yields (RMA (p : Int)) finSeries finSeries (ramp a b)
    (fun n => if n + 1 < p then 0 else ramp a b n - b * (p - 1) + b * (p - 1) / 2 * (1 - 1 / p) ^ (n + 1 - p)) :=
  ((rma_reals hp).yields _).congr fun n => by
    have hp' : (p : K) ≠ 0 := by positivity
    refine recursiveAvgK_seq _ (fun n => ramp a b n - b * (p - 1) + b * (p - 1) / 2 * (1 - 1 / p) ^ (n + 1 - p)) hp ?_ (fun n hn => ?_) n
    · rw [movingAvgK_ramp a b hp, if_neg (by omega), show p - 1 + 1 - p = 0 by omega, pow_zero]
      ring
    · rw [show n + 1 + 1 - p = (n + 1 - p) + 1 by omega, pow_succ]
      simp only [ramp]
      push_cast
      field_simp
      ring
example := C76_rma (K := ℚ) (p := 3) (by norm_num) 5 2

/-- the delayed series is p b behind, and this is the momentum; -/
theorem C76_momentum {p : Nat} (hp : 0 < p) (a b : K) :
    Yields (Lag (p : Int)) finSeries finSeries (ramp a b) (fun n => if n < p then 0 else ramp a b n - p * b) ∧
    Yields (Momentum (p : Int)) finSeries finSeries (ramp a b) (fun n => if n < p then 0 else p * b) := by
  have e : ∀ n, p ≤ n → ramp a b (n - p) = ramp a b n - p * b := fun n hn => by rw [ramp, ramp, Nat.cast_sub hn]; ring
  refine ⟨((lag_reals hp).yields _).congr fun n => ?_, ((momentum_reals hp).yields _).congr fun n => ?_⟩
  · rw [lagged_upTo]
    by_cases h : n < p
    · rw [if_neg (by omega), if_pos h]
    · rw [if_pos (by omega), if_neg h, e n (by omega)]
  · rw [momentumK]
    by_cases h : n < p
    · rw [if_pos (by simp; omega), if_pos h]
    · rw [if_neg (by simp; omega), if_neg h, getLastD_upTo, lagged_upTo, if_pos (by omega), e n (by omega)]
      ring
example := C76_momentum (K := ℚ) (p := 3) (by norm_num) 5 2

theorem macdLineK_ramp (a b : K) {slow fast : Nat} (hf : 0 < fast) (hfs : fast ≤ slow) (n : Nat) :
    macdLineK slow fast (upTo (ramp a b) n) = if n + 1 < slow then 0 else b * (slow - fast) / 2 := by
  rw [macdLineK]
  simp only [List.length_map, List.length_range]
  split
  · rfl
  · rw [ema_ramp a b hf, ema_ramp a b (hf.trans_le hfs), if_neg (by omega), if_neg (by omega)]
    ring

/-- the difference of two simple averages is b (slow - fast) / 2, from the start of the slow one on; -/
theorem C76_crossover {slow fast : Nat} (hf : 0 < fast) (hfs : fast ≤ slow) (a b : K) :
    Yields (SMACrossover (slow : Int) fast) finSeries finSeries (ramp a b) (fun n => if n + 1 < slow then 0 else b * (slow - fast) / 2) :=
  ((crossover_reals (hf.trans_le hfs) hf).yields _).congr fun n => by
    rw [smaDiffK]
    simp only [List.length_map, List.length_range]
    rw [movingAvgK_ramp a b hf, movingAvgK_ramp a b (hf.trans_le hfs)]
    split
    · simp
    · rw [if_neg (by omega)]; ring
example := C76_crossover (K := ℚ) (slow := 5) (fast := 2) (by norm_num) (by norm_num) 5 2

theorem movingAvgK_const (c : K) {p : Nat} (hp : 0 < p) (n : Nat) : movingAvgK p (upTo (fun _ => c) n) = if n + 1 < p then 0 else c := by
  rw [show (fun _ => c) = ramp c 0 from funext fun _ => by simp [ramp], movingAvgK_ramp c 0 hp]
  simp [ramp]

theorem ema_const (c : K) {p : Nat} (hp : 0 < p) (n : Nat) :
    recursiveAvgK p (fun m x => m + 2 / ((p : K) + 1) * (x - m)) (upTo (fun _ => c) n) = if n + 1 < p then 0 else c := by
  rw [show (fun _ => c) = ramp c 0 from funext fun _ => by simp [ramp], ema_ramp c 0 hp]
  simp [ramp]

/-- of MACD, the line is this difference too; the signal equals it from index slow + m - 2 on; and the histogram is zero throughout. -/
theorem C76_macd {slow fast m : Nat} (hf : 0 < fast) (hfs : fast ≤ slow) (hm : 0 < m) (a b : K) :
    Yields (MACD (slow : Int) fast m) finSeries finSeries5 (ramp a b) (fun n =>
      (if n + 1 < slow then 0 else ramp a b n - b * (slow - 1) / 2, if n + 1 < fast then 0 else ramp a b n - b * (fast - 1) / 2,
        if n + 1 < slow then 0 else b * (slow - fast) / 2, if n + 2 < slow + m then 0 else b * (slow - fast) / 2, 0)) :=
  ((macd_reals (hf.trans_le hfs) hf hm).yields _).congr fun n => by
    have hs := hf.trans_le hfs
    have sig : macdSignalK slow fast m (upTo (ramp a b) n) = if n + 2 < slow + m then 0 else b * (slow - fast) / 2 := by
      rw [macdSignalK]
      simp only [List.length_map, List.length_range]
      split
      · rw [if_pos (by omega)]
      · next h =>
        rw [scan_upTo, drop_upTo _ (by omega), show (fun i => macdLineK slow fast (upTo (ramp a b) (i + (slow - 1)))) = fun _ => b * (slow - fast) / 2 from
          funext fun i => by rw [macdLineK_ramp a b hf hfs, if_neg (by omega)], ema_const _ hm]
        by_cases h' : n + 2 < slow + m
        · rw [if_pos h', if_pos (by omega)]
        · rw [if_neg h', if_neg (by omega)]
    simp only [macdAllK, ema_ramp a b hf, ema_ramp a b hs, macdLineK_ramp a b hf hfs, sig, Prod.mk.injEq, true_and]
    by_cases h : n + 2 < slow + m
    · rw [macdHistK, if_pos (by simp; omega)]
    · rw [macdHistK_eq (by simp; omega), sig, macdLineK_ramp a b hf hfs, if_neg (by omega), if_neg h, sub_self]
example := C76_macd (K := ℚ) (slow := 5) (fast := 2) (m := 3) (by norm_num) (by norm_num) (by norm_num) 5 2

theorem least_eq {l : List K} {m : K} (hm : IsLeastOf m l) : leastK l = m :=
  le_antisymm ((leastK_least (List.ne_nil_of_mem hm.1)).2 m hm.1) (hm.2 _ (leastK_least (List.ne_nil_of_mem hm.1)).1)

theorem greatest_eq {l : List K} {m : K} (hm : IsGreatestOf m l) : greatestK l = m :=
  le_antisymm (hm.2 _ (greatestK_greatest (List.ne_nil_of_mem hm.1)).1) ((greatestK_greatest (List.ne_nil_of_mem hm.1)).2 m hm.1)

theorem window_upTo_min {A : Type} (x : Nat → A) (p n : Nat) : window p (upTo x n) = (List.range (min p (n + 1))).map fun j => x (n - j) := by
  rw [← window_upTo x (Nat.min_le_right p (n + 1)), window, window, List.take_eq_take_iff]
  simp

theorem window_upTo_mem {A : Type} (x : Nat → A) (p n : Nat) (y : A) : y ∈ window p (upTo x n) ↔ ∃ j, n - (p - 1) ≤ j ∧ j ≤ n ∧ 0 < p ∧ x j = y := by
  rw [window_upTo_min, List.mem_map]
  constructor
  · rintro ⟨j, hj, rfl⟩
    have := List.mem_range.1 hj
    exact ⟨n - j, by omega, by omega, by omega, rfl⟩
  · rintro ⟨j, h1, h2, h3, rfl⟩
    exact ⟨n - j, List.mem_range.2 (by omega), by rw [Nat.sub_sub_self h2]⟩

/-- On a rising line the maximum of the last samples is the newest and the minimum the oldest of them; on a falling line conversely. -/
theorem C76_extrema {p : Nat} (hp : 0 < p) (a : K) {b : K} (hb : 0 ≤ b) :
    Yields (LocalMaximum (p : Int)) finSeries finSeries (ramp a b) (ramp a b) ∧
    Yields (LocalMinimum (p : Int)) finSeries finSeries (ramp a b) (fun n => ramp a b (n - (p - 1))) ∧
    Yields (LocalMaximum (p : Int)) finSeries finSeries (ramp a (-b)) (fun n => ramp a (-b) (n - (p - 1))) ∧
    Yields (LocalMinimum (p : Int)) finSeries finSeries (ramp a (-b)) (ramp a (-b)) := by
  have mono : ∀ {i j : Nat}, i ≤ j → ramp a b i ≤ ramp a b j := fun h => by
    simp only [ramp]
    have : b * (_ : K) ≤ b * (_ : K) := mul_le_mul_of_nonneg_left (Nat.cast_le.2 h) hb
    linarith
  have anti : ∀ {i j : Nat}, i ≤ j → ramp a (-b) j ≤ ramp a (-b) i := fun h => by
    simp only [ramp]
    have : b * (_ : K) ≤ b * (_ : K) := mul_le_mul_of_nonneg_left (Nat.cast_le.2 h) hb
    linarith
  refine ⟨((localMax_reals hp).yields _).congr fun n => ?_, ((localMin_reals hp).yields _).congr fun n => ?_,
    ((localMax_reals hp).yields _).congr fun n => ?_, ((localMin_reals hp).yields _).congr fun n => ?_⟩
  · refine greatest_eq ⟨(window_upTo_mem ..).2 ⟨n, by omega, le_rfl, hp, rfl⟩, fun y hy => ?_⟩
    obtain ⟨j, h1, h2, -, rfl⟩ := (window_upTo_mem ..).1 hy
    exact mono h2
  · refine least_eq ⟨(window_upTo_mem ..).2 ⟨n - (p - 1), le_rfl, by omega, hp, rfl⟩, fun y hy => ?_⟩
    obtain ⟨j, h1, h2, -, rfl⟩ := (window_upTo_mem ..).1 hy
    exact mono h1
  · refine greatest_eq ⟨(window_upTo_mem ..).2 ⟨n - (p - 1), le_rfl, by omega, hp, rfl⟩, fun y hy => ?_⟩
    obtain ⟨j, h1, h2, -, rfl⟩ := (window_upTo_mem ..).1 hy
    exact anti h1
  · refine least_eq ⟨(window_upTo_mem ..).2 ⟨n, by omega, le_rfl, hp, rfl⟩, fun y hy => ?_⟩
    obtain ⟨j, h1, h2, -, rfl⟩ := (window_upTo_mem ..).1 hy
    exact anti h2
example := C76_extrema (K := ℚ) (p := 3) (by norm_num) 5 (b := 2) (by norm_num)

/-- No signal: entry `i` equals the one before. -/
theorem turnAt_same (x : Nat → K) {i n : Nat} (hn : i < n) (h : ∀ j, j + 1 = i → x j = x i) : turnAt ((List.range n).map x) i = 0 := by
  rw [turnAt, if_pos]
  cases i with
  | zero => exact .inl rfl
  | succ j =>
    have e : ((List.range n).map x).getD (j + 1) 0 = x (j + 1) := by
      rw [List.getD_eq_getElem?_getD, List.getElem?_eq_getElem (by simpa using hn)]; simp
    have et : ((List.range n).map x).take (j + 1) = ((List.range j).map x) ++ [x (j + 1)] := by
      rw [← List.map_take, List.take_range, Nat.min_eq_left (by omega), List.range_succ, List.map_append, List.map_singleton, h j rfl]
    rw [e, et, lastSign_snoc]
    by_cases h0 : x (j + 1) = 0
    · exact .inr (.inl h0)
    · rw [if_neg h0]; exact .inr (.inr rfl)

theorem TradeSignal.eq_zero {us : List K} {n : Nat} {os : List Int} (h : TradeSignal us n os) (h0 : ∀ i, n ≤ i → i < us.length → turnAt us i = 0) :
    os = List.replicate us.length 0 := by
  refine List.ext_getElem? fun i => ?_
  by_cases hi : i < us.length
  · rw [List.getElem?_replicate, if_pos hi]
    by_cases hn : i < n
    · exact h.silent i hn hi
    · rw [h.cross i (by omega) hi, h0 i (by omega) hi]
  · rw [List.getElem?_eq_none (by rw [h.length]; omega), List.getElem?_eq_none (by simpa using hi)]

/-- **C76 No signal on a straight line**: neither kind of signal, whichever way it goes. -/
theorem C76_silent {slow fast m : Nat} (hf : 0 < fast) (hfs : fast ≤ slow) (hm : 0 < m) (a b : K) :
    Yields (SMACrossoverSignal (slow : Int) fast) finSeries vIBuf (ramp a b) (fun _ => 0) ∧
    Yields (MACDSignal (slow : Int) fast m) finSeries vIBuf (ramp a b) (fun _ => 0) := by
  have hs := hf.trans_le hfs
  constructor
  · intro n hn
    obtain ⟨os, us, ⟨sf, s0, h1⟩, ⟨sf', s0', h2⟩, hl, ht⟩ := C34_sma hs hf (xs := (List.range n).map (ramp a b)) (by simp; omega)
    obtain ⟨_, _, h3⟩ := C76_crossover hf hfs a b n hn
    rw [h2] at h3
    obtain rfl := finSeries_inj (by simpa using (congrArg output h3) |> fun e => Except.ok.inj e)
    exact ⟨sf, s0, by rw [h1, ht.eq_zero fun i hi hn' => turnAt_same _ (by simpa using hn') fun j hj => by rw [if_neg (by omega), if_neg (by omega)]]; simp⟩
  · intro n hn
    obtain ⟨os, us, ⟨sf, s0, h1⟩, ⟨_, _, _, _, sf', s0', h2⟩, hl, ht⟩ := C34_macd hs hf hm (xs := (List.range n).map (ramp a b)) (by simp; omega)
    obtain ⟨_, _, h3⟩ := C76_macd hf hfs hm a b n hn
    rw [h2] at h3
    simp only [finSeries5, vBuf5, Except.ok.injEq, Prod.mk.injEq] at h3
    have e5 := h3.1
    simp only [PyVal.tup, PyVal.node.injEq, List.cons.injEq, and_true, true_and] at e5
    obtain rfl := finSeries_inj e5.2.2.2.2
    exact ⟨sf, s0, by rw [h1, ht.eq_zero fun i hi hn' => by rw [List.map_map]; exact turnAt_same _ (by simpa using hn') fun j hj => rfl]; simp⟩
example := C76_silent (K := ℚ) (slow := 5) (fast := 2) (m := 3) (by norm_num) (by norm_num) (by norm_num) 5 2

theorem wilderAvg_replicate {p n : Nat} (hp : 0 < p) (hn : p ≤ n) (c : K) : wilderAvg p (List.replicate n c) = c := by
  have hp' : (p : K) ≠ 0 := by positivity
  have h : ∀ k, (List.replicate k c).foldl (fun g x => (g * ((p : K) - 1) + x) / p) c = c := by
    intro k
    induction k with
    | zero => rfl
    | succ k ih => rw [List.replicate_succ, List.foldl_cons, show (c * ((p : K) - 1) + c) / p = c by field_simp; ring, ih]
  rw [wilderAvg, List.drop_replicate, List.take_replicate, Nat.min_eq_left hn, avg, List.sum_replicate, List.length_replicate, nsmul_eq_mul, mul_div_cancel_left₀ c hp', h]

/-- The relative strength index of a straight line: 100 when it rises, 0 when it falls, NaN when it stays. -/
theorem C76_rsi {p : Nat} (hp : 0 < p) (a b : K) :
    Yields (RSI (p : Int)) finSeries vSBuf (ramp a b) (fun n => if n < p then XR.fin 0 else if b = 0 then XR.nan else XR.fin (if 0 < b then 100 else 0)) := by
  intro n hn
  have hne : (List.range n).map (ramp a b) ≠ [] := by simp; omega
  obtain ⟨os, sf, s0, h1, hl, h2⟩ := C36_rsi hp hne
  refine ⟨sf, s0, ?_⟩
  rw [h1]
  congr 3
  refine List.ext_getElem (by simpa using hl) fun i h3 h4 => ?_
  have hi : i < n := by simpa using h4
  have hm : moves ((List.range n).map (ramp a b)) i = List.replicate i b := by
    refine List.ext_getElem (by simp [moves]) fun k hk1 hk2 => ?_
    simp only [List.length_replicate] at hk2
    simp only [moves, List.getElem_map, List.getElem_range, List.getElem_replicate]
    rw [List.getD_eq_getElem?_getD, List.getD_eq_getElem?_getD, List.getElem?_eq_getElem (by simp; omega), List.getElem?_eq_getElem (by simp; omega)]
    simp only [ramp, List.getElem_map, List.getElem_range, Option.getD_some]
    push_cast; ring
  rw [List.getElem_map, List.getElem_range]
  obtain ⟨k1, k2, k3, k4⟩ := h2 i (by simpa using hi)
  split
  · next h => exact k1 h
  · next h =>
    have hg : gainAt p ((List.range n).map (ramp a b)) i = Max.max 0 b := by rw [gainAt, hm, List.map_replicate, wilderAvg_replicate hp (by omega)]
    have hk : lossAt p ((List.range n).map (ramp a b)) i = Max.max 0 (-b) := by rw [lossAt, hm, List.map_replicate, wilderAvg_replicate hp (by omega)]
    rw [hg, hk] at k2 k3 k4
    rcases lt_trichotomy b 0 with hb | hb | hb
    · rw [if_neg hb.ne, if_neg hb.not_gt]
      obtain ⟨v, e, -, -, -, hz⟩ := k2 (by omega) (by rw [max_eq_right (by linarith)]; exact (neg_pos.2 hb).ne')
      rw [e, hz.2 (max_eq_left hb.le)]
    · rw [if_pos hb]
      exact k4 (by omega) (by simp [hb]) (by simp [hb])
    · rw [if_neg hb.ne', if_pos hb]
      exact k3 (by omega) (max_eq_left (by linarith)) (by rw [max_eq_right hb.le]; exact hb.ne')
example := C76_rsi (K := ℚ) (p := 3) (by norm_num) 5 2

theorem sum_range_sq (p : Nat) : ((List.range p).map fun j : Nat => (j : K) ^ 2).sum = p * (p - 1) * (2 * p - 1) / 6 := by
  induction p with
  | zero => simp
  | succ p ih => rw [List.range_succ, List.map_append, List.sum_append, ih]; push_cast; simp; ring

theorem sum_quadratic (c d : K) (l : List Nat) :
    (l.map fun j : Nat => (c + d * (j : K)) ^ 2).sum = l.length * c ^ 2 + 2 * c * d * (l.map fun j : Nat => (j : K)).sum + d ^ 2 * (l.map fun j : Nat => (j : K) ^ 2).sum := by
  induction l with
  | nil => simp
  | cons x l ih => simp only [List.map_cons, List.sum_cons, ih, List.length_cons]; push_cast; ring

theorem variance_ramp (a b : K) {p n : Nat} (hp : 0 < p) (h : p ≤ n + 1) : variance ((List.range p).map fun j => ramp a b (n - j)) = b ^ 2 * ((p ^ 2 - 1) / 12) := by
  have hp' : (p : K) ≠ 0 := by positivity
  rw [variance, avg_ramp a b hp h, ramp_window a b h, List.map_map,
    show ((fun x => (x - (ramp a b n - b * (↑p - 1) / 2)) ^ 2) ∘ fun j : Nat => ramp a b n + -b * (j : K)) = fun j : Nat => (b * (p - 1) / 2 + -b * (j : K)) ^ 2 from
      funext fun j => by simp only [Function.comp]; ring, avg, sum_quadratic, sum_range_cast, sum_range_sq]
  simp only [List.length_map, List.length_range]
  field_simp
  ring

theorem sum_range_cube (p : Nat) : ((List.range p).map fun j : Nat => (j : K) ^ 3).sum = (p * (p - 1) / 2) ^ 2 := by
  induction p with
  | zero => simp
  | succ p ih => rw [List.range_succ, List.map_append, List.sum_append, ih]; push_cast; simp; ring

theorem sum_cubic (c d : K) (l : List Nat) :
    (l.map fun j : Nat => (c + d * (j : K)) ^ 3).sum = l.length * c ^ 3 + 3 * c ^ 2 * d * (l.map fun j : Nat => (j : K)).sum +
      3 * c * d ^ 2 * (l.map fun j : Nat => (j : K) ^ 2).sum + d ^ 3 * (l.map fun j : Nat => (j : K) ^ 3).sum := by
  induction l with
  | nil => simp
  | cons x l ih => simp only [List.map_cons, List.sum_cons, ih, List.length_cons]; push_cast; ring

theorem thirdMoment_ramp (a b : K) {p n : Nat} (hp : 0 < p) (h : p ≤ n + 1) : thirdMoment ((List.range p).map fun j => ramp a b (n - j)) = 0 := by
  have hp' : (p : K) ≠ 0 := by positivity
  rw [thirdMoment, avg_ramp a b hp h, ramp_window a b h, List.map_map,
    show ((fun x => (x - (ramp a b n - b * (↑p - 1) / 2)) ^ 3) ∘ fun j : Nat => ramp a b n + -b * (j : K)) = fun j : Nat => (b * (p - 1) / 2 + -b * (j : K)) ^ 3 from
      funext fun j => by simp only [Function.comp]; ring, avg, sum_cubic, sum_range_cast, sum_range_sq, sum_range_cube]
  simp only [List.length_map, List.length_range]
  field_simp
  ring

end

theorem movingStdR_ramp (a b : ℝ) {p : Nat} (hp : 0 < p) (n : Nat) : movingStdR p (upTo (ramp a b) n) = if n + 1 < p then 0 else |b| * Real.sqrt ((p ^ 2 - 1) / 12) := by
  rw [movingStdR]
  simp only [List.length_map, List.length_range]
  split
  · rfl
  · rw [window_upTo _ (by omega), stdDev, variance_ramp a b hp (by omega), Real.sqrt_mul (sq_nonneg b), Real.sqrt_sq_eq_abs]

/-- The standard deviation on a straight line is |b| √((p² - 1) / 12), wherever on the line; and the bands run parallel to it. -/
theorem C76_deviation {p : Nat} (hp : 0 < p) (k : ℚ) (a b : ℝ) :
    Yields (MSD (p : Int)) finSeries finSeries (ramp a b) (fun n => if n + 1 < p then 0 else |b| * Real.sqrt ((p ^ 2 - 1) / 12)) ∧
    Yields (BollingerBands (p : Int) k) finSeries finSeries3 (ramp a b) (fun n => if n + 1 < p then (0, 0, 0) else
      (ramp a b n - b * (p - 1) / 2 - |b| * Real.sqrt ((p ^ 2 - 1) / 12) * k, ramp a b n - b * (p - 1) / 2,
        ramp a b n - b * (p - 1) / 2 + |b| * Real.sqrt ((p ^ 2 - 1) / 12) * k)) := by
  refine ⟨((msd_reals hp).yields _).congr (movingStdR_ramp a b hp), ((bollinger_reals hp k).yields _).congr fun n => ?_⟩
  rw [movingAvgK_ramp a b hp, movingStdR_ramp a b hp]
  split <;> simp
example := C76_deviation (p := 3) (by norm_num) 2 5 2

/-- The skewness of a straight line is zero. -/
theorem C76_skewness {p : Nat} (hp : 0 < p) (a b : ℝ) : Yields (Skewness (p : Int)) finSeries finSeries (ramp a b) (fun _ => 0) :=
  ((skew_reals hp).yields _).congr fun n => by
    rw [window_upTo_min, skewOf, skew, thirdMoment_ramp a b (by omega) (by omega), zero_div, ite_self]
example := C76_skewness (p := 3) (by norm_num) 5 2

/-- **C76 Steady growth**: samples that grow by the same factor `q` with every step have the return q ^ p - 1 over `p` steps, -/
theorem C76_growth {K : Type} [Field K] [LinearOrder K] [IsStrictOrderedRing K] [Transc K] [FloorRing K] {p : Nat} (hp : 0 < p) {a q : K} (ha : a ≠ 0) (hq : q ≠ 0) :
    Yields (Return (p : Int)) finSeries finSeries (fun n => a * q ^ n) (fun n => if n < p then 0 else q ^ p - 1) :=
  ((return_reals hp).yields _).congr fun n => by
    rw [returnK, List.length_map, List.length_range]
    by_cases h : n < p
    · rw [if_pos (.inl (by omega)), if_pos h]
    · have e : lagged 0 p (upTo (fun n => a * q ^ n) n) = a * q ^ (n - p) := by rw [lagged_upTo, if_pos (by omega)]
      have hne : a * q ^ (n - p) ≠ 0 := mul_ne_zero ha (pow_ne_zero _ hq)
      rw [e, if_neg (by rintro (h' | h'); exacts [by omega, hne h']), if_neg h, getLastD_upTo, show n = n - p + p by omega]
      simp only [Nat.add_sub_cancel, pow_add]
      field_simp
example := C76_growth (K := ℚ) (p := 3) (by norm_num) (a := 5) (q := 2) (by norm_num) (by norm_num)

/-- the logarithmic return p log q, and the volatility zero. -/
theorem C76_log_growth {p m : Nat} (hp : 0 < p) (hm : 0 < m) {a q : ℝ} (ha : 0 < a) (hq : 0 < q) :
    Yields (LogReturn (p : Int)) finSeries finSeries (fun n => a * q ^ n) (fun n => if n < p then 0 else p * Real.log q) ∧
    ∃ o, Yields (Volatility (m : Int) p) finSeries finSeries (fun n => a * q ^ n) o ∧ ∀ n, m + p ≤ n + 1 → o n = 0 := by
  have hpos : ∀ n, 0 < a * q ^ n := fun n => by positivity
  have hlog : ∀ n, p ≤ n → logGrowth p (upTo (fun n => a * q ^ n) n) = p * Real.log q := fun n hn => by
    rw [logGrowth_upTo _ hn, show a * q ^ n / (a * q ^ (n - p)) = q ^ p from ?_, Real.log_pow]
    conv_lhs => rw [show n = n - p + p by omega]
    simp only [Nat.add_sub_cancel, pow_add]
    field_simp
  refine ⟨(logReturn_yields hp hpos).congr fun n => ?_, _, volatility_yields hm hp hpos, fun n hn => ?_⟩
  · split
    · next h => rw [logGrowth, dif_neg (by simp; omega)]
    · next h => exact hlog n (by omega)
  · split
    · rfl
    · rw [movingStdR, if_neg (by simp; omega), window_upTo _ (by omega)]
      rw [List.map_congr_left (g := fun _ => (p : ℝ) * Real.log q) fun j hj => hlog _ (by have := List.mem_range.1 hj; omega)]
      have := variance_ramp (p * Real.log q) 0 (K := ℝ) hm (n := n) (by omega)
      simp only [ramp, zero_mul, add_zero] at this
      rw [stdDev, this]
      simp
example := C76_log_growth (p := 3) (m := 4) (by norm_num) (by norm_num) (a := 5) (q := 2) (by norm_num) (by norm_num)

end TS
