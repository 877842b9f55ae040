import Verif.Lemmas.Streams
import Verif.Props.Map
/-
C25, C26, C27, C31, C32: moving averages over every arithmetic.
-/
namespace TS
open PyVal
variable {α : Type} [TFNum α] {s : List Nat}

theorem take_ne_nil {A : Type} {xs : List A} {i : Nat} (hi : i < xs.length) : xs.take (i + 1) ≠ [] := by
  rw [← List.length_pos_iff, List.length_take]; omega

/-- the last `p` samples at index `i`, newest first -/
abbrev lastOf {E : Type} (p : Nat) (xs : List E) (i : Nat) (h : i < xs.length) : List E :=
  List.ofFn fun j : Fin p => xs[i - j]'(by omega)

theorem movingAvg_take {E : Type} [Arith E] {p i : Nat} {xs : List E} (hi : i < xs.length) :
    movingAvg p (xs.take (i + 1)) = if i + 1 < p then Arith.zero else Arith.sum (lastOf p xs i hi) / Arith.ofInt p := by
  unfold movingAvg
  rw [List.length_take, Nat.min_eq_left (by omega)]
  split
  · rfl
  · rw [window_take hi (by omega)]

theorem recursiveAvg_take {E : Type} [Arith E] {p i : Nat} {f : E → E → E} {xs : List E} (hi : i < xs.length) :
    recursiveAvg p f (xs.take (i + 1)) = if i + 1 < p then Arith.zero
      else if i + 1 = p then Arith.sum (lastOf p xs i hi) / Arith.ofInt p else f (recursiveAvg p f (xs.take i)) xs[i] := by
  by_cases h1 : i + 1 ≤ p
  · rw [recursiveAvg_le (by rw [List.length_take]; omega), movingAvg_take hi]
    by_cases h2 : i + 1 < p
    · simp [h2]
    · simp [h2, show i + 1 = p by omega]
  · rw [if_neg (by omega), if_neg (by omega), List.take_succ_eq_append_getElem hi, recursiveAvg_concat (by rw [List.length_take]; omega)]

/-! ### C25 -/

/-- **C25 Simple moving average.** -/
theorem C25_sma {p : Nat} (hp : 0 < p) (s : List Nat) : StreamsAs (SMA (p : Int) : Operator α) (vBuf (s := s)) vBuf (movingAvg p) :=
  (sma_tracks hp s).streams rows_ok isSeries_vBuf fun _ => rfl

/-- **C25, by index**: zero below index `p - 1`, then the sum of the last `p` inputs over `p`. -/
theorem C25_sma_at {p : Nat} (hp : 0 < p) {xs : List (Idx s → α)} (hx : xs ≠ []) :
    ∃ os sf s0, call (SMA (p : Int)) (vBuf xs) none = .ok (vBuf os, sf, s0) ∧ ∃ hl : os.length = xs.length,
      ∀ i (hi : i < xs.length), os[i] = if i + 1 < p then Arith.zero else Arith.sum (lastOf p xs i hi) / Arith.ofInt p := by
  obtain ⟨os, sf, s0, h1, hl, h2⟩ := (C25_sma (α := α) hp s).at hx
  exact ⟨os, sf, s0, h1, hl, fun i hi => by rw [h2 i hi, movingAvg_take hi]⟩

/-- the output of a call -/
def output (r : Res (Step α)) : Res (Val α) := r.map (·.1)

example : output (call (SMA 2) (series [1, 3, 5, 9]) none) = .ok (series [0, 2, 4, 7]) := by decide +kernel
example : output (call (SMA 2) (matrix 2 [[1, 10], [3, 20], [5, 40]]) none) = .ok (matrix 2 [[0, 0], [2, 15], [4, 30]]) := by decide +kernel

/-! ### C26, C27 -/

/-- **C26 Exponential moving average.** -/
theorem C26_ema {p : Nat} (hp : 0 < p) (s : List Nat) : StreamsAs (EMA (p : Int) : Operator α) (vBuf (s := s)) vBuf (expAvg p) :=
  (ema_tracks hp s).streams rows_ok isSeries_vBuf fun _ => rfl

theorem recursive_at {op : Operator α} {p : Nat} {f : (Idx s → α) → (Idx s → α) → Idx s → α} (h : StreamsAs op vBuf vBuf (recursiveAvg p f))
    (hp : 0 < p) {xs : List (Idx s → α)} (hx : xs ≠ []) :
    ∃ os sf s0, call op (vBuf xs) none = .ok (vBuf os, sf, s0) ∧ ∃ hl : os.length = xs.length,
      (∀ i (hi : i < xs.length), i + 1 < p → os[i] = Arith.zero) ∧
      (∀ hi : p - 1 < xs.length, os[p - 1] = Arith.sum (lastOf p xs (p - 1) hi) / Arith.ofInt p) ∧
      (∀ i (hi : i < xs.length), p ≤ i → os[i] = f os[i - 1] xs[i]) := by
  obtain ⟨os, sf, s0, h1, hl, h2⟩ := h.at hx
  refine ⟨os, sf, s0, h1, hl, fun i hi h => ?_, fun hi => ?_, fun i hi h => ?_⟩
  · rw [h2 i hi, recursiveAvg_take hi, if_pos h]
  · rw [h2 _ hi, recursiveAvg_take hi, if_neg (by omega), if_pos (by omega)]
  · rw [h2 i hi, recursiveAvg_take hi, if_neg (by omega), if_neg (by omega), h2 (i - 1) (by omega), show i - 1 + 1 = i by omega]

/-- **C26, by index**: zero below index `p - 1`, there the simple average of the first `p` inputs, and
`k x[i] + (1 - k) ema[i-1]` with `k = 2 / (p + 1)` afterwards. -/
theorem C26_ema_at {p : Nat} (hp : 0 < p) {xs : List (Idx s → α)} (hx : xs ≠ []) :
    ∃ os sf s0, call (EMA (p : Int)) (vBuf xs) none = .ok (vBuf os, sf, s0) ∧ ∃ hl : os.length = xs.length,
      (∀ i (hi : i < xs.length), i + 1 < p → os[i] = Arith.zero) ∧
      (∀ hi : p - 1 < xs.length, os[p - 1] = Arith.sum (lastOf p xs (p - 1) hi) / Arith.ofInt p) ∧
      (∀ i (hi : i < xs.length), p ≤ i →
        os[i] = xs[i] * Arith.ofRat (2 / ((p : ℚ) + 1)) + os[i - 1] * Arith.ofRat (1 - 2 / ((p : ℚ) + 1))) :=
  recursive_at (C26_ema hp s) hp hx

example : output (call (EMA 3) (series [1, 3, 5, 9, 0]) none) = .ok (series [0, 0, 3, 6, 3]) := by decide +kernel

/-- **C27 Rolling moving average.** -/
theorem C27_rma {p : Nat} (hp : 0 < p) (s : List Nat) : StreamsAs (RMA (p : Int) : Operator α) (vBuf (s := s)) vBuf (rollAvg p) :=
  (rma_tracks hp s).streams rows_ok isSeries_vBuf fun _ => rfl
example := C27_rma (α := XR ℚ) (p := 2) (by norm_num) [2]

/-- **C27, by index**: zero below index `p - 1`, there the simple average of the first `p` inputs, and
`(rma[i-1] (p - 1) + x[i]) / p` afterwards. -/
theorem C27_rma_at {p : Nat} (hp : 0 < p) {xs : List (Idx s → α)} (hx : xs ≠ []) :
    ∃ os sf s0, call (RMA (p : Int)) (vBuf xs) none = .ok (vBuf os, sf, s0) ∧ ∃ hl : os.length = xs.length,
      (∀ i (hi : i < xs.length), i + 1 < p → os[i] = Arith.zero) ∧
      (∀ hi : p - 1 < xs.length, os[p - 1] = Arith.sum (lastOf p xs (p - 1) hi) / Arith.ofInt p) ∧
      (∀ i (hi : i < xs.length), p ≤ i → os[i] = (os[i - 1] * Arith.ofInt ((p : Int) - 1) + xs[i]) / Arith.ofInt p) :=
  recursive_at (C27_rma hp s) hp hx

example : output (call (RMA 2) (series [1, 3, 5, 9]) none) = .ok (series [0, 2, 7 / 2, 25 / 4]) := by decide +kernel

/-! ### C31 -/

/-- the five outputs of MACD after a history -/
def macdAll {E : Type} [Arith E] (slow fast m : Nat) (h : List E) : E × E × E × E × E :=
  (expAvg slow h, expAvg fast h, macdLine slow fast h, macdSignal slow fast m h, macdHist slow fast m h)

/-- the five output series of MACD -/
abbrev vBuf5 {s : List Nat} (l : List ((Idx s → α) × (Idx s → α) × (Idx s → α) × (Idx s → α) × (Idx s → α))) : Val α :=
  .tup [vBuf (l.map (·.1)), vBuf (l.map (·.2.1)), vBuf (l.map (·.2.2.1)), vBuf (l.map (·.2.2.2.1)), vBuf (l.map (·.2.2.2.2))]

/-- **C31 MACD.** -/
theorem C31_macd {slow fast m : Nat} (h1 : 0 < slow) (h2 : 0 < fast) (h3 : 0 < m) (s : List Nat) :
    StreamsAs (MACD (slow : Int) fast m : Operator α) (vBuf (s := s)) vBuf5 (macdAll slow fast m) :=
  (macd_tracks h1 h2 h3 s).streams rows_ok (dec := fun b => .tup [vF b.1, vF b.2.1, vF b.2.2.1, vF b.2.2.2.1, vF b.2.2.2.2])
    (fun l => isSeries_tup_map (A := (Idx s → α) × (Idx s → α) × (Idx s → α) × (Idx s → α) × (Idx s → α))
      (es := [fun b => vF b.1, fun b => vF b.2.1, fun b => vF b.2.2.1, fun b => vF b.2.2.2.1, fun b => vF b.2.2.2.2])
      (.cons (rowSeries_map _ l) (.cons (rowSeries_map _ l) (.cons (rowSeries_map _ l) (.cons (rowSeries_map _ l) (.cons (rowSeries_map _ l) .nil))))))
    fun _ => rfl
example := C31_macd (α := XR ℚ) (slow := 3) (fast := 2) (m := 2) (by norm_num) (by norm_num) (by norm_num) [2]

theorem macdHistory_take {E : Type} [Arith E] {slow fast : Nat} (xs : List E) (j : Nat) (hs : 0 < slow) :
    macdHistory slow fast (xs.take (slow + j)) = (macdHistory slow fast xs).take (j + 1) := by
  simp only [macdHistory, scan, List.nil_append]
  rw [List.take_drop, ← List.map_take, List.take_range, show slow - 1 + (j + 1) = slow + j by omega, List.length_take]
  congr 1
  apply List.map_congr_left
  intro i hi
  rw [List.mem_range] at hi
  rw [List.take_take, Nat.min_eq_left (by omega)]

/-- **C31, by index.**  The first two outputs are what EMA(slow) and EMA(fast) output; macd is their difference from index
`slow - 1` on and zero before; signal is zero before and from there on what EMA(m) outputs when streamed over the
macd series from index `slow - 1`; the histogram is macd - signal from index `slow + m - 2` on and zero before. -/
theorem C31_macd_at {slow fast m : Nat} (hs : 0 < slow) (hf : 0 < fast) (hm : 0 < m) {xs : List (Idx s → α)} (hx : xs ≠ []) :
    ∃ es ef macd sig hist : List (Idx s → α), ∃ sf s0,
      call (MACD (slow : Int) fast m) (vBuf xs) none = .ok (.tup [vBuf es, vBuf ef, vBuf macd, vBuf sig, vBuf hist], sf, s0) ∧
      (∃ sf s0, call (EMA (slow : Int)) (vBuf xs) none = .ok (vBuf es, sf, s0)) ∧
      (∃ sf s0, call (EMA (fast : Int)) (vBuf xs) none = .ok (vBuf ef, sf, s0)) ∧
      ∃ (l1 : es.length = xs.length) (l2 : ef.length = xs.length) (l3 : macd.length = xs.length) (l4 : sig.length = xs.length)
        (l5 : hist.length = xs.length),
      (∀ i (hi : i < xs.length), macd[i] = if i + 1 < slow then Arith.zero else ef[i] - es[i]) ∧
      (∀ i (hi : i < xs.length), i + 1 < slow → sig[i] = Arith.zero) ∧
      (slow ≤ xs.length → ∃ sf s0, call (EMA (m : Int)) (vBuf (macd.drop (slow - 1))) none = .ok (vBuf (sig.drop (slow - 1)), sf, s0)) ∧
      (∀ i (hi : i < xs.length), hist[i] = if i + 2 < slow + m then Arith.zero else macd[i] - sig[i]) := by
  obtain ⟨sf, s0, h⟩ := (C31_macd (α := α) hs hf hm s).at' hx
  obtain ⟨sf1, s01, e1⟩ := (C26_ema (α := α) hs s).at' hx
  obtain ⟨sf2, s02, e2⟩ := (C26_ema (α := α) hf s).at' hx
  refine ⟨scan (expAvg slow) [] xs, scan (expAvg fast) [] xs, scan (macdLine slow fast) [] xs, scan (macdSignal slow fast m) [] xs,
    scan (macdHist slow fast m) [] xs, sf, s0, ?_, ⟨sf1, s01, e1⟩, ⟨sf2, s02, e2⟩, by simp, by simp, by simp, by simp, by simp, ?_, ?_, ?_, ?_⟩
  · rw [h]; simp only [vBuf5, scan_map]; rfl
  · intro i hi
    simp only [scan_getElem, List.nil_append]
    rw [macdLine, List.length_take, Nat.min_eq_left (by omega)]
  · intro i hi h
    simp only [scan_getElem, List.nil_append]
    rw [macdSignal, List.length_take, Nat.min_eq_left (by omega), if_pos h]
  · intro hl
    have hne : (scan (macdLine slow fast) [] xs).drop (slow - 1) ≠ [] := by
      rw [← List.length_pos_iff]; simp; omega
    obtain ⟨sf3, s03, e3⟩ := (C26_ema (α := α) hm s).at' hne
    refine ⟨sf3, s03, ?_⟩
    rw [e3]
    congr 5
    apply List.ext_getElem (by simp)
    intro j h1 h2
    simp only [scan_length, List.length_drop] at h1
    rw [List.getElem_drop]
    simp only [scan_getElem, List.nil_append]
    rw [macdSignal, List.length_take, if_neg (by omega), show slow - 1 + j + 1 = slow + j by omega, macdHistory_take xs j hs]
    rfl
  · intro i hi
    simp only [scan_getElem, List.nil_append]
    rw [macdHist, List.length_take, Nat.min_eq_left (by omega)]

example : output (call (MACD 3 2 2) (series [1, 3, 5, 9, 0]) none) =
    .ok (.tup [series [0, 0, 3, 6, 3], series [0, 2, 4, 22 / 3, 22 / 9], series [0, 0, 1, 4 / 3, -5 / 9], series [0, 0, 0, 7 / 6, 1 / 54],
      series [0, 0, 0, 1 / 6, -31 / 54]]) := by decide +kernel

/-! ### C32 -/

/-- **C32 SMA crossover.** -/
theorem C32_crossover {slow fast : Nat} (hs : 0 < slow) (hf : 0 < fast) (s : List Nat) :
    StreamsAs (SMACrossover (slow : Int) fast : Operator α) (vBuf (s := s)) vBuf (smaDiff slow fast) :=
  (crossover_tracks hs hf s).streams rows_ok isSeries_vBuf fun _ => rfl
example := C32_crossover (α := XR ℚ) (slow := 3) (fast := 2) (by norm_num) (by norm_num) [2]

/-- **C32, by index**, in terms of what SMA(slow) and SMA(fast) output. -/
theorem C32_crossover_at {slow fast : Nat} (hs : 0 < slow) (hf : 0 < fast) {xs : List (Idx s → α)} (hx : xs ≠ []) :
    ∃ os a b : List (Idx s → α), (∃ sf s0, call (SMACrossover (slow : Int) fast) (vBuf xs) none = .ok (vBuf os, sf, s0)) ∧
      (∃ sf s0, call (SMA (slow : Int)) (vBuf xs) none = .ok (vBuf a, sf, s0)) ∧
      (∃ sf s0, call (SMA (fast : Int)) (vBuf xs) none = .ok (vBuf b, sf, s0)) ∧
      ∃ (l1 : os.length = xs.length) (l2 : a.length = xs.length) (l3 : b.length = xs.length), ∀ i (hi : i < xs.length),
        os[i] = if i + 1 < slow then Arith.zero - a[i] else b[i] - a[i] := by
  obtain ⟨sf, s0, h⟩ := (C32_crossover (α := α) hs hf s).at' hx
  obtain ⟨sf1, s01, e1⟩ := (C25_sma (α := α) hs s).at' hx
  obtain ⟨sf2, s02, e2⟩ := (C25_sma (α := α) hf s).at' hx
  refine ⟨_, _, _, ⟨sf, s0, h⟩, ⟨sf1, s01, e1⟩, ⟨sf2, s02, e2⟩, by simp, by simp, by simp, fun i hi => ?_⟩
  simp only [scan_getElem, List.nil_append, smaDiff, List.length_take, Nat.min_eq_left (show i + 1 ≤ xs.length by omega)]
  split <;> rfl

example : output (call (SMACrossover 3 2) (series [1, 3, 5, 9, 0]) none) = .ok (series [0, 0, 1, 4 / 3, -1 / 6]) := by decide +kernel

end TS
