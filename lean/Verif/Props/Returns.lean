import Verif.Props.Correlation
/-
C36 - C40: relative strength index, returns, volatility, Sharpe ratio, skewness.
-/
namespace TS
open PyVal

/-! ### C37 -/
section
variable {α : Type} [TFNum α]

theorem return_streams (hz : TFNum.eq (Arith.zero : α) (Arith.ofRat 0) = true) (f : α → α → α) {p : Nat} (hp : 0 < p) :
    StreamsAs (returnOp f (p : Int)) vSBuf vSBuf (growth f p) :=
  (return_tracks hz f hp).streams nums_ok isSeries_vSBuf fun _ => rfl

/-- **C37 Return**, every arithmetic in which zero equals zero. -/
theorem C37_return_streams (hz : TFNum.eq (Arith.zero : α) (Arith.ofRat 0) = true) {p : Nat} (hp : 0 < p) :
    StreamsAs (Return (p : Int)) vSBuf vSBuf (growth (α := α) (fun now before => now / before - Arith.ofRat 1) p) := return_streams hz _ hp
example := C37_return_streams (α := XR ℚ) (by simp) (p := 2) (by norm_num)

/-- **C37 LogarithmicReturn**, every arithmetic in which zero equals zero. -/
theorem C37_logReturn_streams (hz : TFNum.eq (Arith.zero : α) (Arith.ofRat 0) = true) {p : Nat} (hp : 0 < p) :
    StreamsAs (LogReturn (p : Int)) vSBuf vSBuf (growth (α := α) (fun now before => Arith.log (now / before)) p) := return_streams hz _ hp
example := C37_logReturn_streams (α := XR ℚ) (by simp) (p := 2) (by norm_num)

theorem growth_take {f : α → α → α} {p i : Nat} {xs : List α} (hi : i < xs.length) :
    growth f p (xs.take (i + 1)) = if h : p ≤ i then
      (if TFNum.eq (xs[i - p]'(by omega)) (Arith.ofRat 0) then Arith.zero else f xs[i] (xs[i - p]'(by omega))) else Arith.zero := by
  rw [growth, lagged_take hi, getLastD_take hi, List.length_take, Nat.min_eq_left (by omega)]
  by_cases h : p ≤ i
  · simp only [h, dif_pos]
    by_cases h0 : TFNum.eq (xs[i - p]'(by omega)) (Arith.ofRat 0) = true
    · rw [if_pos (.inr h0), if_pos h0]
    · rw [if_neg (by rintro (h1 | h1) <;> [omega; exact h0 h1]), if_neg h0]
  · rw [if_pos (.inl (by omega)), dif_neg h]

/-- **C37, by index**, every arithmetic. -/
theorem C37_return (hz : TFNum.eq (Arith.zero : α) (Arith.ofRat 0) = true) {p : Nat} (hp : 0 < p) {xs : List α} (hx : xs ≠ []) :
    ∃ os sf s0, call (Return (p : Int)) (vSBuf xs) none = .ok (vSBuf os, sf, s0) ∧ ∃ hl : os.length = xs.length,
      ∀ i (hi : i < xs.length), os[i] = if h : p ≤ i then
        (if TFNum.eq (xs[i - p]'(by omega)) (Arith.ofRat 0) then Arith.zero else xs[i] / xs[i - p]'(by omega) - Arith.ofRat 1) else Arith.zero := by
  obtain ⟨os, sf, s0, h1, hl, h2⟩ := (C37_return_streams hz hp).at hx
  exact ⟨os, sf, s0, h1, hl, fun i hi => by rw [h2 i hi, growth_take hi]⟩
example := C37_return (α := XR ℚ) (by simp) (p := 2) (by norm_num) (xs := [XR.fin 3, XR.pinf, XR.fin 4]) (by simp)

/-- **C37, by index**, every arithmetic. -/
theorem C37_logReturn (hz : TFNum.eq (Arith.zero : α) (Arith.ofRat 0) = true) {p : Nat} (hp : 0 < p) {xs : List α} (hx : xs ≠ []) :
    ∃ os sf s0, call (LogReturn (p : Int)) (vSBuf xs) none = .ok (vSBuf os, sf, s0) ∧ ∃ hl : os.length = xs.length,
      ∀ i (hi : i < xs.length), os[i] = if h : p ≤ i then
        (if TFNum.eq (xs[i - p]'(by omega)) (Arith.ofRat 0) then Arith.zero else Arith.log (xs[i] / xs[i - p]'(by omega))) else Arith.zero := by
  obtain ⟨os, sf, s0, h1, hl, h2⟩ := (C37_logReturn_streams hz hp).at hx
  exact ⟨os, sf, s0, h1, hl, fun i hi => by rw [h2 i hi, growth_take hi]⟩
example := C37_logReturn (α := XR ℚ) (by simp) (p := 2) (by norm_num) (xs := [XR.fin 3, XR.pinf, XR.fin 4]) (by simp)

end

theorem XR.zero_eq_zero {K : Type} [Field K] [LinearOrder K] [Transc K] [FloorRing K] : TFNum.eq (Arith.zero : XR K) (Arith.ofRat 0) = true := by simp

/-- log return of real numbers -/
noncomputable def logGrowth (p : Nat) (l : List ℝ) : ℝ :=
  if h : p < l.length then Real.log (l[l.length - 1] / l[l.length - 1 - p]) else 0

theorem growth_fin {f : XR ℝ → XR ℝ → XR ℝ} {g : ℝ → ℝ → ℝ} (hf : ∀ a b, 0 < a → 0 < b → f (XR.fin a) (XR.fin b) = XR.fin (g a b)) {p : Nat} {l : List ℝ}
    (hl : ∀ x ∈ l, 0 < x) :
    growth f p (l.map XR.fin) = XR.fin (if h : p < l.length then g (l[l.length - 1]) (l[l.length - 1 - p]) else 0) := by
  rcases eq_or_ne l [] with rfl | hne
  · simp [growth]
  have hlen := List.length_pos_iff.2 hne
  have := growth_take (f := f) (p := p) (i := l.length - 1) (xs := l.map XR.fin) (by simp; omega)
  rw [List.take_of_length_le (by simp; omega)] at this
  rw [this]
  by_cases h : p < l.length
  · rw [dif_pos (by omega), dif_pos h]
    have h1 := hl _ (List.getElem_mem (l := l) (n := l.length - 1 - p) (by omega))
    have h2 := hl _ (List.getElem_mem (l := l) (n := l.length - 1) (by omega))
    simp only [List.getElem_map, XR.ofRat_eq, XR.eq_fin, Rat.cast_zero, h1.ne', decide_false, Bool.false_eq_true, if_false]
    exact hf _ _ h2 h1
  · rw [dif_neg (by omega), dif_neg h]; simp

theorem log_fin {a b : ℝ} (ha : 0 < a) (hb : 0 < b) : (Arith.log (XR.fin a / XR.fin b) : XR ℝ) = XR.fin (Real.log (a / b)) := by
  rw [XR.fin_div _ _ hb.ne']
  have := div_pos ha hb
  show XR.log _ = _
  simp only [XR.log, not_lt.2 this.le, this.ne', if_false]
  rfl

/-- `StreamsAs` on the series that satisfy a condition. -/
theorem StreamsAs.on {α A B A' B' : Type} {op : Operator α} {ser : List A → Val α} {outs : List B → Val α} {y : List A → B} (h : StreamsAs op ser outs y)
    (f : A' → A) (g : B' → B) {y' : List A' → B'} {P : A' → Prop} (e : ∀ k, k ≠ [] → (∀ x ∈ k, P x) → y (k.map f) = g (y' k)) {xs : List A'} (hx : xs ≠ [])
    (hP : ∀ x ∈ xs, P x) : ∃ sf s0, call op (ser (xs.map f)) none = .ok (outs ((scan y' [] xs).map g), sf, s0) := by
  obtain ⟨sf, s0, h⟩ := h.at' (xs := xs.map f) (by simpa using hx)
  refine ⟨sf, s0, ?_⟩
  rw [h]
  congr 3
  simp only [scan, List.length_map, List.nil_append, List.map_map, Function.comp_def, ← List.map_take]
  refine List.map_congr_left fun i hi => ?_
  rw [List.mem_range] at hi
  exact e _ (take_ne_nil hi) fun x hx => hP x (List.mem_of_mem_take hx)

theorem growth_at {g : ℝ → ℝ → ℝ} {p i : Nat} {xs : List ℝ} (hi : i < xs.length) :
    (if h : p < (xs.take (i + 1)).length then g ((xs.take (i + 1))[(xs.take (i + 1)).length - 1]) ((xs.take (i + 1))[(xs.take (i + 1)).length - 1 - p]) else 0) =
      if h : p ≤ i then g xs[i] (xs[i - p]'(by omega)) else 0 := by
  have hl : (xs.take (i + 1)).length = i + 1 := by simp; omega
  by_cases h : p ≤ i
  · rw [dif_pos (by omega), dif_pos h]
    simp only [List.getElem_take]
    congr 2 <;> omega
  · rw [dif_neg (by omega), dif_neg h]

theorem growth_pos {op : Operator (XR ℝ)} {f : XR ℝ → XR ℝ → XR ℝ} {g : ℝ → ℝ → ℝ} {p : Nat} (h : StreamsAs op vSBuf vSBuf (growth f p))
    (hf : ∀ a b, 0 < a → 0 < b → f (XR.fin a) (XR.fin b) = XR.fin (g a b)) {xs : List ℝ} (hx : xs ≠ []) (hpos : ∀ x ∈ xs, 0 < x) :
    ∃ os sf s0, call op (finSeries xs) none = .ok (finSeries os, sf, s0) ∧ ∃ hl : os.length = xs.length,
      ∀ i (hi : i < xs.length), os[i] = if h : p ≤ i then g xs[i] (xs[i - p]'(by omega)) else 0 := by
  obtain ⟨sf, s0, h1⟩ := h.on XR.fin XR.fin (P := fun x => 0 < x) (fun l _ hl => growth_fin hf hl) hx hpos
  refine ⟨_, sf, s0, h1, by simp, fun i hi => ?_⟩
  rw [scan_getElem, List.nil_append, growth_at hi]

/-- **C37, positive prices**: the log return is the logarithm of one plus the return. -/
theorem C37_log_one_add {p : Nat} (hp : 0 < p) {xs : List ℝ} (hx : xs ≠ []) (hpos : ∀ x ∈ xs, 0 < x) :
    ∃ rs ls : List ℝ, (∃ sf s0, call (Return (p : Int)) (finSeries xs) none = .ok (finSeries rs, sf, s0)) ∧
      (∃ sf s0, call (LogReturn (p : Int)) (finSeries xs) none = .ok (finSeries ls, sf, s0)) ∧
      ∃ (h1 : rs.length = xs.length) (h2 : ls.length = xs.length), ∀ i (hi : i < xs.length), Real.log (1 + rs[i]) = ls[i] ∧
        (∀ h : p ≤ i, ls[i] = Real.log (xs[i] / xs[i - p])) := by
  obtain ⟨rs, sf, s0, a1, a2, a3⟩ := growth_pos (C37_return_streams XR.zero_eq_zero hp) (g := fun a b => a / b - 1) (fun a b _ hb => by
    simp [XR.fin_div _ _ hb.ne']) hx hpos
  obtain ⟨ls, sf', s0', b1, b2, b3⟩ := growth_pos (C37_logReturn_streams XR.zero_eq_zero hp) (fun a b ha hb => log_fin ha hb) hx hpos
  refine ⟨rs, ls, ⟨sf, s0, a1⟩, ⟨sf', s0', b1⟩, a2, b2, fun i hi => ⟨?_, fun h => ?_⟩⟩
  · rw [a3 i hi, b3 i hi]
    split
    · congr 1; ring
    · simp
  · rw [b3 i hi, dif_pos h]
example := C37_log_one_add (p := 2) (by norm_num) (xs := [3, 1, 4]) (by simp) (by norm_num)

/-- **C37, positive prices**: log returns telescope.  The sum of the `p`-step log returns at `i + p`, `i + 2 p`, ...,
`i + k p` is the logarithm of the ratio of the last and the first price. -/
theorem C37_telescope {p : Nat} (hp : 0 < p) {xs : List ℝ} (hx : xs ≠ []) (hpos : ∀ x ∈ xs, 0 < x) :
    ∃ ls sf s0, call (LogReturn (p : Int)) (finSeries xs) none = .ok (finSeries ls, sf, s0) ∧ ls.length = xs.length ∧
      ∀ i k (h : i + k * p < xs.length),
        ((List.range k).map fun j => ls.getD (i + (j + 1) * p) 0).sum = Real.log (xs[i + k * p] / xs[i]'(by
          have := Nat.zero_le (k * p); omega)) := by
  obtain ⟨ls, sf, s0, b1, b2, b3⟩ := growth_pos (C37_logReturn_streams XR.zero_eq_zero hp) (fun a b ha hb => log_fin ha hb) hx hpos
  refine ⟨ls, sf, s0, b1, b2, fun i k h => ?_⟩
  induction k with
  | zero =>
    have := hpos _ (List.getElem_mem (l := xs) (n := i) (by simpa using h))
    simp [div_self this.ne']
  | succ k ih =>
    have hk : i + k * p < xs.length := by rw [Nat.add_one_mul] at h; omega
    rw [List.range_succ, List.map_append, List.sum_append, ih hk]
    simp only [List.map_cons, List.map_nil, List.sum_cons, List.sum_nil, add_zero]
    have hi : i + (k + 1) * p < ls.length := by omega
    rw [List.getD_eq_getElem?_getD, List.getElem?_eq_getElem hi, Option.getD_some, b3 _ h, dif_pos (by
      rw [Nat.add_one_mul]; omega)]
    have e : i + (k + 1) * p - p = i + k * p := by rw [Nat.add_one_mul]; omega
    simp only [e]
    have p1 := hpos _ (List.getElem_mem (l := xs) (n := i + k * p) hk)
    have p2 := hpos _ (List.getElem_mem (l := xs) (n := i + (k + 1) * p) h)
    have p3 := hpos _ (List.getElem_mem (l := xs) (n := i) (by have := Nat.zero_le (k * p); omega))
    rw [Real.log_div p1.ne' p3.ne', Real.log_div p2.ne' p1.ne', Real.log_div p2.ne' p3.ne']
    ring

example : output (call (Return 1) (series [2, 4, 5, 0, 7]) none) = .ok (series [0, 1, 1 / 4, -1, 0]) := by decide +kernel
example : output (call (Return 2) (series [2, 4, 5, 0]) none) = .ok (series [0, 0, 3 / 2, -1]) := by decide +kernel

/-! ### C38 -/

/-- **C38, every arithmetic in which zero equals zero.** -/
theorem C38_volatility_streams {α : Type} [TFNum α] (hz : TFNum.eq (Arith.zero : α) (Arith.ofRat 0) = true) {m r : Nat} (hm : 0 < m) (hr : 0 < r) :
    StreamsAs (Volatility (m : Int) r) vSBuf vSBuf (volatility (α := α) m r) :=
  (volatility_tracks hz hm hr).streams nums_ok isSeries_vSBuf fun _ => rfl
example := C38_volatility_streams (α := XR ℚ) (by simp) (m := 2) (r := 3) (by norm_num) (by norm_num)

/-- The log return over `r` steps at index `i`, zero during the warm-up. -/
noncomputable def logReturnAt (r : Nat) (xs : List ℝ) (i : Nat) : ℝ := if r ≤ i then Real.log (xs.getD i 1 / xs.getD (i - r) 1) else 0

theorem getD_eq {xs : List ℝ} {i : Nat} (h : i < xs.length) (d : ℝ) : xs.getD i d = xs[i] := by
  rw [List.getD_eq_getElem?_getD, List.getElem?_eq_getElem h, Option.getD_some]

/-- **C38, positive prices, what the code does**: zero below index `max m r`, then the population standard deviation
of the last `m` log returns, where the returns below index `r` count as zero. -/
theorem C38_volatility {m r : Nat} (hm : 0 < m) (hr : 0 < r) {xs : List ℝ} (hx : xs ≠ []) (hpos : ∀ x ∈ xs, 0 < x) :
    ∃ os sf s0, call (Volatility (m : Int) r) (finSeries xs) none = .ok (finSeries os, sf, s0) ∧ ∃ hl : os.length = xs.length,
      ∀ i (hi : i < xs.length), os[i] = if i < max m r then 0 else stdDev (List.ofFn fun j : Fin m => logReturnAt r xs (i - j)) := by
  let G : List ℝ → ℝ := fun l => if h : r < l.length then Real.log (l[l.length - 1] / l[l.length - 1 - r]) else 0
  let y : List ℝ → ℝ := fun l => if l.length ≤ max m r then 0 else movingStdR m (scan G [] l)
  obtain ⟨sf, s0, h1⟩ := (C38_volatility_streams (α := XR ℝ) XR.zero_eq_zero hm hr).on (y' := y) XR.fin XR.fin (P := fun x => 0 < x) (fun l _ hl => by
    simp only [volatility, List.length_map, y]
    split
    · simp
    · rw [← movingStd_fin hm]
      congr 1
      simp only [scan, List.length_map, List.map_map, List.nil_append, ← List.map_take]
      exact List.map_congr_left fun i _ => by
        show _ = XR.fin (G _)
        exact growth_fin (g := fun a b => Real.log (a / b)) (fun a b ha hb => log_fin ha hb) fun x hx => hl x (List.mem_of_mem_take hx)) hx hpos
  refine ⟨_, sf, s0, h1, by simp, fun i hi => ?_⟩
  rw [scan_getElem, List.nil_append]
  have hlen : (xs.take (i + 1)).length = i + 1 := by simp; omega
  simp only [y, hlen]
  by_cases h : i < max m r
  · rw [if_pos (by omega), if_pos h]
  · rw [if_neg (by omega), if_neg h, movingStdR, scan_length, hlen, if_neg (by omega)]
    congr 1
    have hm' : m ≤ i := by omega
    have e := window_take (p := m) (i := i) (xs := scan G [] (xs.take (i + 1))) (by simp; omega) (by omega)
    rw [List.take_of_length_le (by simp)] at e
    rw [e]
    congr 1
    funext j
    rw [scan_getElem, List.nil_append, List.take_take, Nat.min_eq_left (by omega)]
    have hij : i - j < xs.length := by omega
    have := growth_at (g := fun a b => Real.log (a / b)) (p := r) hij
    simp only [G]
    rw [this, logReturnAt]
    by_cases hr' : r ≤ i - j
    · rw [dif_pos hr', if_pos hr', getD_eq hij, getD_eq (by omega)]
    · rw [dif_neg hr', if_neg hr']
example := C38_volatility (m := 2) (r := 3) (by norm_num) (by norm_num) (xs := [3, 1, 4]) (by simp) (by norm_num)

/-- **C38, positive prices**: zero below index `max m r`, and from index `m + r - 1` on the population standard deviation
of the last `m` genuine log returns (with `r = 1` this is every index). -/
theorem C38_genuine {m r : Nat} (hm : 0 < m) (hr : 0 < r) {xs : List ℝ} (hx : xs ≠ []) (hpos : ∀ x ∈ xs, 0 < x) :
    ∃ os sf s0, call (Volatility (m : Int) r) (finSeries xs) none = .ok (finSeries os, sf, s0) ∧ ∃ hl : os.length = xs.length,
      ∀ i (hi : i < xs.length), (i < max m r → os[i] = 0) ∧
        ((h : m + r ≤ i + 1) → os[i] = stdDev (List.ofFn fun j : Fin m => Real.log (xs[i - j]'(by omega) / xs[i - j - r]'(by omega)))) := by
  obtain ⟨os, sf, s0, h1, hl, h2⟩ := C38_volatility hm hr hx hpos
  refine ⟨os, sf, s0, h1, hl, fun i hi => ⟨fun h => by rw [h2 i hi, if_pos h], fun h => ?_⟩⟩
  rw [h2 i hi, if_neg (by omega)]
  congr 2
  funext j
  rw [logReturnAt, if_pos (by omega), getD_eq (by omega), getD_eq (by omega)]
example := C38_genuine (m := 2) (r := 3) (by norm_num) (by norm_num) (xs := [3, 1, 4]) (by simp) (by norm_num)

theorem stdDev_log_four : stdDev [Real.log 4, 0] = Real.log 2 := by
  have hlog : Real.log 4 = 2 * Real.log 2 := by
    rw [show (4 : ℝ) = 2 ^ 2 by norm_num, Real.log_pow]; norm_num
  have hv : variance [Real.log 4, 0] = Real.log 2 ^ 2 := by
    simp only [variance, avg, hlog, List.map_cons, List.map_nil, List.sum_cons, List.sum_nil, List.length_cons, List.length_nil]
    norm_num
    ring
  rw [stdDev, hv, Real.sqrt_sq (Real.log_nonneg (by norm_num))]

/-- **Between `max m r` and `m + r - 2`**: prices that double at every step have constant log returns, whose standard deviation is
zero; `Volatility(2, 2)` outputs `log 2` at index 2, where the only genuine return so far is `log (4 / 1)`, because its window
still holds a zero from the warm-up. -/
theorem C38_warmup_zeros : ∃ os sf s0, call (Volatility 2 2) (finSeries ([1, 2, 4] : List ℝ)) none = .ok (finSeries os, sf, s0) ∧
    os[2]? = some (Real.log 2) ∧ Real.log 2 ≠ 0 ∧ stdDev [Real.log (4 / 1)] = 0 := by
  obtain ⟨os, sf, s0, h1, hl, h2⟩ := C38_volatility (m := 2) (r := 2) (by omega) (by omega) (xs := [1, 2, 4]) (by simp) (by simp)
  refine ⟨os, sf, s0, by simpa only [Nat.cast_ofNat] using h1, ?_, by have := Real.log_pos (x := 2) (by norm_num); exact this.ne',
    by simp [stdDev, variance, avg]⟩
  simp only [List.length_cons, List.length_nil] at hl h2
  rw [List.getElem?_eq_getElem (by omega), h2 2 (by omega), if_neg (by omega)]
  have e : (List.ofFn fun j : Fin 2 => logReturnAt 2 [1, 2, 4] (2 - j)) = [Real.log 4, 0] := by
    simp [List.ofFn_succ, logReturnAt]
  rw [e, stdDev_log_four]

example : output (call (Volatility 2 1) (series [1, 2, 4, 12, 36]) none) = .ok (series [0, 0, 0, 1 / 2, 0]) := by decide +kernel

end TS
