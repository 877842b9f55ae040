import Verif.Props.Returns
import Verif.Props.RiskRatio
import Verif.Props.Signals
import Verif.Props.Units
/-
C35, C38, C50, C59: for which parameters the expected behaviour is the actual one.
-/
namespace TS
open PyVal

/-! ### C38 -/

/-- the genuine `r`-step log returns among the last `m` at index `i` -/
noncomputable def genuineReturns (m r : Nat) (xs : List ℝ) (i : Nat) : List ℝ :=
  (List.range (min m (i + 1 - r))).map fun j => Real.log (xs.getD (i - j) 1 / xs.getD (i - j - r) 1)

/-- **C38 Volatility and warm-up zeros**: that Volatility(m, r) is, from index `max m r` on, the standard deviation of genuine returns only, on all series of positive
prices, holds exactly for `m = 1` and for `r = 1`. -/
theorem C38_genuine_iff {m r : Nat} (hm : 0 < m) (hr : 0 < r) :
    (∀ xs : List ℝ, xs ≠ [] → (∀ x ∈ xs, 0 < x) → ∃ os sf s0, call (Volatility (m : Int) r) (finSeries xs) none = .ok (finSeries os, sf, s0) ∧
      ∃ hl : os.length = xs.length, ∀ i (hi : i < xs.length), os[i] = if i < max m r then 0 else stdDev (genuineReturns m r xs i)) ↔ m = 1 ∨ r = 1 := by
  constructor
  · intro h
    by_contra hmr
    set n := max m r with hn
    let xs : List ℝ := List.ofFn fun k : Fin (n + 1) => (2 : ℝ) ^ (k : Nat)
    have hlen : xs.length = n + 1 := by simp [xs]
    have hpos : ∀ x ∈ xs, 0 < x := by
      intro x hx
      obtain ⟨k, rfl⟩ := (List.mem_ofFn' _ _).1 hx
      positivity
    have hne : xs ≠ [] := List.length_pos_iff.1 (by omega)
    have hgrow : ∀ k, r ≤ k → k ≤ n → Real.log (xs.getD k 1 / xs.getD (k - r) 1) = r * Real.log 2 := by
      intro k h1 h2
      rw [getD_eq (by omega), getD_eq (by omega)]
      simp only [xs, List.getElem_ofFn]
      rw [div_eq_mul_inv, ← pow_sub₀ (2 : ℝ) two_ne_zero (by omega), Real.log_pow, show k - (k - r) = r by omega]
    obtain ⟨os, sf, s0, h1, hl, h2⟩ := h xs hne hpos
    obtain ⟨os', sf', s0', h1', hl', h2'⟩ := C38_volatility hm hr hne hpos
    rw [h1] at h1'
    simp only [Except.ok.injEq, Prod.mk.injEq] at h1'
    obtain rfl := finSeries_inj h1'.1
    have e := h2 n (by omega)
    rw [h2' n (by omega), if_neg (by omega), if_neg (by omega)] at e
    have e0 : stdDev (genuineReturns m r xs n) = 0 := by
      rw [stdDev, Real.sqrt_eq_zero', variance_eq_zero.2]
      intro x hx y hy
      simp only [genuineReturns, List.mem_map, List.mem_range] at hx hy
      obtain ⟨j, hj, rfl⟩ := hx
      obtain ⟨k, hk, rfl⟩ := hy
      rw [hgrow _ (by omega) (by omega), hgrow _ (by omega) (by omega)]
    rw [e0, stdDev, Real.sqrt_eq_zero', (variance_nonneg _).ge_iff_eq', variance_eq_zero] at e
    have := e (logReturnAt r xs n) ((List.mem_ofFn' _ _).2 ⟨⟨0, hm⟩, by simp⟩) (logReturnAt r xs (n - (m - 1))) ((List.mem_ofFn' _ _).2 ⟨⟨m - 1, by omega⟩, rfl⟩)
    rw [logReturnAt, logReturnAt, if_pos (by omega), if_neg (by omega), hgrow _ (by omega) (by omega)] at this
    have h2 := Real.log_pos (x := 2) (by norm_num)
    have hr' : (0 : ℝ) < r := by exact_mod_cast hr
    exact (mul_pos hr' h2).ne' this
  · intro hmr xs hx hpos
    obtain ⟨os, sf, s0, h1, hl, h2⟩ := C38_genuine hm hr hx hpos
    refine ⟨os, sf, s0, h1, hl, fun i hi => ?_⟩
    split
    · next h => exact (h2 i hi).1 h
    · next h =>
      rw [(h2 i hi).2 (by omega)]
      congr 1
      apply List.ext_getElem
      · simp [genuineReturns]; omega
      · intro j h3 h4
        simp only [List.length_ofFn] at h3
        simp only [genuineReturns, List.getElem_ofFn, List.getElem_map, List.getElem_range]
        rw [getD_eq (by omega), getD_eq (by omega)]

example : genuineReturns 2 2 [1, 2, 4] 2 = [Real.log (4 / 1)] := by simp [genuineReturns]
/-! ### C35 -/

section
variable {K : Type} [Field K] [LinearOrder K] [IsStrictOrderedRing K] [Transc K] [FloorRing K]

/-- exponential average -/
def emaK (p : Nat) (l : List K) : K := recursiveAvgK p (fun m x => m + 2 / ((p : K) + 1) * (x - m)) l

theorem emaK_zeros (p n : Nat) : emaK p (List.replicate n (0 : K)) = 0 := by
  rw [emaK, recursiveAvgK, List.take_replicate, List.drop_replicate]
  have h0 : movingAvgK p (List.replicate (min p n) (0 : K)) = 0 := by
    rw [movingAvgK]
    split
    · rfl
    · rw [window, List.reverse_replicate, List.take_replicate, avg, List.sum_replicate]; simp
  rw [h0]
  induction n - p with
  | zero => rfl
  | succ k ih => rw [List.replicate_succ, List.foldl_cons]; simpa using ih

/-- weight of the last of `n + 1` samples in the exponential average -/
def lastWeight (p n : Nat) : K := if p ≤ n then 2 / ((p : K) + 1) else if p = n + 1 then 1 / p else 0

theorem emaK_last {p : Nat} (hp : 0 < p) (n : Nat) (x : K) : emaK p (List.replicate n 0 ++ [x]) = lastWeight p n * x := by
  have hz := emaK_zeros (K := K) p n
  unfold lastWeight
  split
  · next h =>
    rw [emaK, recursiveAvgK] at hz ⊢
    rw [List.drop_append_of_le_length (by simpa using h), List.take_append_of_le_length (by simpa using h), List.foldl_append, hz]
    simp
  · next h =>
    rw [emaK, recursiveAvgK, List.drop_eq_nil_of_le (by simp; omega), List.foldl_nil, List.take_of_length_le (by simp; omega), movingAvgK]
    split
    · next h' => rw [if_neg (by simp at h'; omega), zero_mul]
    · next h' =>
      simp only [List.length_append, List.length_replicate, List.length_singleton] at h'
      rw [if_pos (by omega), window, List.take_of_length_le (by simp; omega), avg, List.sum_reverse, List.length_reverse]
      have : p = n + 1 := by omega
      subst this
      simp [div_eq_inv_mul]

theorem macdLineK_eq (slow fast : Nat) (l : List K) : macdLineK slow fast l = if l.length < slow then 0 else emaK fast l - emaK slow l := rfl

theorem macdLineK_zeros (slow fast n : Nat) : macdLineK slow fast (List.replicate n (0 : K)) = 0 := by
  rw [macdLineK_eq, emaK_zeros, emaK_zeros]; simp

theorem scan_last {A B : Type} (y : List A → B) (l : List A) (x : A) : scan y [] (l ++ [x]) = scan y [] l ++ [y (l ++ [x])] := by
  apply List.ext_getElem (by simp)
  intro i h1 h2
  simp only [scan_length, List.length_append, List.length_singleton] at h1
  rw [scan_getElem, List.getElem_append]
  split
  · next h => rw [scan_getElem, List.take_append_of_le_length (by simp at h; omega)]
  · next h => simp at h; rw [List.take_of_length_le (by simp; omega)]; simp

theorem scan_macd_zeros (slow fast n : Nat) : scan (macdLineK slow fast) [] (List.replicate n (0 : K)) = List.replicate n 0 := by
  apply List.ext_getElem (by simp)
  intro i h1 h2
  rw [scan_getElem, List.nil_append, List.take_replicate, macdLineK_zeros, List.getElem_replicate]

/-- The histogram of a single non-zero sample at the first index at which it is genuine. -/
theorem macdHistK_last {slow fast m : Nat} (hs : 0 < slow) (hf : 0 < fast) (hm : 2 ≤ m) (x : K) :
    macdHistK slow fast m (List.replicate (slow + m - 2) 0 ++ [x]) = (lastWeight fast (slow + m - 2) - lastWeight slow (slow + m - 2)) * x * (1 - 1 / m) := by
  have hL : macdLineK slow fast (List.replicate (slow + m - 2) 0 ++ [x]) = (lastWeight fast (slow + m - 2) - lastWeight slow (slow + m - 2)) * x := by
    rw [macdLineK_eq, if_neg (by simp; omega), emaK_last hf, emaK_last hs, sub_mul]
  have e : (slow + m - 2) - (slow - 1) = m - 1 := by omega
  have h1 := emaK_last (K := K) (p := m) (by omega) (m - 1) ((lastWeight fast (slow + m - 2) - lastWeight slow (slow + m - 2)) * x)
  have hw : (lastWeight m (m - 1) : K) = 1 / m := by rw [lastWeight, if_neg (by omega), if_pos (by omega)]
  rw [hw, emaK] at h1
  rw [macdHistK, if_neg (by simp; omega), if_neg (by simp; omega), scan_last, scan_macd_zeros, hL, List.drop_append_of_le_length (by simp; omega), List.drop_replicate, e, h1]
  ring

theorem lastWeight_ne {slow fast m : Nat} (hs : 0 < slow) (hf : 0 < fast) (hm : 2 ≤ m) (h : slow ≠ fast) :
    (lastWeight fast (slow + m - 2) - lastWeight slow (slow + m - 2) : K) ≠ 0 := by
  rw [sub_ne_zero]
  have hs' : (0 : K) < slow + 1 := by positivity
  have e : (lastWeight slow (slow + m - 2) : K) = 2 / (slow + 1) := if_pos (by omega)
  rw [e]
  unfold lastWeight
  split
  · intro h'
    have hf' : (0 : K) < fast + 1 := by positivity
    rw [div_eq_div_iff hf'.ne' hs'.ne'] at h'
    have : (slow : K) = fast := by linarith
    exact h (by exact_mod_cast this)
  · split
    · intro h'
      have hf' : (0 : K) < fast := by exact_mod_cast hf
      rw [div_eq_div_iff hf'.ne' hs'.ne'] at h'
      have h2 : slow + 1 ≤ fast := by omega
      have h3 : (slow : K) + 1 ≤ fast := by exact_mod_cast h2
      linarith
    · exact (div_pos two_pos hs').ne

theorem macdHistK_same {slow m : Nat} (hm : 0 < m) (l : List K) : macdHistK slow slow m l = 0 := by
  have hL : ∀ l : List K, macdLineK slow slow l = 0 := fun l => by rw [macdLineK_eq, sub_self]; simp
  have e : scan (macdLineK slow slow) [] l = List.replicate l.length 0 := by
    apply List.ext_getElem (by simp)
    intro i h1 h2
    rw [scan_getElem, hL, List.getElem_replicate]
  have := emaK_zeros (K := K) m (l.length - (slow - 1))
  rw [emaK] at this
  rw [macdHistK, hL, e, List.drop_replicate, this]
  simp

theorem macdHistK_one {slow fast : Nat} (hs : 0 < slow) (l : List K) : macdHistK slow fast 1 l = 0 := by
  rw [macdHistK]
  split
  · rfl
  · next h =>
    rw [if_neg (by omega)]
    rcases List.eq_nil_or_concat l with rfl | ⟨l', x, rfl⟩
    · simp at h; omega
    · rw [List.concat_eq_append] at h ⊢
      rw [scan_last, List.drop_append_of_le_length (by simp at h ⊢; omega)]
      generalize (scan (macdLineK slow fast) [] l').drop (slow - 1) = k
      generalize macdLineK slow fast (l' ++ [x]) = y
      cases k with
      | nil => simp [recursiveAvgK, movingAvgK, window, avg]
      | cons a k => simp [recursiveAvgK]; norm_num

/-- **C35 Signals without a crossing**, exact arithmetic: that MACDSignal emits a signal only after an earlier genuine histogram value of the opposite sign, on all
series, holds exactly if the histogram is always zero, for `slow = fast` and for `m = 1`. -/
theorem C35_genuine_iff {slow fast m : Nat} (hs : 0 < slow) (hf : 0 < fast) (hm : 0 < m) :
    (∀ xs : List K, xs ≠ [] → ∃ (os : List Int) (us : List K), (∃ sf s0, call (MACDSignal (slow : Int) fast m) (finSeries xs) none = .ok (vIBuf os, sf, s0)) ∧
      (∃ a b c d sf s0, call (MACD (slow : Int) fast m) (finSeries xs) none = .ok (.tup [a, b, c, d, finSeries us], sf, s0)) ∧
      ∃ (l1 : os.length = xs.length) (l2 : us.length = xs.length), ∀ i (hi : i < xs.length),
        (os[i] = 1 → ∃ j, ∃ hj : j < i, slow + m - 2 ≤ j ∧ us[j] < 0) ∧ (os[i] = -1 → ∃ j, ∃ hj : j < i, slow + m - 2 ≤ j ∧ 0 < us[j])) ↔ slow = fast ∨ m = 1 := by
  constructor
  · intro h
    by_contra hc
    push Not at hc
    have hm2 : 2 ≤ m := by omega
    set n := slow + m - 2 with hn
    set d : K := lastWeight fast n - lastWeight slow n with hd
    have hd0 : d ≠ 0 := lastWeight_ne hs hf hm2 hc.1
    set xs : List K := List.replicate n 0 ++ [-d] with hxs
    have hne : xs ≠ [] := by simp [hxs]
    have hlen : xs.length = n + 1 := by simp [hxs]
    obtain ⟨os, us, ⟨sf, s0, h1⟩, ⟨a, b, c, e, sf1, s01, h2⟩, l1, l2, h3⟩ := h xs hne
    obtain ⟨os', us', ⟨sf', s0', h1'⟩, ⟨a', b', c', e', sf1', s01', h2'⟩, l2', ht⟩ := C34_macd hs hf hm hne
    obtain ⟨a2, b2, c2, e2, sf2, s02, h4⟩ := macd_hist_reals hs hf hm hne
    rw [h1] at h1'
    rw [h2] at h2' h4
    simp only [Except.ok.injEq, Prod.mk.injEq, PyVal.tup, PyVal.node.injEq, List.cons.injEq, and_true, true_and] at h1' h2' h4
    obtain rfl := vIBuf_inj h1'.1
    have eu := finSeries_inj h2'.1.2.2.2.2
    have eu2 := finSeries_inj h4.1.2.2.2.2
    subst eu
    have hun : us[n]'(by omega) < 0 := by
      simp only [eu2]
      rw [scan_getElem, List.nil_append, List.take_of_length_le (by omega), hxs, macdHistK_last hs hf hm2]
      have hm' : (1 : K) / m < 1 := by
        rw [div_lt_one (by positivity)]
        exact_mod_cast hm2
      have := mul_pos (mul_self_pos.2 hd0) (sub_pos.2 hm')
      rw [← hn, ← hd]
      linarith
    have h0 : lastSign (us.take n) = 1 := by
      rcases lastSign_mem (us.take n) with h | h
      · exact h
      · obtain ⟨x, hx, hlt⟩ := lastSign_neg h
        obtain ⟨j, hj, hjn, rfl⟩ := mem_take_index hx
        have : us[j] = 0 := by
          simp only [eu2]
          rw [scan_getElem, List.nil_append, macdHistK_cold (by omega) (by omega)]
        rw [this] at hlt
        exact absurd hlt (lt_irrefl _)
    have hos : os[n]'(by omega) = -1 := by
      have := ht.cross n (le_refl _) (by omega)
      rw [List.getElem?_eq_getElem (by omega), Option.some.injEq] at this
      rw [this, turnAt, List.getD_eq_getElem?_getD, List.getElem?_eq_getElem (by omega), Option.getD_some, h0]
      have hsg : sgn (us[n]'(by omega)) = -1 := by simp [sgn, hun, hun.not_gt]
      rw [hsg, if_neg]
      push Not
      exact ⟨by omega, hun.ne, by decide⟩
    obtain ⟨j, hj, hnj, -⟩ := (h3 n (by omega)).2 hos
    omega
  · intro hc xs hx
    obtain ⟨os, us, h1, h2, l1, l2, h3⟩ := C35_before_signal (K := K) hs hf hm hx
    obtain ⟨a2, b2, c2, e2, sf2, s02, h4⟩ := macd_hist_reals (K := K) hs hf hm hx
    refine ⟨os, us, h1, h2, l1, l2, fun i hi => ?_⟩
    obtain ⟨a, b, c, e, sf, s0, h2⟩ := h2
    rw [h2] at h4
    simp only [Except.ok.injEq, Prod.mk.injEq, PyVal.tup, PyVal.node.injEq, List.cons.injEq, and_true, true_and] at h4
    have eu := finSeries_inj h4.1.2.2.2.2
    have h0 : us[i] = 0 := by
      simp only [eu]
      rw [scan_getElem]
      rcases hc with rfl | rfl
      · exact macdHistK_same hm _
      · exact macdHistK_one hs _
    exact ⟨fun h => absurd ((h3 i hi).1 h).1 (by rw [h0]; exact lt_irrefl _), fun h => absurd ((h3 i hi).2 h).1 (by rw [h0]; exact lt_irrefl _)⟩

end

/-- With equal periods there is no signal; with others the first genuine value can be signalled. -/
example : output (call (MACDSignal 2 2 2) (series [1, 5, 7, 8]) none) = .ok (vIBuf [0, 0, 0, 0]) := by decide +kernel
example : output (call (MACDSignal 2 1 2) (series [1, 5, 7, 8]) none) = .ok (vIBuf [0, 0, -1, 0]) := by decide +kernel

/-! ### C50 -/

/-- the standard deviation of a price 1 among `n` prices `1 + d` -/
theorem stdDev_one_replicate (n : Nat) {d : ℝ} (hd : 0 ≤ d) : stdDev (1 :: List.replicate n (1 + d)) = d * Real.sqrt n / (n + 1) := by
  have hn : (n : ℝ) + 1 ≠ 0 := by positivity
  have ha : avg (1 :: List.replicate n (1 + d)) = 1 + n * d / (n + 1) := by
    simp only [avg, List.sum_cons, List.sum_replicate, List.length_cons, List.length_replicate, nsmul_eq_mul]
    push_cast
    field_simp
    ring
  have hv : variance (1 :: List.replicate n (1 + d)) = (d * Real.sqrt n / (n + 1)) ^ 2 := by
    rw [variance, ha, div_pow, mul_pow, Real.sq_sqrt (by positivity)]
    simp only [avg, List.map_cons, List.map_replicate, List.sum_cons, List.sum_replicate, List.length_cons, List.length_replicate, nsmul_eq_mul]
    push_cast
    field_simp
    ring
  rw [stdDev, hv, Real.sqrt_sq (by positivity)]

/-- a quote with int signal, low and high given by the close -/
def flatQuote (c : ℝ) (n : Int) : RRIn (XR ℝ) := ⟨.fin c, .fin c, .fin c, .inr n⟩

/-- Without a position, and without a buy signal, the evaluator stays without a position. -/
theorem rrOf_idle {q : RRParams} {p : Nat} (c : ℝ) (n : Nat) : (rrOf q p (List.replicate n (flatQuote c 0))).1.stop = XR.fin 0 := by
  induction n with
  | zero => simp [rrOf, rrRev]
  | succ n ih =>
    rw [List.replicate_succ', rrOf_snoc, rrStep_eq, if_pos (by rw [ih]; simp [TFNum.eq, XR.eq]), if_neg (by simp [flatQuote, RRIn.isBuy])]
    exact ih

/-- **C50 Risk ratio position discipline**, real numbers, positive closes: that the evaluator, on all series of quotes, buys and sells in turn holds exactly when the
stop is not below the price at which a position is opened (`stop_factor ≤ 0`), or the volatility is always zero (`volatility_period = 1`). -/
theorem C50_discipline_iff {q : RRParams} {p : Nat} (hp : 0 < p) (hq : q.volatility_period = p) :
    (∀ (v : Val (XR ℝ)) (l : List (RRIn (XR ℝ))), Quotes v l → l ≠ [] → (∀ x ∈ l, ∃ c : ℝ, 0 < c ∧ x.close = .fin c) →
      ∃ (os : List (RROut (XR ℝ))) (sf s0 : Val (XR ℝ)), call (RiskRatioEvaluator q) v none = .ok (rrOuts os, sf, s0) ∧ Alternates (os.map RROut.signal)) ↔
      q.stop_factor ≤ 0 ∨ p = 1 := by
  constructor
  · intro h
    by_contra hc
    push Not at hc
    obtain ⟨n, rfl⟩ : ∃ n, p = n + 1 := ⟨p - 1, by omega⟩
    have hn : 0 < n := by omega
    have hsf : (0 : ℝ) < q.stop_factor := by exact_mod_cast hc.1
    have hn' : (0 : ℝ) < Real.sqrt n := Real.sqrt_pos.2 (by exact_mod_cast hn)
    set d : ℝ := (n + 1) / (q.stop_factor * Real.sqrt n) with hd
    have hd0 : 0 < d := by positivity
    set l0 := List.replicate n (flatQuote (1 + d) 0) with hl0
    set l := l0 ++ [flatQuote 1 1] ++ [flatQuote 1 1] with hl
    have hlen : l.length = n + 2 := by simp [hl, hl0]
    have hvl : Quotes (.tup [vSBuf (l.map RRIn.low), vSBuf (l.map RRIn.high), vSBuf (l.map RRIn.close),
        vIBuf (List.replicate n 0 ++ [1] ++ [1])]) l := ⟨_, rfl, .inr ⟨_, rfl, by simp [hl, hl0, flatQuote]⟩⟩
    have hne : l ≠ [] := by simp [hl]
    have hpos : ∀ x ∈ l, ∃ c : ℝ, 0 < c ∧ x.close = .fin c := by
      intro x hx
      simp only [hl, hl0, List.mem_append, List.mem_replicate, List.mem_singleton] at hx
      rcases hx with (⟨-, rfl⟩ | rfl) | rfl
      · exact ⟨1 + d, by positivity, rfl⟩
      · exact ⟨1, one_pos, rfl⟩
      · exact ⟨1, one_pos, rfl⟩
    obtain ⟨os, sf, s0, h1, h2⟩ := h _ l hvl hne hpos
    obtain ⟨os', sf', s0', h1', hlen', h3⟩ := rr_call hp hq hvl hne
    rw [h1] at h1'
    simp only [Except.ok.injEq, Prod.mk.injEq] at h1'
    obtain rfl := rrOuts_inj h1'.1
    have e1 : l.take (n + 1) = l0 ++ [flatQuote 1 1] := by rw [hl]; exact List.take_left' (by simp [hl0])
    have e2 : l.take (n + 2) = l := by rw [← hlen, List.take_length]
    have hvol : movingStd (n + 1) ((l0 ++ [flatQuote 1 1]).map RRIn.close) = XR.fin (1 / (q.stop_factor : ℝ)) := by
      have : (l0 ++ [flatQuote 1 1]).map RRIn.close = (List.replicate n (1 + d) ++ [1]).map XR.fin := by simp [hl0, flatQuote]
      rw [this, movingStd_fin hp, movingStdR, if_neg (by simp), window, List.take_of_length_le (by simp), List.reverse_append, List.reverse_replicate]
      simp only [List.reverse_cons, List.reverse_nil, List.nil_append, List.singleton_append]
      rw [stdDev_one_replicate n hd0.le, hd]
      congr 1
      field_simp
    have hr1 : (rrOf q (n + 1) (l0 ++ [flatQuote 1 1])).1.stop = XR.fin 0 ∧ (rrOf q (n + 1) (l0 ++ [flatQuote 1 1])).2 = 1 := by
      rw [rrOf_snoc, rrStep_eq, if_pos (by rw [hl0, rrOf_idle]; simp [TFNum.eq, XR.eq]), if_pos (by simp [flatQuote, RRIn.isBuy]), hvol]
      refine ⟨?_, rfl⟩
      simp [flatQuote, hsf.ne']
    have hr2 : (rrOf q (n + 1) l).2 = 1 := by
      rw [hl, rrOf_snoc, rrStep_eq, if_pos (by rw [hr1.1]; simp [TFNum.eq, XR.eq]), if_pos (by simp [flatQuote, RRIn.isBuy])]
    have s1 := h3 n (by omega)
    have s2 := h3 (n + 1) (by omega)
    rw [e1] at s1
    rw [e2] at s2
    have := h2 n (n + 1) (by omega) 1 1 (by rw [List.getElem?_map, List.getElem?_eq_getElem (by omega), s1]; simp [rrY, hr1.2])
      (by rw [List.getElem?_map, List.getElem?_eq_getElem (by omega), s2]; simp [rrY, hr2]) (by decide) (by decide) (fun k h1 h2 => by omega)
    exact absurd this (by decide)
  · intro hc v l hv hl hpos
    obtain ⟨os, sf, s0, h1, hlen, h2⟩ := C50_discipline (α := XR ℝ) (by simp [TFNum.eq, XR.eq]) hp hq hv hl
    obtain ⟨os', sf', s0', h1', hlen', h3⟩ := rr_call hp hq hv hl
    rw [h1] at h1'
    simp only [Except.ok.injEq, Prod.mk.injEq] at h1'
    obtain rfl := rrOuts_inj h1'.1
    refine ⟨os, sf, s0, h1, (h2 fun j hj _ => ?_).1⟩
    obtain ⟨c, hc0, hcl⟩ := hpos l[j] (List.getElem_mem _)
    obtain ⟨cs, hcs⟩ : ∃ cs : List ℝ, (l.take (j + 1)).map RRIn.close = cs.map XR.fin := by
      have : ∀ k : List (RRIn (XR ℝ)), (∀ x ∈ k, ∃ c : ℝ, 0 < c ∧ x.close = .fin c) → ∃ cs : List ℝ, k.map RRIn.close = cs.map XR.fin := by
        intro k
        induction k with
        | nil => exact fun _ => ⟨[], rfl⟩
        | cons x k ih =>
          intro hk
          obtain ⟨cs, h⟩ := ih fun y hy => hk y (List.mem_cons_of_mem _ hy)
          obtain ⟨c, -, h'⟩ := hk x (List.mem_cons_self ..)
          exact ⟨c :: cs, by simp [h, h']⟩
      exact this _ fun x hx => hpos x (List.mem_of_mem_take hx)
    have hne : cs ≠ [] := by rintro rfl; simp at hcs; exact hl hcs
    rw [stopAt, h3 j hj, rrY, hcl, hcs, movingStd_fin hp]
    have hs0 : 0 ≤ movingStdR p cs := by unfold movingStdR; split; exacts [le_refl _, Real.sqrt_nonneg _]
    have : (q.stop_factor : ℝ) * movingStdR p cs ≤ 0 := by
      rcases hc with hc | rfl
      · exact mul_nonpos_of_nonpos_of_nonneg (by exact_mod_cast hc) hs0
      · have : movingStdR 1 cs = 0 := by
          unfold movingStdR
          split
          · rfl
          · rw [stdDev, Real.sqrt_eq_zero', variance_eq_zero.2]
            have hw : (window 1 cs).length ≤ 1 := by simp [window]
            rcases hw' : window 1 cs with _ | ⟨a, _ | ⟨b, t⟩⟩
            · simp
            · simp
            · rw [hw'] at hw; simp at hw
        rw [this, mul_zero]
    have hne : c - (q.stop_factor : ℝ) * movingStdR p cs ≠ 0 := by linarith [hc0] |> fun h : (0:ℝ) < _ => h.ne'
    simpa [TFNum.eq, XR.eq] using hne

/-- Positive closes, stop two standard deviations below: two buys in a row (the situation of `C50_two_buys`); with the stop above, they alternate. -/
example : output (call (RiskRatioEvaluator ⟨2, 1, 2, none⟩) (flatQuotes [(2, 0), (1, 1), (1, 1)]) none) =
    .ok (.tup [vIBuf [0, 0, 0], vIBuf [0, 0, 0], series [0, 1 / 2, 0], vIBuf [0, 1, 1]]) := by decide +kernel
example : output (call (RiskRatioEvaluator ⟨-2, 1, 2, none⟩) (flatQuotes [(2, 0), (1, 1), (1, 1), (1, 1)]) none) =
    .ok (.tup [vIBuf [0, 0, 0, 0], vIBuf [0, 0, 1, 1], series [0, 1 / 2, 0, 0], vIBuf [0, 1, -1, 1]]) := by decide +kernel

end TS
