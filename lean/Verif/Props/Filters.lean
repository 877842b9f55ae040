import Verif.Spec.Filters
import Verif.Props.Between
import Verif.Props.Recover
import Verif.Props.Equations
import Verif.Lemmas.Shipped
/-
C91: lags, differences and simple averages are filters; pipelines of filters multiply their transfer functions.
-/
namespace TS
open PyVal Polynomial
set_option linter.unusedSectionVars false

section
variable {K : Type} [Field K] [LinearOrder K] [IsStrictOrderedRing K] [Transc K] [FloorRing K]

/-- What a filter with transfer function `P` gives at index `i`. -/
noncomputable def filt (x : Nat → K) (i : Nat) (P : K[X]) : K := P.sum fun j c => c * x (i - j)

theorem filt_range (x : Nat → K) (i : Nat) {P : K[X]} {w : Nat} (h : P.natDegree ≤ w) : filt x i P = ∑ j ∈ Finset.range (w + 1), P.coeff j * x (i - j) :=
  P.sum_over_range' (by simp) _ (by omega)

theorem filt_add (x : Nat → K) (i : Nat) (P Q : K[X]) : filt x i (P + Q) = filt x i P + filt x i Q :=
  Polynomial.sum_add_index _ _ _ (by simp) (by intros; ring)

theorem filt_monomial (x : Nat → K) (i n : Nat) (a : K) : filt x i (monomial n a) = a * x (i - n) := Polynomial.sum_monomial_index _ _ (by simp)

theorem filt_mul (x : Nat → K) (i : Nat) (P Q : K[X]) : filt x i (P * Q) = filt (fun n => filt x n Q) i P := by
  induction P using Polynomial.induction_on' with
  | add P P' h h' => rw [add_mul, filt_add, filt_add, h, h']
  | monomial n a =>
    rw [filt_monomial]
    induction Q using Polynomial.induction_on' with
    | add Q Q' h h' => rw [mul_add, filt_add, filt_add, h, h']; ring
    | monomial m b => rw [monomial_mul_monomial, filt_monomial, filt_monomial, Nat.sub_sub]; ring

theorem getElem_eq_getD {l : List K} {i : Nat} (h : i < l.length) : l[i] = l.getD i 0 := by simp [h]

theorem Filters.at {op : Operator (XR K)} {P : K[X]} {w : Nat} (h : Filters op P w) {xs : List K} (hx : xs ≠ []) :
    ∃ (os : List K) (sf s0 : Val (XR K)), call op (finSeries xs) none = .ok (finSeries os, sf, s0) ∧ os.length = xs.length ∧
      ∀ i, i < xs.length → w ≤ i → os.getD i 0 = filt (fun n => xs.getD n 0) i P := by
  obtain ⟨os, sf, s0, e, hl, ho⟩ := h.2 xs hx
  refine ⟨os, sf, s0, e, hl, fun i hi hw => ?_⟩
  rw [← getElem_eq_getD (by omega), ho i hi hw, filt_range _ _ h.1]
  exact Finset.sum_congr rfl fun j _ => by rw [getElem_eq_getD (by omega)]

theorem Filters.intro {op : Operator (XR K)} {P : K[X]} {w : Nat} (hd : P.natDegree ≤ w) (h : ∀ xs : List K, xs ≠ [] →
    ∃ (os : List K) (sf s0 : Val (XR K)), call op (finSeries xs) none = .ok (finSeries os, sf, s0) ∧ os.length = xs.length ∧
      ∀ i, i < xs.length → w ≤ i → os.getD i 0 = filt (fun n => xs.getD n 0) i P) : Filters op P w := by
  refine ⟨hd, fun xs hx => ?_⟩
  obtain ⟨os, sf, s0, e, hl, ho⟩ := h xs hx
  refine ⟨os, sf, s0, e, hl, fun i hi hw => ?_⟩
  rw [getElem_eq_getD (by omega), ho i hi hw, filt_range _ _ hd]
  exact Finset.sum_congr rfl fun j _ => by rw [getElem_eq_getD (by omega)]

theorem Filters.of_streams {op : Operator (XR K)} {y : List K → K} (H : StreamsAs op finSeries finSeries y) {P : K[X]} {w : Nat} (hd : P.natDegree ≤ w)
    (h : ∀ (xs : List K) i, i < xs.length → w ≤ i → y (xs.take (i + 1)) = filt (fun n => xs.getD n 0) i P) : Filters op P w :=
  Filters.intro hd fun xs hx => by
    obtain ⟨os, sf, s0, e, hl, ho⟩ := H.at hx
    refine ⟨os, sf, s0, e, hl, fun i hi hw => ?_⟩
    rw [← getElem_eq_getD (by omega), ho i hi]
    exact h xs i hi hw

/-- A wider warm-up will do. -/
theorem Filters.mono {op : Operator (XR K)} {P : K[X]} {w w' : Nat} (h : Filters op P w) (hw : w ≤ w') : Filters op P w' :=
  Filters.intro (h.1.trans hw) fun xs hx => by
    obtain ⟨os, sf, s0, e, hl, ho⟩ := h.at hx
    exact ⟨os, sf, s0, e, hl, fun i hi hi' => ho i hi (hw.trans hi')⟩

/-- **C91 Lags, differences and simple averages are linear filters.**  `Lag(p)` has the transfer function X ^ p, -/
theorem C91_lag {p : Nat} (hp : 0 < p) : Filters (Lag (p : Int) : Operator (XR K)) (X ^ p) p :=
  .of_streams (lag_reals hp) (natDegree_X_pow p).le fun xs i hi hw => by
    rw [lagged_take hi, dif_pos hw, getElem_eq_getD, X_pow_eq_monomial, filt_monomial, one_mul]
example := C91_lag (K := ℚ) (p := 3) (by norm_num)

/-- `Momentum(p)` 1 - X ^ p, -/
theorem C91_momentum {p : Nat} (hp : 0 < p) : Filters (Momentum (p : Int) : Operator (XR K)) (1 - X ^ p) p :=
  .of_streams (momentum_reals hp) ((natDegree_sub_le _ _).trans (by simp)) fun xs i hi hw => by
    rw [momentumK, if_neg (by rw [List.length_take]; omega), lagged_take hi, dif_pos hw, getElem_eq_getD, sub_eq_add_neg (1 : K[X]), filt_add, ← C_1, ← monomial_zero_left, filt_monomial,
      X_pow_eq_monomial, ← map_neg, filt_monomial]
    rw [List.getLastD_eq_getLast?, List.getLast?_take]
    simp [hi]
    ring
example := C91_momentum (K := ℚ) (p := 3) (by norm_num)

theorem window_take_sum {xs : List K} {i : Nat} (hi : i < xs.length) : ∀ p, p ≤ i + 1 → (window p (xs.take (i + 1))).sum = ∑ j ∈ Finset.range p, xs.getD (i - j) 0
  | 0, _ => by simp [window]
  | p + 1, hp => by
    have hlen : p < (xs.take (i + 1)).reverse.length := by rw [List.length_reverse, List.length_take]; omega
    have ih := window_take_sum hi p (by omega)
    rw [window] at ih ⊢
    rw [List.take_succ_eq_append_getElem hlen, List.sum_append, ih, Finset.sum_range_succ, List.sum_singleton, List.getElem_reverse, List.getElem_take, getElem_eq_getD]
    congr 2
    rw [List.length_take]; omega

theorem filt_const_mul (x : Nat → K) (i : Nat) (c : K) (P : K[X]) : filt x i (C c * P) = c * filt x i P := by
  rw [filt_mul, ← monomial_zero_left, filt_monomial, Nat.sub_zero]

theorem filt_sum (x : Nat → K) (i : Nat) (f : Nat → K[X]) : ∀ n, filt x i (∑ j ∈ Finset.range n, f j) = ∑ j ∈ Finset.range n, filt x i (f j)
  | 0 => by simp [filt]
  | n + 1 => by rw [Finset.sum_range_succ, Finset.sum_range_succ, filt_add, filt_sum x i f n]

/-- and `SimpleMovingAverage(p)` (1 + X + ... + X ^ (p - 1)) / p. -/
theorem C91_sma {p : Nat} (hp : 0 < p) : Filters (SMA (p : Int) : Operator (XR K)) (C (1 / (p : K)) * ∑ j ∈ Finset.range p, X ^ j) (p - 1) :=
  .of_streams (sma_reals hp) ((natDegree_C_mul_le _ _).trans (natDegree_sum_le_of_forall_le _ _ fun j hj => by rw [natDegree_X_pow]; have := Finset.mem_range.1 hj; omega)) fun xs i hi hw => by
    rw [movingAvgK, if_neg (by rw [List.length_take]; omega), avg, window_take_sum hi p (by omega), filt_const_mul, filt_sum]
    rw [show (window p (xs.take (i + 1))).length = p by rw [window, List.length_take, List.length_reverse, List.length_take]; omega]
    simp only [X_pow_eq_monomial, filt_monomial, one_mul]
    ring
example := C91_sma (K := ℚ) (p := 3) (by norm_num)

/-- `SimpleMovingAverageCrossover(slow, fast)` has the difference of the transfer functions of its averages, -/
theorem C91_crossover {slow fast : Nat} (hf : 0 < fast) (hs : fast ≤ slow) : Filters (SMACrossover (slow : Int) fast : Operator (XR K))
    (C (1 / (fast : K)) * ∑ j ∈ Finset.range fast, X ^ j - C (1 / (slow : K)) * ∑ j ∈ Finset.range slow, X ^ j) (slow - 1) := by
  have d1 := (C91_sma (K := K) hf).1
  have d2 := (C91_sma (K := K) (hf.trans_le hs)).1
  refine .of_streams (crossover_reals (by omega) hf) ((natDegree_sub_le _ _).trans (by omega)) fun xs i hi hw => ?_
  have key : ∀ p, 0 < p → p ≤ i + 1 → movingAvgK p (xs.take (i + 1)) = filt (fun n => xs.getD n 0) i (C (1 / (p : K)) * ∑ j ∈ Finset.range p, X ^ j) := fun p hp h => by
    rw [movingAvgK, if_neg (by rw [List.length_take]; omega), avg, window_take_sum hi p (by omega), filt_const_mul, filt_sum]
    rw [show (window p (xs.take (i + 1))).length = p by rw [window, List.length_take, List.length_reverse, List.length_take]; omega]
    simp only [X_pow_eq_monomial, filt_monomial, one_mul]
    ring
  have hsub : ∀ P Q : K[X], filt (fun n => xs.getD n 0) i (P - Q) = filt (fun n => xs.getD n 0) i P - filt (fun n => xs.getD n 0) i Q := fun P Q => by
    have := filt_add (fun n => xs.getD n 0) i (P - Q) Q
    rw [sub_add_cancel] at this
    rw [this]; ring
  rw [hsub, ← key fast hf (by omega), ← key slow (by omega) (by omega), smaDiffK, if_neg (by rw [List.length_take]; omega)]
example := C91_crossover (K := ℚ) (slow := 3) (fast := 2) (by norm_num) (by norm_num)

/-- The transfer function is unique. -/
theorem C91_unique {op : Operator (XR K)} {P Q : K[X]} {w v : Nat} (hP : Filters op P w) (hQ : Filters op Q v) : P = Q := by
  ext k
  have h1 := hP.mono (w' := max (max w v) k) (by omega)
  have h2 := hQ.mono (w' := max (max w v) k) (by omega)
  have hk : k ≤ max (max w v) k := by omega
  generalize max (max w v) k = n at h1 h2 hk
  have hx : List.replicate n (0 : K) ++ 1 :: List.replicate n 0 ≠ [] := by simp
  obtain ⟨os, sf, s0, e, hl, ho⟩ := h1.at hx
  obtain ⟨os', sf', s0', e', hl', ho'⟩ := h2.at hx
  have e2 := e.symm.trans e'
  simp only [Except.ok.injEq, Prod.mk.injEq] at e2
  obtain rfl := finSeries_inj e2.1
  have key : ∀ R : K[X], R.natDegree ≤ n → filt (fun m => (List.replicate n (0 : K) ++ 1 :: List.replicate n 0).getD m 0) (n + k) R = R.coeff k := by
    intro R hR
    rw [filt_range _ _ hR, Finset.sum_eq_single k]
    · simp
    · intro j hj hjk
      have hj := Finset.mem_range.1 hj
      have : (List.replicate n (0 : K) ++ 1 :: List.replicate n 0).getD (n + k - j) 0 = 0 := by
        rw [List.getD_eq_getElem?_getD]
        rcases Nat.lt_or_ge (n + k - j) n with h | h
        · rw [List.getElem?_append_left (by simpa using h), List.getElem?_replicate]; simp [h]
        · rw [List.getElem?_append_right (by simpa using h), List.length_replicate]
          obtain ⟨m, hm⟩ : ∃ m, n + k - j - n = m + 1 := ⟨n + k - j - n - 1, by omega⟩
          rw [hm, List.getElem?_cons_succ, List.getElem?_replicate]
          split <;> rfl
      rw [this, mul_zero]
    · intro h; exact absurd (Finset.mem_range.2 (by omega)) h
  rw [← key P h1.1, ← key Q h2.1, ← ho (n + k) (by simp; omega) (by omega), ← ho' (n + k) (by simp; omega) (by omega)]
example := C91_unique (K := ℚ) (C91_lag (p := 2) (by norm_num)) ((C91_lag (p := 2) (by norm_num)).mono (w' := 5) (by norm_num))

/-- **C91, pipelines**: the transfer function of a pipeline is the product. -/
theorem C91_compose {f g : Operator (XR K)} (lf : Lib f (· = .leaf ()) (· = .leaf ())) (lg : Lib g (· = .leaf ()) (· = .leaf ())) {P Q : K[X]} {w v : Nat} (hf : Filters f P w)
    (hg : Filters g Q v) : Filters (Compose [f, g]) (P * Q) (w + v) :=
  Filters.intro (natDegree_mul_le.trans (Nat.add_le_add hf.1 hg.1)) fun xs hx => by
    obtain ⟨os, sf, s0, e, hl, ho⟩ := hg.at hx
    have hos : os ≠ [] := by rintro rfl; exact hx (List.length_eq_zero_iff.1 hl.symm)
    obtain ⟨os', sf', s0', e', hl', ho'⟩ := hf.at hos
    have := C10_compose_pipeline_library (ops := [f, g]) (Ds := fun _ => (· = .leaf ())) (v := finSeries xs) (z := finSeries os') (sfs := [sf, sf']) (s0s := [s0, s0']) (by simp) (by
      intro k hk
      match k, hk with
      | 0, _ => exact lg
      | 1, _ => exact lf) (by simp) (by simp) (.cons e (.cons e' (.nil _)))
    refine ⟨os', _, _, this, hl'.trans hl, fun i hi hw => ?_⟩
    rw [ho' i (by omega) (by omega), filt_mul, filt_range _ _ hf.1, filt_range _ _ hf.1]
    exact Finset.sum_congr rfl fun j hj => by rw [ho (i - j) (by omega) (by have := Finset.mem_range.1 hj; omega)]

example := C91_compose (K := ℚ) (f := Momentum ((1 : Nat) : Int)) (g := SMA ((3 : Nat) : Int)) (Lib.weaken (Momentum_lib _) (by rintro _ rfl; rfl) fun _ h => h)
  (Lib.weaken (Lib.basic (.sma _)) (by rintro _ rfl; rfl) fun _ h => h) (C91_momentum (by norm_num)) (C91_sma (by norm_num))

/-- Filters with the same transfer function agree after the longer of the warm-ups. -/
theorem C91_agree {f g : Operator (XR K)} {P : K[X]} {w v : Nat} (hf : Filters f P w) (hg : Filters g P v) : AgreeFrom f g (max w v) := by
  intro xs hx
  obtain ⟨os, sf, s0, e, hl, ho⟩ := hf.at hx
  obtain ⟨os', sf', s0', e', hl', ho'⟩ := hg.at hx
  refine ⟨os, os', sf, s0, sf', s0', e, e', hl, hl', List.ext_getElem (by simp [hl, hl']) fun i h1 h2 => ?_⟩
  rw [List.length_drop] at h1
  rw [List.getElem_drop, List.getElem_drop, getElem_eq_getD, getElem_eq_getD, ho _ (by omega) (by omega), ho' _ (by omega) (by omega)]
example := C91_agree (K := ℚ) (C91_lag (p := 2) (by norm_num)) ((C91_lag (p := 2) (by norm_num)).mono (w' := 5) (by norm_num))

/-- **C91, order of the filters**: it does not matter, once the warm-up is over. -/
theorem C91_commute {f g : Operator (XR K)} (lf : Lib f (· = .leaf ()) (· = .leaf ())) (lg : Lib g (· = .leaf ()) (· = .leaf ())) {P Q : K[X]} {w v : Nat} (hf : Filters f P w)
    (hg : Filters g Q v) : AgreeFrom (Compose [f, g]) (Compose [g, f]) (w + v) := by
  have h2 := C91_compose lg lf hg hf
  rw [mul_comm] at h2
  have := C91_agree (C91_compose lf lg hf hg) h2
  rwa [Nat.add_comm v w, max_self] at this
example := C91_commute (K := ℚ) (f := Momentum ((1 : Nat) : Int)) (g := SMA ((3 : Nat) : Int)) (Lib.weaken (Momentum_lib _) (by rintro _ rfl; rfl) fun _ h => h)
  (Lib.weaken (Lib.basic (.sma _)) (by rintro _ rfl; rfl) fun _ h => h) (C91_momentum (by norm_num)) (C91_sma (by norm_num))

/-- The averages, the lags and the differences can be put in any order. -/
theorem C91_orders {p q : Nat} (hp : 0 < p) (hq : 0 < q) :
    AgreeFrom (K := K) (Compose [SMA (p : Int), SMA (q : Int)]) (Compose [SMA (q : Int), SMA (p : Int)]) (p + q - 2) ∧
    AgreeFrom (K := K) (Compose [SMA (p : Int), Lag (q : Int)]) (Compose [Lag (q : Int), SMA (p : Int)]) (p + q - 1) ∧
    AgreeFrom (K := K) (Compose [SMA (p : Int), Momentum (q : Int)]) (Compose [Momentum (q : Int), SMA (p : Int)]) (p + q - 1) ∧
    AgreeFrom (K := K) (Compose [Lag (p : Int), Momentum (q : Int)]) (Compose [Momentum (q : Int), Lag (p : Int)]) (p + q) ∧
    AgreeFrom (K := K) (Compose [Momentum (p : Int), Momentum (q : Int)]) (Compose [Momentum (q : Int), Momentum (p : Int)]) (p + q) := by
  have ls : ∀ p : Nat, Lib (SMA (p : Int) : Operator (XR K)) (· = .leaf ()) (· = .leaf ()) := fun p => Lib.weaken (Lib.basic (.sma _)) (by rintro _ rfl; rfl) fun _ h => h
  have ll : ∀ p : Nat, Lib (Lag (p : Int) : Operator (XR K)) (· = .leaf ()) (· = .leaf ()) := fun p => Lib.weaken (Lib.basic (.lag _)) (by rintro _ rfl; rfl) fun _ h => h
  have lm : ∀ p : Nat, Lib (Momentum (p : Int) : Operator (XR K)) (· = .leaf ()) (· = .leaf ()) := fun p => Lib.weaken (Momentum_lib _) (by rintro _ rfl; rfl) fun _ h => h
  refine ⟨?_, ?_, ?_, C91_commute (ll p) (lm q) (C91_lag hp) (C91_momentum hq), C91_commute (lm p) (lm q) (C91_momentum hp) (C91_momentum hq)⟩
  · have := C91_commute (ls p) (ls q) (C91_sma (K := K) hp) (C91_sma hq)
    rwa [show p - 1 + (q - 1) = p + q - 2 by omega] at this
  · have := C91_commute (ls p) (ll q) (C91_sma (K := K) hp) (C91_lag hq)
    rwa [show p - 1 + q = p + q - 1 by omega] at this
  · have := C91_commute (ls p) (lm q) (C91_sma (K := K) hp) (C91_momentum hq)
    rwa [show p - 1 + q = p + q - 1 by omega] at this
example := C91_orders (K := ℚ) (p := 2) (q := 3) (by norm_num) (by norm_num)

/-- **C91, differences of averages**: the step from one average over `p` samples to the next is the momentum over `p` samples divided by `p`. -/
theorem C91_sma_step {p : Nat} (hp : 0 < p) : Filters (Compose [Momentum 1, SMA (p : Int)] : Operator (XR K)) (C (1 / (p : K)) * (1 - X ^ p)) p := by
  have h := C91_compose (K := K) (f := Momentum ((1 : Nat) : Int)) (g := SMA (p : Int)) (Lib.weaken (Momentum_lib _) (by rintro _ rfl; rfl) fun _ h => h)
    (Lib.weaken (Lib.basic (.sma _)) (by rintro _ rfl; rfl) fun _ h => h) (C91_momentum (by norm_num)) (C91_sma hp)
  rw [show 1 + (p - 1) = p by omega, pow_one, mul_left_comm, mul_neg_geom_sum] at h
  exact h
example := C91_sma_step (K := ℚ) (p := 3) (by norm_num)

theorem recursiveAvgK_impulse {p : Nat} {w : K} (h0 : w ≠ 0) (h1 : w ≠ 1) (n : Nat) :
    recursiveAvgK p (fun m x => m + w * (x - m)) (List.replicate p 0 ++ 1 :: List.replicate n 0) ≠ 0 := by
  have e : recursiveAvgK p (fun m x => m + w * (x - m)) (List.replicate p (0 : K)) = 0 := by
    rw [recursiveAvgK, List.drop_eq_nil_of_le (by simp), List.take_of_length_le (by simp), List.foldl_nil, movingAvgK]
    simp [window, avg]
  rw [recursiveAvgK_append (by simp), e, List.foldl_cons]
  have key : ∀ (n : Nat) (m : K), m ≠ 0 → (List.replicate n 0).foldl (fun m x => m + w * (x - m)) m ≠ 0 := by
    intro n
    induction n with
    | zero => intro m hm; simpa using hm
    | succ n ih =>
      intro m hm
      rw [List.replicate_succ, List.foldl_cons]
      refine ih _ ?_
      rw [show m + w * (0 - m) = (1 - w) * m by ring]
      exact mul_ne_zero (sub_ne_zero.2 (Ne.symm h1)) hm
  exact key n _ (by simpa using h0)

theorem not_filters {op : Operator (XR K)} {p : Nat} {w : K} (H : StreamsAs op finSeries finSeries (recursiveAvgK p (fun m x => m + w * (x - m)))) (h0 : w ≠ 0) (h1 : w ≠ 1) (P : K[X]) (n : Nat) :
    ¬ Filters op P n := by
  intro hF
  have hx : List.replicate p (0 : K) ++ 1 :: List.replicate (n + 1) 0 ≠ [] := by simp
  obtain ⟨os, sf, s0, e, hl, ho⟩ := hF.at hx
  obtain ⟨os', sf', s0', e', hl', ho'⟩ := H.at hx
  have e2 := e.symm.trans e'
  simp only [Except.ok.injEq, Prod.mk.injEq] at e2
  obtain rfl := finSeries_inj e2.1
  have a1 := ho (p + n + 1) (by simp; omega) (by omega)
  have a2 := ho' (p + n + 1) (by simp; omega)
  rw [List.take_of_length_le (by simp; omega), getElem_eq_getD] at a2
  refine recursiveAvgK_impulse (p := p) h0 h1 (n + 1) (a2.symm.trans (a1.trans ?_))
  rw [filt_range _ _ hF.1]
  refine Finset.sum_eq_zero fun j hj => ?_
  have hj := Finset.mem_range.1 hj
  have : (List.replicate p (0 : K) ++ 1 :: List.replicate (n + 1) 0).getD (p + n + 1 - j) 0 = 0 := by
    rw [List.getD_eq_getElem?_getD, List.getElem?_append_right (by simp; omega), List.length_replicate]
    obtain ⟨m, hm⟩ : ∃ m, p + n + 1 - j - p = m + 1 := ⟨p + n + 1 - j - p - 1, by omega⟩
    rw [hm, List.getElem?_cons_succ, List.getElem?_replicate]
    split <;> rfl
  rw [this, mul_zero]

/-- **C91, recursive averages** over two samples or more have no transfer function: they never quite forget. -/
theorem C91_recursive {p : Nat} (hp : 2 ≤ p) (P : K[X]) (n : Nat) : ¬ Filters (EMA (p : Int)) P n ∧ ¬ Filters (RMA (p : Int)) P n := by
  have hp' : (2 : K) ≤ p := by exact_mod_cast hp
  have h1 : (p : K) + 1 ≠ 0 := by positivity
  have h2 : (p : K) ≠ 0 := by positivity
  refine ⟨not_filters (ema_reals (by omega)) (by positivity) (fun e => ?_) P n, not_filters (rma_reals (by omega)) (by positivity) (fun e => ?_) P n⟩
  · rw [div_eq_one_iff_eq h1] at e; linarith
  · rw [div_eq_one_iff_eq h2] at e; linarith
example := C91_recursive (K := ℚ) (p := 2) (by norm_num) (C (1 / 2) * (1 + X)) 1

end

/-- The averages over two samples of the averages over three, and the other way round: from the fourth output on they agree. -/
example : output (call (Compose [SMA 2, SMA 3]) (series [6, 12, 0, 6, 18]) none) = .ok (series [0, 0, 3, 6, 7]) ∧
    output (call (Compose [SMA 3, SMA 2]) (series [6, 12, 0, 6, 18]) none) = .ok (series [0, 0, 5, 6, 7]) :=
  ⟨by decide +kernel, by decide +kernel⟩

end TS
