import Verif.Spec.Recover
import Verif.Props.Extrema
import Verif.Props.Limits
import Verif.Props.Conditions
import Verif.Props.Symmetric
/-
C79: inequalities between the outputs of different operators on the same series.
-/
namespace TS
open PyVal XR
set_option linter.unusedSectionVars false

section
variable {α A B B' : Type} {op op' : Operator α} {ser : List A → Val α} {outs : List B → Val α} {outs' : List B' → Val α} {y : List A → B} {y' : List A → B'}

theorem StreamsAs.compares (H : StreamsAs op ser outs y) (H' : StreamsAs op' ser outs' y') {V : A → Prop} {n : Nat} {R : B → B' → Prop}
    (e : ∀ l : List A, l ≠ [] → (∀ x ∈ l, V x) → n < l.length → R (y l) (y' l)) : Compares op op' ser outs outs' V n R := by
  intro xs hx hv
  obtain ⟨os, sf, s0, h1, l1, e1⟩ := H.at hx
  obtain ⟨os', sf', s0', h1', l1', e1'⟩ := H'.at hx
  refine ⟨os, os', sf, s0, sf', s0', h1, h1', l1, l1', fun i o o' hi ho ho' => ?_⟩
  obtain ⟨hl, rfl⟩ := List.getElem?_eq_some_iff.1 ho
  obtain ⟨hl', rfl⟩ := List.getElem?_eq_some_iff.1 ho'
  rw [e1 i (by omega), e1' i (by omega)]
  refine e _ ?_ (fun x hx => hv x (List.mem_of_mem_take hx)) (by rw [List.length_take]; omega)
  rw [← List.length_pos_iff, List.length_take]
  omega

theorem StreamsAs.of_compares (H : StreamsAs op ser outs y) (H' : StreamsAs op' ser outs' y') (ho : ∀ l m, outs l = outs m → l = m) (ho' : ∀ l m, outs' l = outs' m → l = m)
    {V : A → Prop} {n : Nat} {R : B → B' → Prop} (C : Compares op op' ser outs outs' V n R) {l : List A} (hl : ∀ x ∈ l, V x) (hn : n < l.length) : R (y l) (y' l) := by
  have h0 : l ≠ [] := List.length_pos_iff.1 (by omega)
  obtain ⟨os, os', sf, s0, sf', s0', h1, h2, l1, l2, r⟩ := C l h0 hl
  obtain ⟨os1, sf1, s1, g1, m1, e1⟩ := H.at h0
  obtain ⟨os2, sf2, s2, g2, m2, e2⟩ := H'.at h0
  obtain rfl : os = os1 := ho _ _ (Prod.ext_iff.1 (Except.ok.inj (h1.symm.trans g1))).1
  obtain rfl : os' = os2 := ho' _ _ (Prod.ext_iff.1 (Except.ok.inj (h2.symm.trans g2))).1
  have := r (l.length - 1) _ _ (by omega) (List.getElem?_eq_getElem (by omega)) (List.getElem?_eq_getElem (by omega))
  rwa [e1 _ (by omega), e2 _ (by omega), Nat.sub_add_cancel (by omega), List.take_length] at this

end

section
variable {K : Type} [Field K] [LinearOrder K] [IsStrictOrderedRing K] [Transc K] [FloorRing K]

theorem leastK_anti {l m : List K} (hl : l ≠ []) (h : ∀ x ∈ l, x ∈ m) : leastK m ≤ leastK l :=
  (leastK_least (l := m) fun e => by obtain ⟨x, l, rfl⟩ := List.exists_cons_of_ne_nil hl; simpa [e] using h x (by simp)).2 _ (h _ (leastK_least hl).1)
theorem greatestK_mono {l m : List K} (hl : l ≠ []) (h : ∀ x ∈ l, x ∈ m) : greatestK l ≤ greatestK m :=
  (greatestK_greatest (l := m) fun e => by obtain ⟨x, l, rfl⟩ := List.exists_cons_of_ne_nil hl; simpa [e] using h x (by simp)).2 _ (h _ (greatestK_greatest hl).1)

theorem window_sub {A : Type} {p q : Nat} (h : p ≤ q) {l : List A} : ∀ x ∈ window p l, x ∈ window q l := fun x hx => by
  obtain ⟨i, hi, e⟩ := mem_window_iff.1 hx
  exact mem_window_iff.2 ⟨i, by omega, e⟩
theorem window_mem {A : Type} {p : Nat} {l : List A} : ∀ x ∈ window p l, x ∈ l := fun _ hx => List.mem_reverse.1 (List.mem_of_mem_take hx)
theorem last_mem_window {p : Nat} (hp : 0 < p) {l : List K} (hl : l ≠ []) : l.getLastD 0 ∈ window p l := by
  refine mem_window_iff.2 ⟨l.length - 1, by omega, ?_⟩
  rw [List.getLastD_eq_getLast?, List.getLast?_eq_getElem?]
  rw [List.getElem?_eq_getElem (by have := List.length_pos_iff.2 hl; omega)]
  rfl

/-- **C79 Order between operators: extrema.**  On the same series the minimum so far, the minimum of the last `q` samples, the minimum of the last `p ≤ q` samples, the sample, and the maxima
the other way round, form a chain. -/
theorem C79_extrema {p q : Nat} (hp : 0 < p) (hq : p ≤ q) :
    Compares GlobalMinimum (LocalMinimum (q : Int)) (finSeries (K := K)) finSeries finSeries (fun _ => True) 0 (· ≤ ·) ∧
    Compares (LocalMinimum (q : Int)) (LocalMinimum (p : Int)) (finSeries (K := K)) finSeries finSeries (fun _ => True) 0 (· ≤ ·) ∧
    Compares (LocalMinimum (p : Int)) Identity (finSeries (K := K)) finSeries finSeries (fun _ => True) 0 (· ≤ ·) ∧
    Compares Identity (LocalMaximum (p : Int)) (finSeries (K := K)) finSeries finSeries (fun _ => True) 0 (· ≤ ·) ∧
    Compares (LocalMaximum (p : Int)) (LocalMaximum (q : Int)) (finSeries (K := K)) finSeries finSeries (fun _ => True) 0 (· ≤ ·) ∧
    Compares (LocalMaximum (q : Int)) GlobalMaximum (finSeries (K := K)) finSeries finSeries (fun _ => True) 0 (· ≤ ·) :=
  have hq' : 0 < q := by omega
  ⟨globalMin_reals.compares (localMin_reals hq') fun _ hl _ _ => leastK_anti (window_ne_nil hq' hl) window_mem,
    (localMin_reals hq').compares (localMin_reals hp) fun _ hl _ _ => leastK_anti (window_ne_nil hp hl) (window_sub hq),
    (localMin_reals hp).compares identity_reals fun _ hl _ _ => (leastK_least (window_ne_nil hp hl)).2 _ (last_mem_window hp hl),
    identity_reals.compares (localMax_reals hp) fun _ hl _ _ => (greatestK_greatest (window_ne_nil hp hl)).2 _ (last_mem_window hp hl),
    (localMax_reals hp).compares (localMax_reals hq') fun _ hl _ _ => greatestK_mono (window_ne_nil hp hl) (window_sub hq),
    (localMax_reals hq').compares globalMax_reals fun _ hl _ _ => greatestK_mono (window_ne_nil hq' hl) window_mem⟩
example := (C79_extrema (K := ℚ) (p := 2) (q := 3) (by norm_num) (by norm_num)).1 [1, 2, 3] (by simp) (by simp)

theorem recursiveAvgK_between {p : Nat} (hp : 0 < p) {w : K} (h0 : 0 ≤ w) (h1 : w ≤ 1) {l : List K} (hl : p ≤ l.length) {a b : K} (h : ∀ x ∈ l, a ≤ x ∧ x ≤ b) :
    a ≤ recursiveAvgK p (fun m x => m + w * (x - m)) l ∧ recursiveAvgK p (fun m x => m + w * (x - m)) l ≤ b := by
  rw [recursiveAvgK]
  have key : ∀ (xs : List K) (m : K), (∀ x ∈ xs, a ≤ x ∧ x ≤ b) → a ≤ m → m ≤ b → a ≤ xs.foldl (fun m x => m + w * (x - m)) m ∧ xs.foldl (fun m x => m + w * (x - m)) m ≤ b := by
    intro xs
    induction xs with
    | nil => intro m _ h1 h2; exact ⟨h1, h2⟩
    | cons x xs ih =>
      intro m hx ha hb
      have := hx x (by simp)
      refine ih _ (fun y hy => hx y (by simp [hy])) ?_ ?_
      · nlinarith [mul_nonneg h0 (sub_nonneg.2 this.1), mul_nonneg (sub_nonneg.2 h1) (sub_nonneg.2 ha)]
      · nlinarith [mul_nonneg h0 (sub_nonneg.2 this.2), mul_nonneg (sub_nonneg.2 h1) (sub_nonneg.2 hb)]
  have hn : window p (l.take p) ≠ [] := window_ne_nil hp (by rw [← List.length_pos_iff, List.length_take]; omega)
  have hm : ∀ x ∈ window p (l.take p), a ≤ x ∧ x ≤ b := fun x hx => h x (List.mem_of_mem_take (window_mem x hx))
  refine key _ _ (fun x hx => h x (List.mem_of_mem_drop hx)) ?_ ?_
  · rw [movingAvgK, if_neg (by rw [List.length_take]; omega)]
    exact le_avg hn fun x hx => (hm x hx).1
  · rw [movingAvgK, if_neg (by rw [List.length_take]; omega)]
    exact avg_le hn fun x hx => (hm x hx).2

/-- **C79, averages**: the simple average lies between the extrema of the same window, and the recursive averages between the extrema so far, from index `p - 1` on. -/
theorem C79_averages {p : Nat} (hp : 0 < p) :
    (Compares (LocalMinimum (p : Int)) (SMA (p : Int)) (finSeries (K := K)) finSeries finSeries (fun _ => True) (p - 1) (· ≤ ·) ∧
      Compares (SMA (p : Int)) (LocalMaximum (p : Int)) (finSeries (K := K)) finSeries finSeries (fun _ => True) (p - 1) (· ≤ ·)) ∧
    (Compares GlobalMinimum (EMA (p : Int)) (finSeries (K := K)) finSeries finSeries (fun _ => True) (p - 1) (· ≤ ·) ∧
      Compares (EMA (p : Int)) GlobalMaximum (finSeries (K := K)) finSeries finSeries (fun _ => True) (p - 1) (· ≤ ·)) ∧
    (Compares GlobalMinimum (RMA (p : Int)) (finSeries (K := K)) finSeries finSeries (fun _ => True) (p - 1) (· ≤ ·) ∧
      Compares (RMA (p : Int)) GlobalMaximum (finSeries (K := K)) finSeries finSeries (fun _ => True) (p - 1) (· ≤ ·)) := by
  have h1 : (1 : K) ≤ p := by exact_mod_cast hp
  have e0 : 0 ≤ 2 / ((p : K) + 1) := by positivity
  have e1 : 2 / ((p : K) + 1) ≤ 1 := by rw [div_le_one (by positivity)]; linarith
  have r0 : 0 ≤ 1 / (p : K) := by positivity
  have r1 : 1 / (p : K) ≤ 1 := by rw [div_le_one (by positivity)]; linarith
  have B : ∀ l : List K, l ≠ [] → ∀ x ∈ l, leastK l ≤ x ∧ x ≤ greatestK l := fun l hl x hx => ⟨(leastK_least hl).2 x hx, (greatestK_greatest hl).2 x hx⟩
  refine ⟨⟨(localMin_reals hp).compares (sma_reals hp) fun l hl _ hn => ?_, (sma_reals hp).compares (localMax_reals hp) fun l hl _ hn => ?_⟩,
    ⟨globalMin_reals.compares (ema_reals hp) fun l hl _ hn => (recursiveAvgK_between hp e0 e1 (by omega) (B l hl)).1,
      (ema_reals hp).compares globalMax_reals fun l hl _ hn => (recursiveAvgK_between hp e0 e1 (by omega) (B l hl)).2⟩,
    ⟨globalMin_reals.compares (rma_reals hp) fun l hl _ hn => (recursiveAvgK_between hp r0 r1 (by omega) (B l hl)).1,
      (rma_reals hp).compares globalMax_reals fun l hl _ hn => (recursiveAvgK_between hp r0 r1 (by omega) (B l hl)).2⟩⟩
  · rw [movingAvgK, if_neg (by omega)]
    exact le_avg (window_ne_nil hp hl) fun x hx => (leastK_least (window_ne_nil hp hl)).2 x hx
  · rw [movingAvgK, if_neg (by omega)]
    exact avg_le (window_ne_nil hp hl) fun x hx => (greatestK_greatest (window_ne_nil hp hl)).2 x hx
example := (C79_averages (K := ℚ) (p := 2) (by norm_num)).1.1 [1, 2, 3] (by simp) (by simp)

end

theorem sum_sq_shift (l : List ℝ) (a c : ℝ) : (l.map fun x => (x - c) ^ 2).sum = (l.map fun x => (x - a) ^ 2).sum + 2 * (a - c) * (l.sum - l.length * a) + l.length * (a - c) ^ 2 := by
  induction l with
  | nil => simp
  | cons x l ih => simp only [List.map_cons, List.sum_cons, ih, List.length_cons]; push_cast; ring

theorem variance_mul (l : List ℝ) (hl : l ≠ []) (c : ℝ) : (l.map fun x => (x - c) ^ 2).sum = l.length * variance l + l.length * (avg l - c) ^ 2 := by
  have hn : (l.length : ℝ) ≠ 0 := by exact_mod_cast (List.length_pos_iff.2 hl).ne'
  have h1 : l.sum = l.length * avg l := by rw [avg]; field_simp
  have h2 : (l.map fun x => (x - avg l) ^ 2).sum = l.length * variance l := by rw [variance, avg.eq_1 (l.map _), List.length_map]; field_simp
  rw [sum_sq_shift l (avg l) c, h1, h2]; ring

/-- the deviation is at most half the range -/
theorem popoviciu {l : List ℝ} (hl : l ≠ []) {a b : ℝ} (hab : a ≤ b) (h : ∀ x ∈ l, a ≤ x ∧ x ≤ b) : 2 * stdDev l ≤ b - a := by
  have hn : (0 : ℝ) < l.length := by exact_mod_cast List.length_pos_iff.2 hl
  have hv : variance l ≤ ((b - a) / 2) ^ 2 := by
    have e := variance_mul l hl ((a + b) / 2)
    have : (l.map fun x => (x - (a + b) / 2) ^ 2).sum ≤ (l.map fun x => (x - (a + b) / 2) ^ 2).length * ((b - a) / 2) ^ 2 := sum_le_of_le fun y hy => by
      obtain ⟨x, hx, rfl⟩ := List.mem_map.1 hy
      have := h x hx
      exact sq_le_sq' (by linarith) (by linarith)
    rw [List.length_map, e] at this
    nlinarith [mul_nonneg hn.le (sq_nonneg (avg l - (a + b) / 2))]
  have : stdDev l ≤ (b - a) / 2 := by rw [stdDev]; exact Real.sqrt_le_iff.2 ⟨by linarith, hv⟩
  linarith

/-- a member of a list is at most `√(n - 1)` deviations away from the average -/
theorem samuelson {l : List ℝ} {x : ℝ} (hx : x ∈ l) : (x - avg l) ^ 2 ≤ (l.length - 1) * variance l := by
  obtain ⟨s, t, rfl⟩ := List.append_of_mem hx
  have hp : (s ++ x :: t).Perm (x :: (s ++ t)) := List.perm_middle
  set w := s ++ t
  rw [avg_perm hp, variance_perm hp, hp.length_eq]
  clear_value w
  set a := avg (x :: w) with ea
  have e1 : (w.map fun y => (y - a) ^ 2).sum + (x - a) ^ 2 = (w.length + 1) * variance (x :: w) := by
    have := variance_mul (x :: w) (by simp) a
    simp only [List.map_cons, List.sum_cons, List.length_cons, ← ea] at this
    push_cast at this
    linarith
  have e2 : w.sum + x = (w.length + 1) * a := by
    rw [ea, avg]; simp only [List.sum_cons, List.length_cons]; push_cast; field_simp; ring
  rcases eq_or_ne w [] with rfl | hw
  · simp at e1 e2 ⊢
    rw [e2, sub_self]
  · have hn : (0 : ℝ) < w.length := by exact_mod_cast List.length_pos_iff.2 hw
    have e3 := variance_mul w hw a
    have e4 : w.sum = w.length * avg w := by rw [avg]; field_simp
    have e5 : w.length * (avg w - a) = -(x - a) := by linarith
    have e6 : (x - a) ^ 2 = w.length * (w.length * (avg w - a) ^ 2) := by
      have : (x - a) ^ 2 = (w.length * (avg w - a)) ^ 2 := by rw [e5]; ring
      rw [this]; ring
    have e7 : (x - a) ^ 2 ≤ w.length * (w.map fun y => (y - a) ^ 2).sum := by
      rw [e6, e3]
      have := variance_nonneg w
      nlinarith [mul_nonneg hn.le (mul_nonneg hn.le this)]
    simp only [List.length_cons]
    push_cast
    have e8 : (w.map fun y => (y - a) ^ 2).sum = (w.length + 1) * variance (x :: w) - (x - a) ^ 2 := by linarith
    rw [e8] at e7
    nlinarith

/-- **C79, deviations**: the standard deviation is at most half the difference between the extrema of the same window. -/
theorem C79_deviation {p : Nat} (hp : 0 < p) {xs : List ℝ} (hx : xs ≠ []) : ∃ (lo hi sd : List ℝ) (sf1 s1 sf2 s2 sf3 s3 : Val (XR ℝ)),
    call (LocalMinimum (p : Int)) (finSeries xs) none = .ok (finSeries lo, sf1, s1) ∧ call (LocalMaximum (p : Int)) (finSeries xs) none = .ok (finSeries hi, sf2, s2) ∧
    call (MSD (p : Int)) (finSeries xs) none = .ok (finSeries sd, sf3, s3) ∧ lo.length = xs.length ∧ hi.length = xs.length ∧ sd.length = xs.length ∧
    ∀ (i : Nat) a b d, lo[i]? = some a → hi[i]? = some b → sd[i]? = some d → 0 ≤ d ∧ 2 * d ≤ b - a := by
  obtain ⟨lo, sf1, s1, h1, l1, e1⟩ := (localMin_reals (K := ℝ) hp).at hx
  obtain ⟨hi, sf2, s2, h2, l2, e2⟩ := (localMax_reals (K := ℝ) hp).at hx
  obtain ⟨sd, sf3, s3, h3, l3, e3⟩ := (msd_reals hp).at hx
  refine ⟨lo, hi, sd, sf1, s1, sf2, s2, sf3, s3, h1, h2, h3, l1, l2, l3, fun i a b d ha hb hd => ?_⟩
  obtain ⟨hi, rfl⟩ := List.getElem?_eq_some_iff.1 ha
  obtain ⟨_, rfl⟩ := List.getElem?_eq_some_iff.1 hb
  obtain ⟨_, rfl⟩ := List.getElem?_eq_some_iff.1 hd
  have hn : window p (xs.take (i + 1)) ≠ [] := window_ne_nil hp (by rw [← List.length_pos_iff, List.length_take]; omega)
  have B : ∀ x ∈ window p (xs.take (i + 1)), leastK (window p (xs.take (i + 1))) ≤ x ∧ x ≤ greatestK (window p (xs.take (i + 1))) :=
    fun x hx => ⟨(leastK_least hn).2 x hx, (greatestK_greatest hn).2 x hx⟩
  have hab := (B _ (leastK_least hn).1).2
  rw [e1 i (by omega), e2 i (by omega), e3 i (by omega), movingStdR]
  split
  · exact ⟨le_rfl, by linarith⟩
  · exact ⟨Real.sqrt_nonneg _, popoviciu hn hab B⟩
example := C79_deviation (p := 2) (by norm_num) (xs := [1, 2, 3]) (by simp)

theorem finSeries3_inj {l m : List (ℝ × ℝ × ℝ)} (h : finSeries3 l = finSeries3 m) : l = m := by
  simp only [finSeries3, PyVal.tup, PyVal.node.injEq, true_and, List.cons.injEq, and_true] at h
  have h1 := finSeries_inj h.1
  have h2 := finSeries_inj h.2.1
  have h3 := finSeries_inj h.2.2
  have key : ∀ l : List (ℝ × ℝ × ℝ), l = (l.map (·.1)).zip ((l.map (·.2.1)).zip (l.map (·.2.2))) := fun l => by
    induction l with
    | nil => rfl
    | cons x l ih => rw [List.map_cons, List.map_cons, List.map_cons, List.zip_cons_cons, List.zip_cons_cons, ← ih]
  rw [key l, key m, h1, h2, h3]

/-- **C79, Bollinger bands**: from index `p - 1` on every sample lies within the bands, whatever the series, exactly when `p - 1 ≤ k²`. -/
theorem C79_bollinger {p : Nat} (hp : 0 < p) {k : ℚ} (hk : 0 ≤ k) :
    Compares Identity (BollingerBands (p : Int) k) (finSeries (K := ℝ)) finSeries finSeries3 (fun _ => True) (p - 1) (fun x b => b.1 ≤ x ∧ x ≤ b.2.2) ↔ (p : ℚ) - 1 ≤ k ^ 2 := by
  have hk' : (0 : ℝ) ≤ k := by exact_mod_cast hk
  constructor
  · intro H
    by_contra hc
    push Not at hc
    obtain ⟨n, rfl⟩ : ∃ n, p = n + 1 := ⟨p - 1, by omega⟩
    have hc' : (k : ℝ) ^ 2 < n := by have : ((k ^ 2 : ℚ) : ℝ) < (((n + 1 : Nat) : ℚ) - 1 : ℚ) := by exact_mod_cast hc
                                     push_cast at this; linarith
    have hs : (k : ℝ) < Real.sqrt n := Real.lt_sqrt_of_sq_lt hc'
    set xs : List ℝ := List.replicate n 2 ++ [1] with ex
    have hx : xs ≠ [] := by simp [ex]
    have hlen : xs.length = n + 1 := by simp [ex]
    have := (identity_reals.of_compares (bollinger_reals hp k) (fun _ _ => finSeries_inj) (fun _ _ => finSeries3_inj) H (l := xs) (by simp) (by omega)).1
    simp only [] at this
    have hw : window (n + 1) xs = 1 :: List.replicate n 2 := by simp [window, ex]
    have e := stdDev_one_replicate n (d := 1) (by norm_num)
    rw [show (1 : ℝ) + 1 = 2 by norm_num] at e
    have ha : avg (1 :: List.replicate n 2) = (1 + n * 2 : ℝ) / (n + 1) := by simp [avg]
    rw [movingAvgK, movingStdR, if_neg (by omega), if_neg (by omega), hw, e, ha, show xs.getLastD 0 = 1 by simp [ex]] at this
    have hn : (0 : ℝ) < n + 1 := by positivity
    rw [one_mul, div_mul_eq_mul_div, ← sub_div, div_le_one hn] at this
    have hq := Real.mul_self_sqrt (Nat.cast_nonneg (α := ℝ) n)
    have : Real.sqrt n * (Real.sqrt n - k) ≤ 0 := by linarith
    nlinarith [Real.sqrt_nonneg (n : ℝ)]
  · intro h
    have h' : (p : ℝ) - 1 ≤ (k : ℝ) ^ 2 := by exact_mod_cast h
    refine identity_reals.compares (bollinger_reals hp k) fun l hl _ hn => ?_
    have := samuelson (last_mem_window (K := ℝ) hp hl)
    have hlen : (window p l).length = p := by rw [window, List.length_take, List.length_reverse]; omega
    rw [hlen] at this
    have hv := variance_nonneg (window p l)
    have h2 : (l.getLastD 0 - avg (window p l)) ^ 2 ≤ (stdDev (window p l) * k) ^ 2 := by
      rw [mul_pow, stdDev, Real.sq_sqrt hv]
      nlinarith
    have h3 := abs_le_of_sq_le_sq h2 (mul_nonneg (Real.sqrt_nonneg _) hk')
    have h4 := abs_le.1 (show |l.getLastD 0 - avg (window p l)| ≤ _ from h3)
    simp only [movingAvgK, movingStdR]
    rw [if_neg (by omega), if_neg (by omega)]
    constructor <;> linarith [h4.1, h4.2]
example := (C79_bollinger (p := 5) (by norm_num) (k := 2) (by norm_num)).2 (by norm_num) [1, 2, 3, 4, 5, 9] (by simp) (by simp)

end TS
