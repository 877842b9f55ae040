import Verif.Props.Accuracy
import Verif.Props.Extrema
/-
C70, further operators.
-/
namespace TS
open PyVal XR FloatArith
set_option linter.unusedSectionVars false
variable {K : Type} [Field K] [LinearOrder K] [IsStrictOrderedRing K] [Transc K] [FloorRing K] {α : Type} [TFNum α] [F : FloatArith α K]

/-! ### No error at all -/

theorem lagged_is {p : Nat} {l : List (α × K)} {M : K} (hM : 0 ≤ M) (h : ∀ z ∈ l, Is M z.1 z.2) :
    Is M (lagged Arith.zero p (l.map Prod.fst)) (lagged 0 p (l.map Prod.snd)) := by
  rw [lagged_of_map Prod.fst ((Arith.zero, 0) : α × K), lagged_of_map Prod.snd ((Arith.zero, 0) : α × K), lagged]
  cases e : l.reverse[p]? with
  | none => exact ⟨val_zero, by simpa using hM⟩
  | some z => exact h z (by have := List.mem_of_getElem? e; simpa using this)

theorem last_is {l : List (α × K)} {M : K} (hM : 0 ≤ M) (h : ∀ z ∈ l, Is M z.1 z.2) :
    Is M ((l.map Prod.fst).getLastD Arith.zero) ((l.map Prod.snd).getLastD 0) := by
  rw [getLastD_of_map Prod.fst ((Arith.zero, 0) : α × K), getLastD_of_map Prod.snd ((Arith.zero, 0) : α × K)]
  rcases eq_or_ne l [] with rfl | e
  · exact ⟨val_zero, by simpa using hM⟩
  · rw [List.getLastD_eq_getLast?, List.getLast?_eq_some_getLast e]
    exact h _ (List.getLast_mem e)

theorem vals_eq {l : List (α × K)} (h : ∀ z ∈ l, val z.1 = fin z.2) : (l.map Prod.fst).map val = (l.map Prod.snd).map fin := by
  rw [List.map_map, List.map_map]
  exact List.map_congr_left h

theorem redMin_is {l : List (α × K)} (hl : l ≠ []) (h : ∀ z ∈ l, val z.1 = fin z.2) : val (Arith.redMin (l.map Prod.fst)) = fin (leastK (l.map Prod.snd)) := by
  rw [F.redMin_eq, vals_eq h]
  · exact leastK_fin (by simpa using hl)
  · intro a ha
    obtain ⟨z, hz, rfl⟩ := List.mem_map.1 ha
    rw [h z hz]; simp

theorem redMax_is {l : List (α × K)} (hl : l ≠ []) (h : ∀ z ∈ l, val z.1 = fin z.2) : val (Arith.redMax (l.map Prod.fst)) = fin (greatestK (l.map Prod.snd)) := by
  rw [F.redMax_eq, vals_eq h]
  · exact greatestK_fin (by simpa using hl)
  · intro a ha
    obtain ⟨z, hz, rfl⟩ := List.mem_map.1 ha
    rw [h z hz]; simp

theorem val_runMin (l : List α) : val (runMin l) = runMin (l.map val) := by
  cases l with
  | nil => rw [runMin, List.map_nil, runMin, val_zero]; simp
  | cons x l =>
    rw [List.map_cons, runMin, runMin, List.foldl_map]
    induction l generalizing x with
    | nil => rfl
    | cons y l ih =>
      rw [List.foldl_cons, List.foldl_cons, ih, F.lt_eq]
      congr 1
      rw [apply_ite val]
      rfl

theorem val_runMax (l : List α) : val (runMax l) = runMax (l.map val) := by
  cases l with
  | nil => rw [runMax, List.map_nil, runMax, val_zero]; simp
  | cons x l =>
    rw [List.map_cons, runMax, runMax, List.foldl_map]
    induction l generalizing x with
    | nil => rfl
    | cons y l ih =>
      rw [List.foldl_cons, List.foldl_cons, ih, F.lt_eq]
      congr 1
      rw [apply_ite val]
      rfl

/-- **C70, delays and extrema** have no error at all. -/
theorem C70_exact {p : Nat} (hp : 0 < p) :
    Approximates (Lag (p : Int) : Operator α) (Lag (p : Int) : Operator (XR K)) vSBuf finSeries vSBuf finSeries (fun a x => val a = fin x) (fun a x => val a = fin x) ∧
    Approximates (LocalMinimum (p : Int) : Operator α) (LocalMinimum (p : Int) : Operator (XR K)) vSBuf finSeries vSBuf finSeries (fun a x => val a = fin x) (fun a x => val a = fin x) ∧
    Approximates (LocalMaximum (p : Int) : Operator α) (LocalMaximum (p : Int) : Operator (XR K)) vSBuf finSeries vSBuf finSeries (fun a x => val a = fin x) (fun a x => val a = fin x) ∧
    Approximates (GlobalMinimum : Operator α) (GlobalMinimum : Operator (XR K)) vSBuf finSeries vSBuf finSeries (fun a x => val a = fin x) (fun a x => val a = fin x) ∧
    Approximates (GlobalMaximum : Operator α) (GlobalMaximum : Operator (XR K)) vSBuf finSeries vSBuf finSeries (fun a x => val a = fin x) (fun a x => val a = fin x) := by
  have win : ∀ {l : List (α × K)}, (∀ z ∈ l, val z.1 = fin z.2) → ∀ z ∈ window p l, val z.1 = fin z.2 := fun h z hz => h z (mem_window hz)
  refine ⟨((C17_lag_streams (α := α) hp []).scalar (y' := lagged Arith.zero p) fun l _ => lagged_of_map pt Arith.zero p l).approximates (lag_reals hp) fun l _ h => ?_,
    (C21_local_min_streams hp).approximates (localMin_reals hp) fun l hl h => ?_, (C21_local_max_streams hp).approximates (localMax_reals hp) fun l hl h => ?_,
    C20_global_min_streams.approximates globalMin_reals fun l hl h => ?_, C20_global_max_streams.approximates globalMax_reals fun l hl h => ?_⟩
  · rw [lagged_of_map Prod.fst ((Arith.zero, 0) : α × K), lagged_of_map Prod.snd ((Arith.zero, 0) : α × K), lagged]
    cases e : l.reverse[p]? with
    | none => exact val_zero
    | some z => exact h z (by have := List.mem_of_getElem? e; simpa using this)
  · rw [window_of_map, window_of_map]
    exact redMin_is (window_ne_nil hp hl) (win h)
  · rw [window_of_map, window_of_map]
    exact redMax_is (window_ne_nil hp hl) (win h)
  · obtain ⟨m, e, hm⟩ := XR.runMin_fin (l := l.map Prod.snd) (by simpa using hl)
    rw [val_runMin, vals_eq h, e, least_eq hm]
  · obtain ⟨m, e, hm⟩ := XR.runMax_fin (l := l.map Prod.snd) (by simpa using hl)
    rw [val_runMax, vals_eq h, e, greatest_eq hm]
example := C70_exact (K := ℚ) (α := F32 ℚ) (p := 3) (by norm_num)

/-! ### Differences -/

section
variable {u c Ω : K} {N : Nat} (A : Accurate (rnd (α := α)) u c Ω N) {M : K} (hcM : c ≤ M)
include A hcM

/-- **C70, momentum.** -/
theorem C70_momentum {p : Nat} (hp : 0 < p) (hΩ : 2 * M ≤ Ω) :
    Approximates (Momentum (p : Int) : Operator α) (Momentum (p : Int) : Operator (XR K)) vSBuf finSeries vSBuf finSeries (Is M) (fun a x => Close a x (3 * u * M)) := by
  have hM : 0 ≤ M := A.c_nonneg.trans hcM
  have hu := A.u_nonneg
  refine ((C19_momentum_streams (α := α) hp []).scalar (y' := momentum p) fun l _ => ?_).approximates (momentum_reals hp) fun l _ h => ?_
  · simp only [momentum, List.length_map]
    split
    · rfl
    · funext c
      show (List.map pt l).getLastD Arith.zero c - lagged Arith.zero p (l.map pt) c = _
      rw [show (Arith.zero : Idx [] → α) = pt Arith.zero from rfl, lagged_of_map, getLastD_of_map]
      rfl
  · simp only [momentum, momentumK, List.length_map]
    split
    · exact (Close.exact val_zero).mono (by positivity)
    · exact (sub_close A hcM hΩ (last_is hM h) (lagged_is hM h)).1
example := C70_momentum (K := ℚ) (α := F32 ℚ) round32_accurate (M := 1000) (by norm_num) (p := 14) (by norm_num) (by norm_num)

/-- **C70, difference of two moving averages.** -/
theorem C70_crossover {slow fast : Nat} (hs : 0 < slow) (hf : 0 < fast) (hsN : slow ≤ N) (hfN : fast ≤ N) (hsu : 32 * ((slow : K) + 1) * u ≤ 1)
    (hfu : 32 * ((fast : K) + 1) * u ≤ 1) (hΩs : 4 * ((slow : K) + 1) * M ≤ Ω) (hΩf : 4 * ((fast : K) + 1) * M ≤ Ω) :
    Approximates (SMACrossover (slow : Int) fast : Operator α) (SMACrossover (slow : Int) fast : Operator (XR K)) vSBuf finSeries vSBuf finSeries (Is M)
      (fun a x => Close a x (6 * (slow + fast) * u * M)) := by
  have hM : 0 ≤ M := A.c_nonneg.trans hcM
  have hu := A.u_nonneg
  have huM : 0 ≤ u * M := mul_nonneg hu hM
  have hs' : (1 : K) ≤ slow := by exact_mod_cast hs
  have hf' : (1 : K) ≤ fast := by exact_mod_cast hf
  refine ((C32_crossover (α := α) hs hf []).scalar (y' := smaDiff slow fast) fun l _ => by
    funext c; rw [smaDiff_apply, map_pt_apply]; rfl).approximates (crossover_reals hs hf) fun l _ h => ?_
  have h1 := movingAvg_close A hs hsN hsu hcM hΩs h
  have h2 := movingAvg_close A hf hfN hfu hcM hΩf h
  have hab : ∀ x ∈ l.map Prod.snd, |x| ≤ M := by
    intro x hx
    obtain ⟨z, hz, rfl⟩ := List.mem_map.1 hx
    exact (h z hz).2
  have bound : ∀ p : Nat, 0 < p → |movingAvgK p (l.map Prod.snd)| ≤ M := fun p hp => by
    have e : movingAvgK p ((l.map Prod.snd).map fun _ : K => (0 : K)) = 0 := by
      unfold movingAvgK
      split
      · rfl
      · rw [window_of_map]; simp [avg]
    have := movingAvgK_near hp hM (l := l.map Prod.snd) (m := (l.map Prod.snd).map fun _ => 0)
      (by rw [List.forall₂_map_right_iff, List.forall₂_same]; intro x hx; simpa using hab x hx)
    rwa [e, sub_zero] at this
  have h5 : 32 * (((slow : K) + 1) * (u * M)) ≤ M := by nlinarith
  have h6 : 32 * (((fast : K) + 1) * (u * M)) ≤ M := by nlinarith
  have h7 : u * M ≤ slow * (u * M) := by nlinarith
  have h8 : u * M ≤ fast * (u * M) := by nlinarith
  have h9 : M ≤ slow * M := by nlinarith
  have key : ∀ {a : α} {x : K}, Close a x (4 * fast * u * M) → |x| ≤ M → Close (a - movingAvg slow (l.map Prod.fst)) (x - movingAvgK slow (l.map Prod.snd)) (6 * (slow + fast) * u * M) := by
    intro a x ha hx
    have h10 := abs_sub _ _ |>.trans (add_le_add hx (bound slow hs))
    rw [← two_mul] at h10
    refine (Close.sub A ha h1 h10 (by linarith)).mono ?_
    have := mul_le_mul_of_nonneg_left (by linarith : 2 * M + (4 * fast * u * M + 4 * slow * u * M) + c ≤ 4 * M) hu
    linarith
  unfold smaDiff smaDiffK
  simp only [List.length_map]
  split
  · exact key ((Close.exact val_zero).mono (by positivity)) (by simpa using hM)
  · exact key h2 (bound fast hf)
example := C70_crossover (K := ℚ) (α := F32 ℚ) round32_accurate (M := 1000) (by norm_num) (slow := 26) (fast := 12) (by norm_num) (by norm_num) (by norm_num) (by norm_num)
  (by norm_num) (by norm_num) (by norm_num) (by norm_num)

end

/-! ### Quotients -/

/-- **C70, returns** on samples of size `m` to `M`: a relative error, times M / m at most. -/
theorem C70_return {u c Ω : K} {N : Nat} (A : Accurate (rnd (α := α)) u c Ω N) (hu1 : 32 * u ≤ 1) {m M : K} (hm : 0 < m) (hmM : m ≤ M) {p : Nat} (hp : 0 < p) (hΩ : 2 * (M / m + 1) ≤ Ω) :
    Approximates (Return (p : Int) : Operator α) (Return (p : Int) : Operator (XR K)) vSBuf finSeries vSBuf finSeries (fun a x => Is M a x ∧ m ≤ |x|)
      (fun a x => Close a x (3 * u * (M / m + 1))) := by
  have hM : 0 ≤ M := hm.le.trans hmM
  have hu := A.u_nonneg
  have hc := A.c_nonneg
  have hcu := A.c_le
  have hQ : 1 ≤ M / m := (one_le_div hm).2 hmM
  refine (C37_return_streams (by rw [F.eq_eq, val_zero, val_ofRat_zero]; simp [XR.eq]) hp).approximates (return_reals hp) fun l _ h => ?_
  have h1 := last_is hM fun z hz => (h z hz).1
  have h2 := lagged_is (p := p) hM fun z hz => (h z hz).1
  have h0 : Close (Arith.zero : α) (0 : K) (3 * u * (M / m + 1)) := (Close.exact val_zero).mono (by positivity)
  have e : TFNum.eq (lagged Arith.zero p (l.map Prod.fst) : α) (Arith.ofRat 0) = decide (lagged 0 p (l.map Prod.snd) = 0) := by
    rw [F.eq_eq, h2.1, val_ofRat_zero]; simp [XR.eq]
  simp only [growth, returnK, List.length_map, e, decide_eq_true_eq]
  split
  · exact h0
  · next hn =>
    push Not at hn
    have hx := h1.2
    have hy : m ≤ |lagged 0 p (l.map Prod.snd)| := by
      rw [lagged_of_map Prod.snd ((Arith.zero, 0) : α × K), lagged, List.getElem?_eq_getElem (by simpa using hn.1)]
      exact (h _ (by simp)).2
    have hq : |(l.map Prod.snd).getLastD 0 / lagged 0 p (l.map Prod.snd)| ≤ M / m := by
      rw [abs_div]
      exact div_le_div₀ hM hx hm hy
    have hd := Accurate.round A (a := (l.map Prod.fst).getLastD Arith.zero / lagged Arith.zero p (l.map Prod.fst)) (d := 0)
      (r := (l.map Prod.snd).getLastD 0 / lagged 0 p (l.map Prod.snd)) (by
        rw [F.div_eq _ _ (by rw [h2.1]; simpa using hn.2), h1.1, h2.1]; congr 1; exact XR.fin_div _ _ hn.2) (by simp) hq (by linarith)
    have h1' : val (Arith.ofRat 1 : α) = fin (1 : K) := by simpa using val_pos (α := α) (n := 1) (by norm_num) (by norm_num)
    have hq1 : |(l.map Prod.snd).getLastD 0 / lagged 0 p (l.map Prod.snd) - 1| ≤ M / m + 1 := (abs_sub _ _).trans (by rw [abs_one]; linarith)
    have hb : u * (M / m + c) ≤ (M / m + 1) / 16 := by nlinarith
    refine (Close.sub A hd (Close.exact h1') hq1 (by linarith)).mono ?_
    have := mul_le_mul_of_nonneg_left (by linarith : M / m + 1 + (0 + u * (M / m + 0 + c) + 0) + c ≤ (M / m + 1) + (M / m + 1) / 8) hu
    have := mul_le_mul_of_nonneg_left (by linarith : M / m + c ≤ M / m + 1) hu
    nlinarith
example := C70_return (K := ℚ) (α := F32 ℚ) round32_accurate (by norm_num) (m := 10) (M := 1000) (by norm_num) (by norm_num) (p := 14) (by norm_num) (by norm_num)

/-! ### Heikin-Ashi candles -/

theorem redMin3 {a b e : α} {x y z : K} (ha : val a = fin x) (hb : val b = fin y) (he : val e = fin z) :
    val (Arith.redMin [a, b, e]) = fin (Min.min x (Min.min y z)) := by
  rw [F.redMin_eq]
  · simp only [List.map_cons, List.map_nil, List.foldr_cons, List.foldr_nil, ha, hb, he]
    have e : (fin z).min pinf = fin z := by simp [XR.min, XR.lt]
    rw [e]
    have m : ∀ a b : K, (fin a).min (fin b) = fin (Min.min a b) := fun a b => XR.min_fin a b
    rw [m, m]
  · simp [ha, hb, he]

theorem Close.redMin3 {a b e : α} {x y z d : K} (ha : Close a x d) (hb : Close b y d) (he : Close e z d) :
    Close (Arith.redMin [a, b, e]) (Min.min x (Min.min y z)) d := by
  obtain ⟨x', h1, h2⟩ := ha
  obtain ⟨y', h3, h4⟩ := hb
  obtain ⟨z', h5, h6⟩ := he
  exact ⟨_, TS.redMin3 h1 h3 h5, (abs_min_sub_min_le_max _ _ _ _).trans (max_le h2 ((abs_min_sub_min_le_max _ _ _ _).trans (max_le h4 h6)))⟩

theorem ha_reals : StreamsAs (HeikinAshi : Operator (XR K)) finCandles4 finCandles4 (fun h => haK (h.dropLast.getLastD ⟨0, 0, 0, 0⟩) (h.getLastD ⟨0, 0, 0, 0⟩)) := by
  have hg : ∀ l : List (OHLC K), (l.map (OHLC.map XR.fin)).getLastD noCandle = (l.getLastD ⟨0, 0, 0, 0⟩).map XR.fin := by
    intro l
    induction l using List.reverseRecOn with
    | nil => simp [noCandle, OHLC.map]
    | append_singleton l x _ => simp
  exact (C46_heikinAshi_streams (α := XR K)).comap (OHLC.map XR.fin) (OHLC.map XR.fin) fun l _ => by rw [← List.map_dropLast, hg, hg, ha_fin]

/-- the four prices of a candle -/
def IsOHLC (M : K) (a : OHLC α) (x : OHLC K) : Prop := Is M a.opn x.opn ∧ Is M a.high x.high ∧ Is M a.low x.low ∧ Is M a.close x.close

/-- **C70, Heikin-Ashi candles.** -/
theorem C70_heikin_ashi {u c Ω : K} {N : Nat} (A : Accurate (rnd (α := α)) u c Ω N) (hN : 4 ≤ N) (hu1 : 32 * u ≤ 1) {M : K} (hcM : c ≤ M) (hΩ : 16 * M ≤ Ω) :
    Approximates (HeikinAshi : Operator α) (HeikinAshi : Operator (XR K)) candles4 finCandles4 candles4 finCandles4 (IsOHLC M)
      (fun a x => Close a.opn x.opn (15 * u * M) ∧ Close a.high x.high (15 * u * M) ∧ Close a.low x.low (15 * u * M) ∧ Close a.close x.close (15 * u * M)) := by
  have hc := A.c_nonneg
  have hM : 0 ≤ M := hc.trans hcM
  have hu := A.u_nonneg
  have huM : 0 ≤ u * M := mul_nonneg hu hM
  have huM1 : 32 * (u * M) ≤ M := by nlinarith
  have hn0 : IsOHLC M (noCandle : OHLC α) (⟨0, 0, 0, 0⟩ : OHLC K) := by
    have : Is M (Arith.zero : α) (0 : K) := ⟨val_zero, by simpa using hM⟩
    exact ⟨this, this, this, this⟩
  have last : ∀ l : List (OHLC α × OHLC K), (∀ z ∈ l, IsOHLC M z.1 z.2) → IsOHLC M ((l.map Prod.fst).getLastD noCandle) ((l.map Prod.snd).getLastD ⟨0, 0, 0, 0⟩) := by
    intro l h
    rcases List.eq_nil_or_concat l with rfl | ⟨l, z, rfl⟩
    · exact hn0
    · simpa using h z (by simp)
  refine C46_heikinAshi_streams.approximates ha_reals fun l _ h => ?_
  rw [← List.map_dropLast, ← List.map_dropLast]
  have h1 := last l.dropLast fun z hz => h z (List.mem_of_mem_dropLast hz)
  have h2 := last l h
  generalize (l.dropLast.map Prod.fst).getLastD noCandle = P at h1 ⊢
  generalize (l.dropLast.map Prod.snd).getLastD ⟨0, 0, 0, 0⟩ = p at h1 ⊢
  generalize (l.map Prod.fst).getLastD noCandle = X at h2 ⊢
  generalize (l.map Prod.snd).getLastD ⟨0, 0, 0, 0⟩ = x at h2 ⊢
  obtain ⟨p1, -, -, p4⟩ := h1
  obtain ⟨x1, x2, x3, x4⟩ := h2
  have ex : ∀ {a : α} {y : K}, Is M a y → Close a y (15 * u * M) := fun h => (Close.exact h.1).mono (by linarith)
  have e : TFNum.eq P.opn (Arith.ofRat 0 : α) = decide (p.opn = 0) := by
    rw [F.eq_eq, p1.1, val_ofRat_zero]; simp [XR.eq]
  simp only [haCandle, haK, e, decide_eq_true_eq]
  split
  · exact ⟨ex x1, ex x2, ex x3, ex x4⟩
  · have hcl : Close (Arith.sum [X.close, X.low, X.high, X.opn] / Arith.ofRat 4) ((x.opn + x.high + x.low + x.close) / 4) (15 * u * M) := by
      have hp4 : (1 + u) ^ 4 ≤ 1 + 2 * (4 : Nat) * u := pow_le hu (by push_cast; linarith)
      have hp3 : (1 + u) ^ 3 ≤ 1 + 2 * (3 : Nat) * u := pow_le hu (by push_cast; linarith)
      push_cast at hp4 hp3
      have hcM2 : 4 * (M + c) ≤ 8 * M := by linarith
      have h0 : 0 ≤ 4 * (M + c) := by linarith
      have s := sum_close A (l := [(X.close, x.close), (X.low, x.low), (X.high, x.high), (X.opn, x.opn)]) hM (by simp [x4, x3, x2, x1, show ∀ (a : α) y, (val a = fin y ∧ |y| ≤ M) = Is M a y from fun _ _ => rfl])
        (by
          simp only [List.length_cons, List.length_nil]
          push_cast
          refine le_trans ?_ hΩ
          norm_num
          nlinarith)
      have e : x.close + (x.low + (x.high + (x.opn + 0))) = x.opn + x.high + x.low + x.close := by ring
      simp only [List.map_cons, List.map_nil, List.length_cons, List.length_nil, List.sum_cons, List.sum_nil, e] at s
      norm_num at s
      have s' := s.mono (e := 48 * (u * M)) (by nlinarith)
      have hx : |x.opn + x.high + x.low + x.close| / (4 : Nat) ≤ M := by
        push_cast
        rw [div_le_iff₀ (by norm_num)]
        have := x1.2; have := x2.2; have := x3.2; have := x4.2
        rw [abs_le] at *
        constructor <;> linarith
      have := Close.div A s' (n := 4) (by norm_num) hN hx (by push_cast; linarith)
      push_cast at this
      refine this.mono ?_
      have := mul_le_mul_of_nonneg_left (by linarith : M + 48 * (u * M) / 4 + c ≤ 3 * M) hu
      linarith
    have ho : Close ((P.opn + P.close) / Arith.ofRat 2) ((p.opn + p.close) / 2) (15 * u * M) := by
      have hb : |p.opn + p.close| ≤ 2 * M := (abs_add_le _ _).trans (by have := p1.2; have := p4.2; linarith)
      have s := (Close.add A (Close.exact p1.1) (Close.exact p4.1) hb (by linarith)).mono (e := 3 * (u * M)) (by
        have := mul_le_mul_of_nonneg_left (by linarith : 2 * M + (0 + 0) + c ≤ 3 * M) hu
        linarith)
      have := Close.div A s (n := 2) (X := M) (by norm_num) (by omega) (by push_cast; linarith) (by push_cast; linarith)
      push_cast at this
      refine this.mono ?_
      have := mul_le_mul_of_nonneg_left (by linarith : M + 3 * (u * M) / 2 + c ≤ 3 * M) hu
      linarith
    exact ⟨ho, (ex x2).redMax3 hcl ho, (ex x3).redMin3 hcl ho, hcl⟩
example := C70_heikin_ashi (K := ℚ) (α := F32 ℚ) round32_accurate (by norm_num) (by norm_num) (M := 1000) (by norm_num) (by norm_num)

end TS
