import Verif.Props.Accuracy3
import Verif.Props.Accuracy4
import Verif.Props.Moments
/-
C70: the Sharpe ratio in floating-point arithmetic.
-/
namespace TS
open PyVal XR FloatArith
set_option linter.unusedSectionVars false
variable {α : Type} [TFNum α] [F : FloatArith α ℝ] {u c Ω : ℝ} {N : Nat}

/-- The mean is 1-Lipschitz. -/
theorem avg_near {A : Type} {l : List A} (hl : l ≠ []) {f g : A → ℝ} {e : ℝ} (h : ∀ x ∈ l, |f x - g x| ≤ e) : |avg (l.map f) - avg (l.map g)| ≤ e := by
  have h1 : avg (l.map f) - avg (l.map g) = avg (l.map fun x => f x - g x) := by
    have := avg_add (fun x => f x - g x) g l
    simp only [sub_add_cancel] at this
    linarith
  rw [h1, abs_le]
  exact avg_between (by simpa using hl) (by simp only [List.mem_map]; rintro _ ⟨x, hx, rfl⟩; exact abs_le.1 (h x hx))

/-- The standard deviation is 2-Lipschitz. -/
theorem stdDev_near {A : Type} {l : List A} (hl : l ≠ []) {f g : A → ℝ} {e : ℝ} (h : ∀ x ∈ l, |f x - g x| ≤ e) : |stdDev (l.map f) - stdDev (l.map g)| ≤ 2 * e := by
  have ha := avg_near hl h
  have es : ∀ f : A → ℝ, stdDev (l.map f) = Real.sqrt (avg (l.map fun x => (f x - avg (l.map f)) ^ 2)) := fun f => by
    rw [stdDev, variance, List.map_map]; rfl
  have hd : ∀ x ∈ l, |(f x - avg (l.map f)) - (g x - avg (l.map g))| ≤ 2 * e := fun x hx => by
    rw [sub_sub_sub_comm]
    exact (abs_sub _ _).trans (by linarith [h x hx])
  have m1 := rms_le hl hd
  have m2 := rms_le hl fun x hx => (abs_sub_comm _ _).trans_le (hd x hx)
  rw [← es, ← es] at m1 m2
  rw [abs_le]; constructor <;> linarith

/-- quotients of numbers near others -/
theorem quot_near {m μ S σ e M : ℝ} (hm : |m - μ| ≤ 15 * e) (hS : |S - σ| ≤ 60 * e) (hσ : 0 < σ) (he0 : 0 ≤ e) (he : 120 * e ≤ σ) (hμ : |μ| ≤ 2 * M) (hσM : σ ≤ 2 * M) :
    σ / 2 ≤ S ∧ |m / S - μ / σ| ≤ 300 * e * M / σ ^ 2 := by
  have hS' := abs_le.1 hS
  have hS2 : σ / 2 ≤ S := by linarith
  have hSp : 0 < S := by linarith
  refine ⟨hS2, ?_⟩
  have e1 : m / S - μ / σ = ((m - μ) * σ - μ * (S - σ)) / (S * σ) := by field_simp; ring
  have hM : 0 ≤ M := by linarith
  rw [e1, abs_div, abs_of_pos (by positivity : 0 < S * σ), div_le_div_iff₀ (by positivity) (by positivity)]
  have h1 : |(m - μ) * σ - μ * (S - σ)| ≤ 15 * e * σ + 2 * M * (60 * e) := by
    refine (abs_sub _ _).trans ?_
    rw [abs_mul, abs_mul, abs_of_pos hσ]
    exact add_le_add (mul_le_mul_of_nonneg_right hm hσ.le) (mul_le_mul hμ hS (abs_nonneg _) (by linarith))
  have h2 : 15 * e * σ + 2 * M * (60 * e) ≤ 150 * (e * M) := by nlinarith
  have h3 : 300 * e * M * (S * σ) ≥ 150 * (e * M) * σ ^ 2 := by
    have : 300 * e * M * (σ / 2 * σ) ≤ 300 * e * M * (S * σ) := mul_le_mul_of_nonneg_left (mul_le_mul_of_nonneg_right hS2 hσ.le) (by positivity)
    linarith
  have h4 := mul_le_mul_of_nonneg_right (h1.trans h2) (sq_nonneg σ)
  linarith

/-- A rounded quotient of a mean and a deviation that are off by `15 e` and `60 e`, `e = p u M`. -/
theorem sharpe_round (A : Accurate (rnd (α := α)) u c Ω N) {P M : ℝ} (hP : 1 ≤ P) (hu1 : u ≤ 1 / 64) (huΩ : 1 ≤ u * Ω) (hM : 0 ≤ M) {a b : α} {μ σ : ℝ}
    (ha : Close a μ (15 * (P * u * M))) (hb : Close b σ (60 * (P * u * M))) (hσ : 0 < σ) (he : 120 * (P * u * M) ≤ σ) (hμ : |μ| ≤ 2 * M) (hσM : σ ≤ 2 * M) :
    (∃ S : ℝ, val b = fin S ∧ 0 < S) ∧ Close (a / b) (μ / σ) (320 * P * u * (M / σ) ^ 2) := by
  have hu := A.u_nonneg
  have hc := A.c_le
  obtain ⟨m, ha1, ha2⟩ := ha
  obtain ⟨S, hb1, hb2⟩ := hb
  have he0 : 0 ≤ P * u * M := by positivity
  obtain ⟨hS, hq⟩ := quot_near ha2 hb2 hσ he0 he hμ hσM
  have hSp : 0 < S := by linarith
  refine ⟨⟨S, hb1, hSp⟩, ?_⟩
  have hv : val (a / b) = rnd (α := α) (fin (m / S)) := by
    rw [F.div_eq _ _ (by rw [hb1]; simpa using hSp.ne'), ha1, hb1]
    exact congrArg _ (XR.fin_div _ _ hSp.ne')
  have hx : |μ / σ| ≤ 2 * (M / σ) := by
    rw [abs_div, abs_of_pos hσ, ← mul_div_assoc]
    exact div_le_div_of_nonneg_right hμ hσ.le
  set t := M / σ with et
  have ht : 1 / 2 ≤ t := by rw [et, le_div_iff₀ hσ]; linarith
  have hd : 300 * (P * u * M) * M / σ ^ 2 = 300 * P * u * t ^ 2 := by rw [et, div_pow]; ring
  rw [hd] at hq
  -- 120 P u t ≤ 1
  have hut : 120 * (P * u * t) ≤ 1 := by
    rw [et, ← mul_div_assoc, ← mul_div_assoc, div_le_one hσ]; exact he
  have hut1 : 120 * (u * t) ≤ 1 := by
    have : u * t ≤ P * (u * t) := le_mul_of_one_le_left (by positivity) hP
    linarith
  have hd2 : 300 * P * u * t ^ 2 ≤ 5 / 2 * t := by
    have := mul_le_mul_of_nonneg_right hut (by linarith : 0 ≤ t)
    linarith
  have hu0 : 0 < u := by
    rcases hu.eq_or_lt with h | h
    · rw [← h] at huΩ; norm_num at huΩ
    · exact h
  have htΩ : 5 * t ≤ Ω := by
    have h1 : u * (5 * t) ≤ u * Ω := by linarith
    exact le_of_mul_le_mul_left h1 hu0
  refine (A.round hv hq hx (by linarith)).mono ?_
  have h1 : 2 * t + 300 * P * u * t ^ 2 + c ≤ 10 * t ^ 2 := by nlinarith
  have h2 := mul_le_mul_of_nonneg_left h1 hu
  have h3 : u * t ^ 2 ≤ P * (u * t ^ 2) := le_mul_of_one_le_left (by positivity) hP
  have h4 : 0 ≤ P * (u * t ^ 2) := by positivity
  linarith

/-- The exact Sharpe ratio of a history of returns and risk-free rates. -/
noncomputable def sharpeR (p : Nat) (h : List (ℝ × ℝ)) : ℝ :=
  let w := window p (h.map fun z => z.1 - z.2)
  if stdDev w = 0 then 0 else avg w / stdDev w

theorem sharpe_reals {p : Nat} (hp : 0 < p) : StreamsAs (SharpeRatio (p : Int) : Operator (XR ℝ)) finPairs finSeries (sharpeR p) := by
  have := (C39_sharpe_streams (α := XR ℝ) hp).comap (y' := sharpeR p) (Prod.map XR.fin XR.fin) XR.fin (fun l hl => by
    have e : (l.map (Prod.map XR.fin XR.fin)).map (fun z : XR ℝ × XR ℝ => z.1 - z.2) = (l.map fun z => z.1 - z.2).map XR.fin := by
      simp [Function.comp_def]
    rw [e, window_fin, sharpe_fin (window_ne_nil hp (by simpa using hl))]; rfl)
  simp only [← finPairs_eq] at this
  exact this

/-- **C70, Sharpe ratio** of returns and risk-free rates up to `M` in size: whenever the deviation `σ` of the last `p` excess returns is positive and at least `120 p u M`, the output is the
number it should be up to `320 p u (M / σ)²`. -/
theorem C70_sharpe (A : Accurate (rnd (α := α)) u c Ω N) (Q : SqrtRounded α ℝ Real.sqrt) {p : Nat} (hp : 0 < p) (hpN : p ≤ N) (hpu : 32 * ((p : ℝ) + 1) * u ≤ 1) {M : ℝ} (hcM : c ≤ M)
    (hcM2 : c ≤ u * M ^ 2) (hΩ : 288 * ((p : ℝ) + 1) * (M ^ 2 + 1) ≤ Ω) (huΩ : 1 ≤ u * Ω) :
    ApproximatesAt (SharpeRatio (p : Int) : Operator α) (SharpeRatio (p : Int) : Operator (XR ℝ)) vSBuf2 finPairs vSBuf finSeries (fun a x => Is M a.1 x.1 ∧ Is M a.2 x.2)
      fun xs a x => let w := window p (xs.map fun z => z.1 - z.2)
        0 < stdDev w → 120 * p * u * M ≤ stdDev w → x = avg w / stdDev w ∧ Close a x (320 * p * u * (M / stdDev w) ^ 2) := by
  refine (C39_sharpe_streams hp).approximatesAt (sharpe_reals hp) fun l hl h => ?_
  simp only
  intro hσ hσ2
  have hu := A.u_nonneg
  have hc := A.c_nonneg
  have hcu := A.c_le
  have hM : 0 ≤ M := hc.trans hcM
  have hp1 : (1 : ℝ) ≤ p := by exact_mod_cast hp
  have hu' : u ≤ 1 / 64 := by nlinarith
  have hMM : M ≤ M ^ 2 + 1 := by nlinarith [sq_nonneg (M - 1 / 2)]
  -- the differences
  have hdiff : ∀ z ∈ l, Close (z.1.1 - z.1.2) (z.2.1 - z.2.2) (3 * u * M) := by
    intro z hz
    obtain ⟨h1, h2⟩ := h z hz
    refine (Close.sub A (X := 2 * M) (Close.exact h1.1) (Close.exact h2.1) ?_ ?_).mono ?_
    · have := abs_sub z.2.1 z.2.2; linarith [h1.2, h2.2]
    · nlinarith
    · nlinarith
  set r : (α × α) × (ℝ × ℝ) → ℝ := fun z => numOf (val (z.1.1 - z.1.2)) with er
  set d : (α × α) × (ℝ × ℝ) → ℝ := fun z => z.2.1 - z.2.2 with ed
  have hr : ∀ z ∈ l, val (z.1.1 - z.1.2) = fin (r z) ∧ |r z - d z| ≤ 3 * u * M := by
    intro z hz
    obtain ⟨y, h1, h2⟩ := hdiff z hz
    simp only [er, h1]
    exact ⟨rfl, h2⟩
  have hdM : ∀ z ∈ l, |d z| ≤ 2 * M := by
    intro z hz
    have := abs_sub z.2.1 z.2.2
    simp only [ed]
    linarith [(h z hz).1.2, (h z hz).2.2]
  have hrM : ∀ z ∈ l, |r z| ≤ 3 * M := by
    intro z hz
    have h1 := abs_add_le (d z) (r z - d z)
    rw [add_sub_cancel] at h1
    have h2 : 3 * u * M ≤ M := by nlinarith
    linarith [(hr z hz).2, hdM z hz]
  set v := window p l with ev
  have hv : ∀ z ∈ v, z ∈ l := fun z hz => mem_of_mem_window hz
  have hv0 : v ≠ [] := window_ne_nil hp hl
  have e1 : window p ((l.map Prod.fst).map fun z : α × α => z.1 - z.2) = (v.map fun z => (z.1.1 - z.1.2, r z)).map Prod.fst := by
    rw [window_map, window_map, List.map_map, List.map_map]; rfl
  have e2 : window p ((l.map Prod.snd).map fun z : ℝ × ℝ => z.1 - z.2) = v.map d := by
    rw [window_map, window_map, List.map_map]; rfl
  rw [e2] at hσ hσ2 ⊢
  set n := v.length with en
  have hn : 0 < n := List.length_pos_iff.2 hv0
  have hnp : n ≤ p := by rw [en, ev, window_length]; exact Nat.min_le_left _ _
  have hn1 : (n : ℝ) ≤ p := by exact_mod_cast hnp
  set w : List (α × ℝ) := v.map fun z => (z.1.1 - z.1.2, r z) with ew
  have hw : w.length = n := by simp [ew, en]
  have hwI : ∀ z ∈ w, Is (3 * M) z.1 z.2 := by
    simp only [ew, List.mem_map]
    rintro _ ⟨z, hz, rfl⟩
    exact ⟨(hr z (hv z hz)).1, hrM z (hv z hz)⟩
  have ew2 : w.map Prod.snd = v.map r := by simp [ew, Function.comp_def]
  have hnu : 32 * ((n : ℝ) + 1) * u ≤ 1 := le_trans (by nlinarith) hpu
  have hΩn : 4 * ((n : ℝ) + 1) * (3 * M) ≤ Ω := le_trans (by nlinarith) hΩ
  have hmean := movingAvg_close A hn (hnp.trans hpN) hnu (hcM.trans (by linarith)) hΩn (l := w.reverse) (fun z hz => hwI z (List.mem_reverse.1 hz))
  have l1 : (w.map Prod.fst).length = n := by rw [List.length_map, hw]
  have l2 : (w.map Prod.snd).length = n := by rw [List.length_map, hw]
  have l3 : (w.reverse.map Prod.fst).length = n := by simp [hw]
  have l4 : (w.reverse.map Prod.snd).length = n := by simp [hw]
  rw [movingAvg, movingAvgK, l3, l4, if_neg (lt_irrefl _), if_neg (lt_irrefl _)] at hmean
  rw [window_all l3.le, window_all l4.le, List.map_reverse, List.map_reverse, List.reverse_reverse, List.reverse_reverse] at hmean
  have hmean' : Close (Arith.mean (w.map Prod.fst)) (avg (w.map Prod.snd)) (4 * n * u * (3 * M)) := by
    rwa [Arith.mean, l1]
  have hstd := (std_close A Q hn (hnp.trans hpN) hnu (hcM.trans (by linarith)) (hcM2.trans (by nlinarith [sq_nonneg M])) hΩn (le_trans (by nlinarith [sq_nonneg M]) hΩ) hw hwI hmean').1
  rw [ew2] at hmean' hstd
  have hrd : ∀ z ∈ v, |r z - d z| ≤ 3 * u * M := fun z hz => (hr z (hv z hz)).2
  have k1 := avg_near hv0 hrd
  have k2 := stdDev_near hv0 hrd
  have hb : ∀ x ∈ v.map d, -(2 * M) ≤ x ∧ x ≤ 2 * M := by
    simp only [List.mem_map]; rintro _ ⟨z, hz, rfl⟩; exact abs_le.1 (hdM z (hv z hz))
  have hμ := abs_le.2 (avg_between (l := v.map d) (by simpa using hv0) hb)
  have hσM : stdDev (v.map d) ≤ 2 * M := by
    linarith [popoviciu (l := v.map d) (by simpa using hv0) (a := -(2 * M)) (b := 2 * M) (by linarith) hb]
  have hnuM : n * u * M ≤ p * u * M := mul_le_mul_of_nonneg_right (mul_le_mul_of_nonneg_right hn1 hu) hM
  have huM : u * M ≤ p * u * M := by nlinarith [mul_nonneg hu hM]
  obtain ⟨⟨S, hS1, hS2⟩, hq⟩ := sharpe_round A hp1 hu' huΩ hM (hmean'.of.mono (e := 15 * (p * u * M)) (by linarith)) (hstd.of.mono (e := 60 * (p * u * M)) (by linarith)) hσ (by linarith) hμ hσM
  have ex : sharpeR p (l.map Prod.snd) = avg (v.map d) / stdDev (v.map d) := by
    simp only [sharpeR, e2, if_neg hσ.ne']
  rw [ex]
  refine ⟨rfl, ?_⟩
  rw [e1, sharpe]
  have he : TFNum.eq (Arith.sqrt (Arith.moments (w.map Prod.fst)).2) (Arith.ofRat 0 : α) = false := by
    rw [F.eq_eq, hS1, val_ofRat_zero]
    show decide (S = 0) = false
    exact decide_eq_false hS2.ne'
  rw [he]
  exact hq

example := C70_sharpe (α := F32 ℝ) round32_accurate sqrtRounded32 (p := 14) (M := 1) (by norm_num) (by norm_num) (by norm_num) (by norm_num) (by norm_num) (by norm_num) (by norm_num)

/-- **C70, Sharpe ratio** in binary32. -/
theorem C70_sharpe_binary32 {p : Nat} (hp : 0 < p) (hp' : p < 2 ^ 18) {M : ℝ} (h1 : 2 ^ (-51 : Int) ≤ M) (h2 : M ≤ 2 ^ 50) :
    ApproximatesAt (SharpeRatio (p : Int) : Operator (F32 ℝ)) (SharpeRatio (p : Int) : Operator (XR ℝ)) vSBuf2 finPairs vSBuf finSeries (fun a x => Is M a.1 x.1 ∧ Is M a.2 x.2)
      fun xs a x => let w := window p (xs.map fun z => z.1 - z.2)
        0 < stdDev w → 120 * p * 2 ^ (-24 : Int) * M ≤ stdDev w → x = avg w / stdDev w ∧ Close a x (320 * p * 2 ^ (-24 : Int) * (M / stdDev w) ^ 2) := by
  have hpK : (p : ℝ) + 1 ≤ 2 ^ 18 := by exact_mod_cast hp'
  have hM0 : (0 : ℝ) < 2 ^ (-51 : Int) := by positivity
  have hsq : M ^ 2 ≤ (2 ^ 50) ^ 2 := pow_le_pow_left₀ (by linarith) h2 2
  have hsq' : ((2 : ℝ) ^ (-51 : Int)) ^ 2 ≤ M ^ 2 := pow_le_pow_left₀ hM0.le h1 2
  refine C70_sharpe (α := F32 ℝ) round32_accurate sqrtRounded32 hp (by omega) ?_ ?_ ?_ ?_ ?_
  · norm_num; norm_num at hpK; linarith
  · refine le_trans ?_ h1; norm_num
  · norm_num at hsq' ⊢; linarith
  · norm_num at hpK hsq ⊢; nlinarith [sq_nonneg M]
  · norm_num
example := C70_sharpe_binary32 (p := 14) (by norm_num) (by norm_num) (M := 1) (by norm_num) (by norm_num)
/-- the condition on the deviation holds for two returns 1/10 apart -/
example : 0 < stdDev [(1 : ℝ) / 10, 0] ∧ 120 * (2 : ℕ) * 2 ^ (-24 : Int) * 1 ≤ stdDev [(1 : ℝ) / 10, 0] := by
  have h : stdDev [(1 : ℝ) / 10, 0] = 1 / 20 := by
    rw [stdDev, Real.sqrt_eq_iff_mul_self_eq (by norm_num [variance, avg]) (by norm_num)]
    norm_num [variance, avg]
  rw [h]; norm_num

end TS
