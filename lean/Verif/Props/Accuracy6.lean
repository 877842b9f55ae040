import Verif.Props.Accuracy5
import Verif.Props.Correlation
/-
C70: correlation in floating-point arithmetic.
-/
namespace TS
open PyVal XR FloatArith
set_option linter.unusedSectionVars false
variable {α : Type} [TFNum α] [F : FloatArith α ℝ] {u c Ω : ℝ} {N : Nat}

theorem mean_close (A : Accurate (rnd (α := α)) u c Ω N) {n : Nat} (hn : 0 < n) (hnN : n ≤ N) (hnu : 32 * ((n : ℝ) + 1) * u ≤ 1) {M : ℝ} (hcM : c ≤ M)
    (hΩ : 4 * ((n : ℝ) + 1) * M ≤ Ω) {w : List (α × ℝ)} (hw : w.length = n) (h : ∀ z ∈ w, Is M z.1 z.2) :
    Close (Arith.mean (w.map Prod.fst)) (avg (w.map Prod.snd)) (4 * n * u * M) := by
  have hmean := movingAvg_close A hn hnN hnu hcM hΩ (l := w.reverse) (fun z hz => h z (List.mem_reverse.1 hz))
  have l1 : (w.map Prod.fst).length = n := by rw [List.length_map, hw]
  have l3 : (w.reverse.map Prod.fst).length = n := by simp [hw]
  have l4 : (w.reverse.map Prod.snd).length = n := by simp [hw]
  rw [movingAvg, movingAvgK, l3, l4, if_neg (lt_irrefl _), if_neg (lt_irrefl _)] at hmean
  rw [window_all l3.le, window_all l4.le, List.map_reverse, List.map_reverse, List.reverse_reverse, List.reverse_reverse] at hmean
  rwa [Arith.mean, l1]

/-- A sample minus the rounded mean. -/
theorem centred_close (A : Accurate (rnd (α := α)) u c Ω N) {P M : ℝ} (hP : 1 ≤ P) (hu : 32 * (P + 1) * u ≤ 1) (hcM : c ≤ M) (hΩ : 4 * (P + 1) * M ≤ Ω) {a m : α} {x μ : ℝ}
    (ha : Is M a x) (hm : Close m μ (4 * P * u * M)) (hμ : |μ| ≤ M) : Close (a - m) (x - μ) (8 * (P * u * M)) ∧ |x - μ| ≤ 2 * M := by
  have hu0 := A.u_nonneg
  have hM : 0 ≤ M := A.c_nonneg.trans hcM
  have hx : |x - μ| ≤ 2 * M := (abs_sub _ _).trans (by linarith [ha.2])
  have h1 : 4 * P * u * M ≤ M := by nlinarith
  have h2 : u * M ≤ P * u * M := by nlinarith [mul_nonneg hu0 hM]
  refine ⟨(Close.sub A (X := 2 * M) (Close.exact ha.1) hm hx ?_).mono ?_, hx⟩
  · nlinarith
  · have : u * (2 * M + (0 + 4 * P * u * M) + c) ≤ u * (4 * M) := mul_le_mul_of_nonneg_left (by linarith) hu0
    linarith

/-- The product of two centred samples. -/
theorem product_close (A : Accurate (rnd (α := α)) u c Ω N) {P M L : ℝ} (hP : 1 ≤ P) (hu : 32 * (P + 1) * u ≤ 1) (hM : 0 ≤ M) (hL : 0 ≤ L) (hc : c ≤ M * L) (hΩ : 6 * (M * L) ≤ Ω)
    {a b : α} {x y : ℝ} (ha : Close a x (8 * (P * u * M))) (hb : Close b y (8 * (P * u * L))) (hx : |x| ≤ 2 * M) (hy : |y| ≤ 2 * L) :
    Close (a * b) (x * y) (42 * (P * u * (M * L))) := by
  have hu0 := A.u_nonneg
  have hML : 0 ≤ M * L := mul_nonneg hM hL
  have hPu : 0 ≤ P * u := by positivity
  have hPu2 : P * u ≤ 1 / 32 := by nlinarith
  have e1 : 8 * (P * u * M) * (2 * L) + 2 * M * (8 * (P * u * L)) + 8 * (P * u * M) * (8 * (P * u * L)) = (32 * (P * u) + 64 * (P * u) ^ 2) * (M * L) := by ring
  have h1 : 32 * (P * u) + 64 * (P * u) ^ 2 ≤ 34 * (P * u) := by nlinarith
  have h2 := mul_le_mul_of_nonneg_right h1 hML
  have h3 : 34 * (P * u) * (M * L) ≤ 34 / 32 * (M * L) := mul_le_mul_of_nonneg_right (by linarith) hML
  have e2 : 2 * M * (2 * L) = 4 * (M * L) := by ring
  refine (Close.mul A ha hb hx hy ?_).mono ?_
  · rw [e1, e2]; linarith
  · rw [e1, e2]
    have h4 : u * (4 * (M * L) + (32 * (P * u) + 64 * (P * u) ^ 2) * (M * L) + c) ≤ u * (7 * (M * L)) := mul_le_mul_of_nonneg_left (by linarith) hu0
    have h5 : u * (M * L) ≤ P * (u * (M * L)) := le_mul_of_one_le_left (by positivity) hP
    have h6 : P * (u * (M * L)) = P * u * (M * L) := by ring
    generalize u * (4 * (M * L) + (32 * (P * u) + 64 * (P * u) ^ 2) * (M * L) + c) = X at h4 ⊢
    have h7 : u * (7 * (M * L)) = 7 * (u * (M * L)) := by ring
    have h8 : 34 * (P * u) * (M * L) = 34 * (P * u * (M * L)) := by ring
    rw [h6] at h5
    rw [h8] at h2
    have h9 : 0 ≤ P * u * (M * L) := by positivity
    linarith

/-- The product of the rounded deviations. -/
theorem deviations_close (A : Accurate (rnd (α := α)) u c Ω N) {P M L : ℝ} (hP : 1 ≤ P) (hu : 32 * (P + 1) * u ≤ 1) (hM : 0 ≤ M) (hL : 0 ≤ L) (hc : c ≤ u * (M * L)) (hΩ : 6 * (M * L) ≤ Ω)
    {a b : α} {σ τ : ℝ} (ha : Close a σ (18 * (P * u * M))) (hb : Close b τ (18 * (P * u * L))) (hσ : 0 < σ) (hτ : 0 < τ) (hσM : σ ≤ M) (hτL : τ ≤ L)
    (h1 : 120 * (P * u * M) ≤ σ) (h2 : 120 * (P * u * L) ≤ τ) : ∃ T, val (a * b) = fin T ∧ 3 / 5 * (σ * τ) ≤ T ∧ |T - σ * τ| ≤ 42 * (P * u * (M * L)) := by
  have hu0 := A.u_nonneg
  have hML : 0 ≤ M * L := mul_nonneg hM hL
  have hPu : 0 ≤ P * u := by positivity
  have hu1 : u ≤ 1 / 64 := by nlinarith
  set e := P * u * M with ee
  set f := P * u * L with ef
  have he : 0 ≤ e := by positivity
  have hf : 0 ≤ f := by positivity
  have hq : 0 < σ * τ := by positivity
  have k1 : e * τ ≤ σ * τ / 120 := by nlinarith
  have k2 : σ * f ≤ σ * τ / 120 := by nlinarith
  have k3 : e * f ≤ σ * τ / 14400 := by
    have := mul_le_mul (by linarith : e ≤ σ / 120) (by linarith : f ≤ τ / 120) hf (by positivity)
    linarith
  have k4 : e * τ ≤ P * u * (M * L) := by rw [ee]; nlinarith [mul_le_mul_of_nonneg_left hτL he]
  have k5 : σ * f ≤ P * u * (M * L) := by rw [ef]; nlinarith [mul_le_mul_of_nonneg_right hσM hf]
  have k6 : e * f ≤ P * u * (M * L) / 120 := by
    have := mul_le_mul_of_nonneg_left (by linarith : f ≤ L / 120) he
    have h : e * (L / 120) = P * u * (M * L) / 120 := by rw [ee]; ring
    linarith
  have k7 : σ * τ ≤ M * L := mul_le_mul hσM hτL hτ.le hM
  have k8 : u * (σ * τ) ≤ P * u * (M * L) := by
    have a1 := mul_le_mul_of_nonneg_left k7 hu0
    have a2 : u * (M * L) ≤ P * (u * (M * L)) := le_mul_of_one_le_left (by positivity) hP
    linarith
  have k9 : u * c ≤ e * f := by
    have a1 := mul_le_mul_of_nonneg_left hc hu0
    have a2 : u * (u * (M * L)) ≤ P * (P * (u * (u * (M * L)))) := by
      have : 0 ≤ u * (u * (M * L)) := by positivity
      have := le_mul_of_one_le_left this hP
      exact this.trans (le_mul_of_one_le_left (by positivity) hP)
    have : e * f = P * (P * (u * (u * (M * L)))) := by rw [ee, ef]; ring
    linarith
  set Δ := 18 * e * τ + σ * (18 * f) + 18 * e * (18 * f) with eΔ
  have hΔ : Δ = 18 * (e * τ) + 18 * (σ * f) + 324 * (e * f) := by rw [eΔ]; ring
  have hΔ0 : 0 ≤ Δ := by rw [eΔ]; positivity
  obtain ⟨T, hT1, hT2⟩ := Close.mul A (d := 18 * e) (e := 18 * f) (X := σ) (Y := τ) ha hb (abs_of_pos hσ).le (abs_of_pos hτ).le (by rw [← eΔ]; linarith)
  rw [← eΔ] at hT2
  have hb1 : u * (σ * τ + Δ + c) ≤ u * (σ * τ) + Δ / 64 + e * f := by
    have : u * Δ ≤ 1 / 64 * Δ := mul_le_mul_of_nonneg_right hu1 hΔ0
    linarith
  have hb2 : u * (σ * τ) ≤ 1 / 64 * (σ * τ) := mul_le_mul_of_nonneg_right hu1 hq.le
  refine ⟨T, hT1, ?_, ?_⟩
  · have := (abs_le.1 hT2).1
    linarith
  · linarith

/-- A quotient near another one. -/
theorem corr_quot {C κ T τ e : ℝ} (hC : |C - κ| ≤ 66 * e) (hT : |T - τ| ≤ 42 * e) (hτ : 0 < τ) (hT' : 3 / 5 * τ ≤ T) (hκ : |κ| ≤ τ) : |C / T - κ / τ| ≤ 180 * (e / τ) := by
  have hTp : 0 < T := by linarith
  have e1 : C / T - κ / τ = ((C - κ) * τ - κ * (T - τ)) / (T * τ) := by field_simp; ring
  have he : 0 ≤ e := by have := abs_nonneg (T - τ); linarith
  have h1 : |(C - κ) * τ - κ * (T - τ)| ≤ 108 * e * τ := by
    refine (abs_sub _ _).trans ?_
    rw [abs_mul, abs_mul, abs_of_pos hτ]
    have a1 := mul_le_mul_of_nonneg_right hC hτ.le
    have a2 := mul_le_mul hκ hT (abs_nonneg _) hτ.le
    linarith
  rw [e1, abs_div, abs_of_pos (by positivity : 0 < T * τ), div_le_iff₀ (by positivity)]
  have e2 : 180 * (e / τ) * (T * τ) = 180 * e * T := by field_simp
  rw [e2]
  nlinarith

/-- A rounded quotient near a correlation coefficient. -/
theorem corr_round (A : Accurate (rnd (α := α)) u c Ω N) {P M L : ℝ} (hP : 1 ≤ P) (hu : 32 * (P + 1) * u ≤ 1) (huΩ : 1 ≤ u * Ω) (hM : 0 ≤ M) (hL : 0 ≤ L)
    {a b : α} {κ σ τ T : ℝ} (ha : Close a κ (66 * (P * u * (M * L)))) (hb : val b = fin T) (hT : |T - σ * τ| ≤ 42 * (P * u * (M * L))) (hT' : 3 / 5 * (σ * τ) ≤ T)
    (hσ : 0 < σ) (hτ : 0 < τ) (hσM : σ ≤ M) (hτL : τ ≤ L) (h1 : 120 * (P * u * M) ≤ σ) (h2 : 120 * (P * u * L) ≤ τ) (hκ : |κ| ≤ σ * τ) :
    Close (a / b) (κ / (σ * τ)) (200 * P * u * (M / σ) * (L / τ)) := by
  have hu0 := A.u_nonneg
  have hq : 0 < σ * τ := by positivity
  have hTp : 0 < T := by linarith
  obtain ⟨C, ha1, ha2⟩ := ha
  have hqt := corr_quot ha2 hT hq hT' hκ
  have hv : val (a / b) = rnd (α := α) (fin (C / T)) := by
    rw [F.div_eq _ _ (by rw [hb]; simpa using hTp.ne'), ha1, hb]
    exact congrArg _ (XR.fin_div _ _ hTp.ne')
  have hρ : |κ / (σ * τ)| ≤ 1 := by rw [abs_div, abs_of_pos hq]; exact (div_le_one hq).2 hκ
  have hu1 : u ≤ 1 / 64 := by nlinarith
  set t := P * u * (M * L) / (σ * τ) with et
  have hgoal : 200 * P * u * (M / σ) * (L / τ) = 200 * t := by rw [et]; field_simp
  have hut : u ≤ t := by
    rw [et, le_div_iff₀ hq]
    have a1 := mul_le_mul_of_nonneg_left (mul_le_mul hσM hτL hτ.le hM) hu0
    have a2 : u * (M * L) ≤ P * (u * (M * L)) := le_mul_of_one_le_left (by positivity) hP
    linarith
  -- 14400 P u t ≤ 1
  have ht0 : 0 ≤ t := hu0.trans hut
  have hPut : 14400 * (P * u * t) ≤ 1 := by
    have a1 := mul_le_mul h1 h2 (by positivity) hσ.le
    rw [et, ← mul_div_assoc, ← mul_div_assoc, div_le_one hq]
    linarith
  have hut2 : 14400 * (u * t) ≤ 1 := by
    have : u * t ≤ P * (u * t) := le_mul_of_one_le_left (by positivity) hP
    linarith
  have hu' : 0 < u := by
    rcases hu0.eq_or_lt with h | h
    · rw [← h] at huΩ; norm_num at huΩ
    · exact h
  have hΩ : 1 + 180 * t ≤ Ω := by
    have : u * (1 + 180 * t) ≤ u * Ω := by linarith
    exact le_of_mul_le_mul_left this hu'
  rw [hgoal]
  refine (A.round hv hqt hρ hΩ).mono ?_
  have hc := A.c_le
  have h5 : u * (1 + 180 * t + c) ≤ u + 180 / 64 * t + u * c := by
    have := mul_le_mul_of_nonneg_right hu1 ht0
    linarith
  have h6 : u * c ≤ 1 / 64 * u := by
    have := mul_le_mul_of_nonneg_right hu1 hu0
    have := mul_le_mul_of_nonneg_left hc hu0
    linarith
  linarith

/-- Pearson's coefficient of `p` pairs. -/
theorem pearson_close (A : Accurate (rnd (α := α)) u c Ω N) (Q : SqrtRounded α ℝ Real.sqrt) {p : Nat} (hp : 0 < p) (hpN : p ≤ N) (hpu : 32 * ((p : ℝ) + 1) * u ≤ 1) {M L : ℝ} (hcM : c ≤ M) (hcL : c ≤ L)
    (hcM2 : c ≤ u * M ^ 2) (hcL2 : c ≤ u * L ^ 2) (hΩM : 32 * ((p : ℝ) + 1) * (M ^ 2 + 1) ≤ Ω) (hΩL : 32 * ((p : ℝ) + 1) * (L ^ 2 + 1) ≤ Ω) (huΩ : 1 ≤ u * Ω)
    {v : List ((α × α) × (ℝ × ℝ))} (hv : v.length = p) (h : ∀ z ∈ v, Is M z.1.1 z.2.1 ∧ Is L z.1.2 z.2.2)
    (hσ : 0 < stdDev (v.map fun z => z.2.1)) (hτ : 0 < stdDev (v.map fun z => z.2.2)) (h1 : 120 * p * u * M ≤ stdDev (v.map fun z => z.2.1)) (h2 : 120 * p * u * L ≤ stdDev (v.map fun z => z.2.2)) :
    Close (pearson (v.map fun z => z.1.1) (v.map fun z => z.1.2)) (correlation (v.map Prod.snd))
      (200 * p * u * (M / stdDev (v.map fun z => z.2.1)) * (L / stdDev (v.map fun z => z.2.2))) := by
  have hu := A.u_nonneg
  have hc := A.c_nonneg
  have hM : 0 ≤ M := hc.trans hcM
  have hL : 0 ≤ L := hc.trans hcL
  have hML : 0 ≤ M * L := mul_nonneg hM hL
  have hp1 : (1 : ℝ) ≤ p := by exact_mod_cast hp
  have hv0 : v ≠ [] := by rintro rfl; simp at hv; omega
  have hu1 : u ≤ 1 / 64 := by nlinarith
  have hMM : M ≤ M ^ 2 + 1 := by nlinarith [sq_nonneg (M - 1 / 2)]
  have hLL : L ≤ L ^ 2 + 1 := by nlinarith [sq_nonneg (L - 1 / 2)]
  have hΩM1 : 4 * ((p : ℝ) + 1) * M ≤ Ω := le_trans (by nlinarith [sq_nonneg M]) hΩM
  have hΩL1 : 4 * ((p : ℝ) + 1) * L ≤ Ω := le_trans (by nlinarith [sq_nonneg L]) hΩL
  have hML2 : 2 * (M * L) ≤ M ^ 2 + L ^ 2 := by nlinarith [sq_nonneg (M - L)]
  have hΩ24 : 4 * ((p : ℝ) + 1) * (6 * (M * L)) ≤ Ω := by
    have := mul_le_mul_of_nonneg_left hML2 (by positivity : 0 ≤ 12 * ((p : ℝ) + 1))
    nlinarith [sq_nonneg M, sq_nonneg L]
  have hΩ6 : 6 * (M * L) ≤ Ω := le_trans (by nlinarith) hΩ24
  have hcML : c ≤ u * (M * L) := by
    have a := mul_le_mul hcM2 hcL2 hc (by positivity)
    have e : u * M ^ 2 * (u * L ^ 2) = (u * (M * L)) ^ 2 := by ring
    rw [e, ← pow_two] at a
    exact le_of_sq_le_sq a (by positivity)
  have hcML1 : c ≤ M * L := hcML.trans (by nlinarith)
  -- the two columns
  set wx : List (α × ℝ) := v.map fun z => (z.1.1, z.2.1) with ewx
  set wy : List (α × ℝ) := v.map fun z => (z.1.2, z.2.2) with ewy
  have lx : wx.length = p := by simp [ewx, hv]
  have ly : wy.length = p := by simp [ewy, hv]
  have ix : ∀ z ∈ wx, Is M z.1 z.2 := by
    simp only [ewx, List.mem_map]; rintro _ ⟨z, hz, rfl⟩; exact (h z hz).1
  have iy : ∀ z ∈ wy, Is L z.1 z.2 := by
    simp only [ewy, List.mem_map]; rintro _ ⟨z, hz, rfl⟩; exact (h z hz).2
  have x1 : wx.map Prod.fst = v.map fun z => z.1.1 := by simp [ewx, Function.comp_def]
  have x2 : wx.map Prod.snd = v.map fun z => z.2.1 := by simp [ewx, Function.comp_def]
  have y1 : wy.map Prod.fst = v.map fun z => z.1.2 := by simp [ewy, Function.comp_def]
  have y2 : wy.map Prod.snd = v.map fun z => z.2.2 := by simp [ewy, Function.comp_def]
  have mx := mean_close A hp hpN hpu hcM hΩM1 lx ix
  have my := mean_close A hp hpN hpu hcL hΩL1 ly iy
  have sx := std_close A Q hp hpN hpu hcM hcM2 hΩM1 hΩM lx ix mx
  have sy := std_close A Q hp hpN hpu hcL hcL2 hΩL1 hΩL ly iy my
  rw [x1, x2] at mx sx
  rw [y1, y2] at my sy
  set X := v.map fun z => z.1.1 with eX
  set Y := v.map fun z => z.1.2 with eY
  set μ := avg (v.map fun z => z.2.1) with eμ
  set ν := avg (v.map fun z => z.2.2) with eν
  set σ := stdDev (v.map fun z => z.2.1) with eσ
  set τ := stdDev (v.map fun z => z.2.2) with eτ
  have hμ : |μ| ≤ M := by
    rw [abs_le]
    exact avg_between (by simpa using hv0) (by simp only [List.mem_map]; rintro _ ⟨z, hz, rfl⟩; exact abs_le.1 (h z hz).1.2)
  have hν : |ν| ≤ L := by
    rw [abs_le]
    exact avg_between (by simpa using hv0) (by simp only [List.mem_map]; rintro _ ⟨z, hz, rfl⟩; exact abs_le.1 (h z hz).2.2)
  -- the products
  have hprod : ∀ z ∈ v, Close ((z.1.1 - Arith.mean X) * (z.1.2 - Arith.mean Y)) ((z.2.1 - μ) * (z.2.2 - ν)) (42 * (p * u * (M * L))) ∧ |(z.2.1 - μ) * (z.2.2 - ν)| ≤ 4 * (M * L) := by
    intro z hz
    obtain ⟨a1, a2⟩ := centred_close A hp1 hpu hcM hΩM1 (h z hz).1 mx hμ
    obtain ⟨b1, b2⟩ := centred_close A hp1 hpu hcL hΩL1 (h z hz).2 my hν
    refine ⟨product_close A hp1 hpu hM hL hcML1 hΩ6 a1 b1 a2 b2, ?_⟩
    rw [abs_mul]
    exact (mul_le_mul a2 b2 (abs_nonneg _) (by linarith)).trans (by linarith)
  set r : (α × α) × (ℝ × ℝ) → ℝ := fun z => numOf (val ((z.1.1 - Arith.mean X) * (z.1.2 - Arith.mean Y))) with er
  have hr : ∀ z ∈ v, val ((z.1.1 - Arith.mean X) * (z.1.2 - Arith.mean Y)) = fin (r z) ∧ |r z - (z.2.1 - μ) * (z.2.2 - ν)| ≤ 42 * (p * u * (M * L)) := by
    intro z hz
    obtain ⟨⟨y, k1, k2⟩, -⟩ := hprod z hz
    simp only [er, k1]
    exact ⟨rfl, k2⟩
  have hpuML : p * u * (M * L) ≤ 1 / 32 * (M * L) := mul_le_mul_of_nonneg_right (by nlinarith) hML
  have hr6 : ∀ z ∈ v, |r z| ≤ 6 * (M * L) := by
    intro z hz
    have k := abs_add_le ((z.2.1 - μ) * (z.2.2 - ν)) (r z - (z.2.1 - μ) * (z.2.2 - ν))
    rw [add_sub_cancel] at k
    linarith [(hr z hz).2, (hprod z hz).2]
  set w : List (α × ℝ) := v.map fun z => ((z.1.1 - Arith.mean X) * (z.1.2 - Arith.mean Y), r z) with ew
  have lw : w.length = p := by simp [ew, hv]
  have iw : ∀ z ∈ w, Is (6 * (M * L)) z.1 z.2 := by
    simp only [ew, List.mem_map]; rintro _ ⟨z, hz, rfl⟩; exact ⟨(hr z hz).1, hr6 z hz⟩
  have mw := mean_close A hp hpN hpu (hcML1.trans (by linarith)) hΩ24 lw iw
  have w1 : w.map Prod.fst = List.zipWith (fun a b => (a - Arith.mean X) * (b - Arith.mean Y)) X Y := by
    rw [eX, eY, zipWith_maps, ew, List.map_map]; rfl
  have w2 : w.map Prod.snd = v.map r := by simp [ew, Function.comp_def]
  rw [w1, w2] at mw
  have ecov : covariance (v.map Prod.snd) = avg (v.map fun z => (z.2.1 - μ) * (z.2.2 - ν)) := by
    rw [covariance, List.map_map, List.map_map, List.map_map]; rfl
  have hcov := avg_near hv0 fun z hz => (hr z hz).2
  rw [← ecov] at hcov
  have hC : Close (Arith.mean (List.zipWith (fun a b => (a - Arith.mean X) * (b - Arith.mean Y)) X Y)) (covariance (v.map Prod.snd)) (66 * (p * u * (M * L))) :=
    (mw.of (y := covariance (v.map Prod.snd))).mono (by linarith)
  obtain ⟨T, t1, t2, t3⟩ := deviations_close A hp1 hpu hM hL hcML hΩ6 (sx.1.mono (e := 18 * (p * u * M)) (by linarith)) (sy.1.mono (e := 18 * (p * u * L)) (by linarith)) hσ hτ
    ((le_abs_self _).trans sx.2) ((le_abs_self _).trans sy.2) (by linarith) (by linarith)
  have s1 : (v.map Prod.snd).map Prod.fst = v.map fun z => z.2.1 := by simp [Function.comp_def]
  have s2 : (v.map Prod.snd).map Prod.snd = v.map fun z => z.2.2 := by simp [Function.comp_def]
  have hκ : |covariance (v.map Prod.snd)| ≤ σ * τ := by
    have k := covariance_sq_le (v.map Prod.snd)
    rw [s1, s2] at k
    rw [eσ, eτ, stdDev, stdDev, ← Real.sqrt_mul (variance_nonneg _)]
    exact Real.abs_le_sqrt k
  have := corr_round A hp1 hpu huΩ hM hL hC t1 t3 t2 hσ hτ ((le_abs_self _).trans sx.2) ((le_abs_self _).trans sy.2) (by linarith) (by linarith) hκ
  rw [correlation, s1, s2]
  exact this

theorem corr_reals {p : Nat} (hp : 0 < p) : StreamsAs (Correlation (p : Int) : Operator (XR ℝ)) finPairs vSBuf (fun h => corrOf p (h.map (Prod.map XR.fin XR.fin))) := by
  have := (C41_correlation_scalar (α := XR ℝ) hp).comap (y' := fun h => corrOf p (h.map (Prod.map XR.fin XR.fin))) (Prod.map XR.fin XR.fin) id (fun l hl => rfl)
  simp only [← finPairs_eq, List.map_id_fun, id] at this
  exact this

/-- the coefficient of a history of pairs in both arithmetics -/
theorem corrOf_close (A : Accurate (rnd (α := α)) u c Ω N) (Q : SqrtRounded α ℝ Real.sqrt) {p : Nat} (hp : 0 < p) (hpN : p ≤ N) (hpu : 32 * ((p : ℝ) + 1) * u ≤ 1) {M L : ℝ} (hcM : c ≤ M) (hcL : c ≤ L)
    (hcM2 : c ≤ u * M ^ 2) (hcL2 : c ≤ u * L ^ 2) (hΩM : 32 * ((p : ℝ) + 1) * (M ^ 2 + 1) ≤ Ω) (hΩL : 32 * ((p : ℝ) + 1) * (L ^ 2 + 1) ≤ Ω) (huΩ : 1 ≤ u * Ω)
    {l : List ((α × α) × (ℝ × ℝ))} (h : ∀ z ∈ l, Is M z.1.1 z.2.1 ∧ Is L z.1.2 z.2.2) :
    (l.length ≤ p → val (corrOf p (l.map Prod.fst)) = fin 0 ∧ corrOf p ((l.map Prod.snd).map (Prod.map XR.fin XR.fin)) = (fin 0 : XR ℝ)) ∧
      (p < l.length → let w := window p (l.map Prod.snd)
        0 < stdDev (w.map Prod.fst) → 0 < stdDev (w.map Prod.snd) → 120 * p * u * M ≤ stdDev (w.map Prod.fst) → 120 * p * u * L ≤ stdDev (w.map Prod.snd) →
        corrOf p ((l.map Prod.snd).map (Prod.map XR.fin XR.fin)) = fin (correlation w) ∧
        Close (corrOf p (l.map Prod.fst)) (correlation w) (200 * p * u * (M / stdDev (w.map Prod.fst)) * (L / stdDev (w.map Prod.snd)))) := by
  refine ⟨fun hlen => ?_, fun hlen => ?_⟩
  · rw [corrOf, corrOf, if_pos (by simpa using hlen), if_pos (by simpa using hlen)]
    exact ⟨val_ofRat_zero, by simp⟩
  · simp only
    intro hσ hτ h1 h2
    have e1 : window p (l.map Prod.snd) = (window p l).map Prod.snd := window_map _ _ _
    have e2 : (window p (l.map Prod.snd)).map Prod.fst = (window p l).map fun z => z.2.1 := by rw [e1, List.map_map]; rfl
    have e3 : (window p (l.map Prod.snd)).map Prod.snd = (window p l).map fun z => z.2.2 := by rw [e1, List.map_map]; rfl
    rw [e2] at hσ h1 ⊢
    rw [e3] at hτ h2 ⊢
    have := pearson_close A Q hp hpN hpu hcM hcL hcM2 hcL2 hΩM hΩL huΩ (v := window p l) (by rw [window_length]; omega) (fun z hz => h z (mem_of_mem_window hz)) hσ hτ h1 h2
    have n1 : ¬ (l.map Prod.fst).length ≤ p := by simpa using hlen
    have n2 : ¬ ((l.map Prod.snd).map (Prod.map XR.fin XR.fin : ℝ × ℝ → XR ℝ × XR ℝ)).length ≤ p := by simpa using hlen
    rw [corrOf, corrOf, if_neg n1, if_neg n2]
    constructor
    · rw [← pearson_varies (l := window p (l.map Prod.snd))]
      · simp only [List.map_map, Function.comp_def, window_map, Prod.map]
      · rw [varies_iff, e2]; intro h0; rw [stdDev, h0, Real.sqrt_zero] at hσ; exact lt_irrefl _ hσ
      · rw [varies_iff, e3]; intro h0; rw [stdDev, h0, Real.sqrt_zero] at hτ; exact lt_irrefl _ hτ
    · rw [e1]
      have f1 : window p ((l.map Prod.fst).map Prod.fst) = (window p l).map fun z => z.1.1 := by rw [List.map_map, window_map]; rfl
      have f2 : window p ((l.map Prod.fst).map Prod.snd) = (window p l).map fun z => z.1.2 := by rw [List.map_map, window_map]; rfl
      rw [f1, f2]
      exact this

/-- **C70, correlation** of numbers up to `M` and `L` in size: zero for the first `p` pairs; after that, whenever the deviations `σ` and `τ` of the last `p` numbers are positive and at least
`120 p u M` and `120 p u L`, the output is the coefficient up to `200 p u (M / σ) (L / τ)`. -/
theorem C70_correlation (A : Accurate (rnd (α := α)) u c Ω N) (Q : SqrtRounded α ℝ Real.sqrt) {p : Nat} (hp : 0 < p) (hpN : p ≤ N) (hpu : 32 * ((p : ℝ) + 1) * u ≤ 1) {M L : ℝ} (hcM : c ≤ M) (hcL : c ≤ L)
    (hcM2 : c ≤ u * M ^ 2) (hcL2 : c ≤ u * L ^ 2) (hΩM : 32 * ((p : ℝ) + 1) * (M ^ 2 + 1) ≤ Ω) (hΩL : 32 * ((p : ℝ) + 1) * (L ^ 2 + 1) ≤ Ω) (huΩ : 1 ≤ u * Ω) :
    ApproximatesAt (Correlation (p : Int) : Operator α) (Correlation (p : Int) : Operator (XR ℝ)) vSBuf2 finPairs vSBuf vSBuf (fun a x => Is M a.1 x.1 ∧ Is L a.2 x.2)
      fun zs a x => (zs.length ≤ p → val a = fin 0 ∧ x = fin 0) ∧
        (p < zs.length → let w := window p zs
          0 < stdDev (w.map Prod.fst) → 0 < stdDev (w.map Prod.snd) → 120 * p * u * M ≤ stdDev (w.map Prod.fst) → 120 * p * u * L ≤ stdDev (w.map Prod.snd) →
          x = fin (correlation w) ∧ Close a (correlation w) (200 * p * u * (M / stdDev (w.map Prod.fst)) * (L / stdDev (w.map Prod.snd)))) := by
  refine (C41_correlation_scalar hp).approximatesAt (corr_reals hp) fun l _ h => ?_
  have := corrOf_close A Q hp hpN hpu hcM hcL hcM2 hcL2 hΩM hΩL huΩ h
  rwa [← List.length_map (f := Prod.snd) (as := l)] at this

example := C70_correlation (α := F32 ℝ) round32_accurate sqrtRounded32 (p := 14) (M := 1) (L := 2) (by norm_num) (by norm_num) (by norm_num) (by norm_num) (by norm_num) (by norm_num) (by norm_num)
  (by norm_num) (by norm_num) (by norm_num)

/-- **C70, correlation** in binary32. -/
theorem C70_correlation_binary32 {p : Nat} (hp : 0 < p) (hp' : p < 2 ^ 18) {M L : ℝ} (h1 : 2 ^ (-51 : Int) ≤ M) (h2 : M ≤ 2 ^ 50) (h3 : 2 ^ (-51 : Int) ≤ L) (h4 : L ≤ 2 ^ 50) :
    ApproximatesAt (Correlation (p : Int) : Operator (F32 ℝ)) (Correlation (p : Int) : Operator (XR ℝ)) vSBuf2 finPairs vSBuf vSBuf (fun a x => Is M a.1 x.1 ∧ Is L a.2 x.2)
      fun zs a x => (zs.length ≤ p → val a = fin 0 ∧ x = fin 0) ∧
        (p < zs.length → let w := window p zs
          0 < stdDev (w.map Prod.fst) → 0 < stdDev (w.map Prod.snd) → 120 * p * 2 ^ (-24 : Int) * M ≤ stdDev (w.map Prod.fst) → 120 * p * 2 ^ (-24 : Int) * L ≤ stdDev (w.map Prod.snd) →
          x = fin (correlation w) ∧ Close a (correlation w) (200 * p * 2 ^ (-24 : Int) * (M / stdDev (w.map Prod.fst)) * (L / stdDev (w.map Prod.snd)))) := by
  have hpK : (p : ℝ) + 1 ≤ 2 ^ 18 := by exact_mod_cast hp'
  have hM0 : (0 : ℝ) < 2 ^ (-51 : Int) := by positivity
  have hsq : M ^ 2 ≤ (2 ^ 50) ^ 2 := pow_le_pow_left₀ (by linarith) h2 2
  have hsq' : ((2 : ℝ) ^ (-51 : Int)) ^ 2 ≤ M ^ 2 := pow_le_pow_left₀ hM0.le h1 2
  have hsl : L ^ 2 ≤ (2 ^ 50) ^ 2 := pow_le_pow_left₀ (by linarith) h4 2
  have hsl' : ((2 : ℝ) ^ (-51 : Int)) ^ 2 ≤ L ^ 2 := pow_le_pow_left₀ hM0.le h3 2
  refine C70_correlation (α := F32 ℝ) round32_accurate sqrtRounded32 hp (by omega) ?_ ?_ ?_ ?_ ?_ ?_ ?_ ?_
  · norm_num; norm_num at hpK; linarith
  · refine le_trans ?_ h1; norm_num
  · refine le_trans ?_ h3; norm_num
  · norm_num at hsq' ⊢; linarith
  · norm_num at hsl' ⊢; linarith
  · norm_num at hpK hsq ⊢; nlinarith [sq_nonneg M]
  · norm_num at hpK hsl ⊢; nlinarith [sq_nonneg L]
  · norm_num
example := C70_correlation_binary32 (p := 14) (by norm_num) (by norm_num) (M := 1) (L := 2) (by norm_num) (by norm_num) (by norm_num) (by norm_num)
/-- the conditions on the deviations hold for two pairs whose numbers are 1/10 apart -/
example : let w := [((1 : ℝ) / 10, (0 : ℝ)), (0, 1 / 10)]
    0 < stdDev (w.map Prod.fst) ∧ 0 < stdDev (w.map Prod.snd) ∧ 120 * (2 : ℕ) * 2 ^ (-24 : Int) * 1 ≤ stdDev (w.map Prod.fst) ∧ 120 * (2 : ℕ) * 2 ^ (-24 : Int) * 2 ≤ stdDev (w.map Prod.snd) := by
  have h : stdDev [(1 : ℝ) / 10, 0] = 1 / 20 := by
    rw [stdDev, Real.sqrt_eq_iff_mul_self_eq (by norm_num [variance, avg]) (by norm_num)]
    norm_num [variance, avg]
  have h' : stdDev [(0 : ℝ), 1 / 10] = 1 / 20 := by
    rw [stdDev, Real.sqrt_eq_iff_mul_self_eq (by norm_num [variance, avg]) (by norm_num)]
    norm_num [variance, avg]
  simp only [List.map_cons, List.map_nil]
  rw [h, h']; norm_num

end TS
