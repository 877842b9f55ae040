import Verif.Props.Accuracy7
/-
C70: skewness in floating-point arithmetic.
-/
namespace TS
open PyVal XR FloatArith
set_option linter.unusedSectionVars false
variable {α : Type} [TFNum α] [F : FloatArith α ℝ] {u c Ω : ℝ} {N : Nat}

/-! ### operations on numbers with errors measured in a unit -/

section
variable (A : Accurate (rnd (α := α)) u c Ω N) {ε : ℝ} (hε : u ≤ ε) (hε' : ε ≤ 1 / 32)
include A hε hε'

/-- Rounding, with the error measured in units of `ε B`. -/
theorem round_scaled {B : ℝ} (hB : 0 ≤ B) (hc : c ≤ B) {a : α} {r x k X : ℝ} (hk : 0 ≤ k) (hX : 0 ≤ X) (hv : val a = rnd (α := α) (fin r)) (hr : |r - x| ≤ k * (ε * B)) (hx : |x| ≤ X * B)
    (hΩ : (X + k / 32) * B ≤ Ω) : Close a x ((k + (X + k / 32 + 1)) * (ε * B)) := by
  have hu := A.u_nonneg
  have hε0 : 0 ≤ ε := hu.trans hε
  have h1 : k * (ε * B) ≤ k / 32 * B := by
    have := mul_le_mul_of_nonneg_right hε' (mul_nonneg hk hB)
    linarith
  refine (A.round hv hr hx (by linarith)).mono ?_
  have h2 : X * B + k * (ε * B) + c ≤ (X + k / 32 + 1) * B := by linarith
  have h3 := mul_le_mul_of_nonneg_left h2 hu
  have h4 : u * ((X + k / 32 + 1) * B) ≤ ε * ((X + k / 32 + 1) * B) := mul_le_mul_of_nonneg_right hε (by positivity)
  linarith

theorem sub_scaled {B : ℝ} (hB : 0 ≤ B) (hc : c ≤ B) {a b : α} {x y k l X : ℝ} (hk : 0 ≤ k) (hl : 0 ≤ l) (hX : 0 ≤ X) (ha : Close a x (k * (ε * B))) (hb : Close b y (l * (ε * B)))
    (hx : |x - y| ≤ X * B) (hΩ : (X + (k + l) / 32) * B ≤ Ω) : Close (a - b) (x - y) ((k + l + (X + (k + l) / 32 + 1)) * (ε * B)) := by
  obtain ⟨r, h1, h2⟩ := ha
  obtain ⟨t, h3, h4⟩ := hb
  refine round_scaled A hε hε' hB hc (by positivity) hX (r := r - t) (by rw [F.sub_eq, h1, h3]; simp [XR.add, XR.neg, sub_eq_add_neg]) ?_ hx hΩ
  have e : r - t - (x - y) = (r - x) - (t - y) := by ring
  rw [e]
  exact (abs_sub _ _).trans (by linarith)

theorem mul_scaled {B C : ℝ} (hB : 0 ≤ B) (hC : 0 ≤ C) (hc : c ≤ B * C) {a b : α} {x y k l X Y : ℝ} (hk : 0 ≤ k) (hl : 0 ≤ l) (hX : 0 ≤ X) (hY : 0 ≤ Y) (ha : Close a x (k * (ε * B)))
    (hb : Close b y (l * (ε * C))) (hx : |x| ≤ X * B) (hy : |y| ≤ Y * C) (hΩ : (X * Y + (k * Y + X * l + k * l / 32) / 32) * (B * C) ≤ Ω) :
    Close (a * b) (x * y) ((k * Y + X * l + k * l / 32 + (X * Y + (k * Y + X * l + k * l / 32) / 32 + 1)) * (ε * (B * C))) := by
  have hε0 : 0 ≤ ε := A.u_nonneg.trans hε
  obtain ⟨r, h1, h2⟩ := ha
  obtain ⟨t, h3, h4⟩ := hb
  refine round_scaled A hε hε' (mul_nonneg hB hC) hc (by positivity) (by positivity) (r := r * t) (by rw [F.mul_eq, h1, h3]; rfl) ?_ ?_ hΩ
  · have e : r * t - x * y = (r - x) * y + x * (t - y) + (r - x) * (t - y) := by ring
    have a1 : |(r - x) * y| ≤ k * (ε * B) * (Y * C) := by rw [abs_mul]; exact mul_le_mul h2 hy (abs_nonneg _) (by positivity)
    have a2 : |x * (t - y)| ≤ X * B * (l * (ε * C)) := by rw [abs_mul]; exact mul_le_mul hx h4 (abs_nonneg _) (by positivity)
    have a3 : |(r - x) * (t - y)| ≤ k * (ε * B) * (l * (ε * C)) := by rw [abs_mul]; exact mul_le_mul h2 h4 (abs_nonneg _) (by positivity)
    have a4 : k * (ε * B) * (l * (ε * C)) ≤ k * l / 32 * (ε * (B * C)) := by
      have := mul_le_mul_of_nonneg_right hε' (by positivity : 0 ≤ k * l * (ε * (B * C)))
      linarith
    rw [e]
    refine (abs_add_le _ _).trans ?_
    have := abs_add_le ((r - x) * y) (x * (t - y))
    linarith
  · rw [abs_mul]
    have := mul_le_mul hx hy (abs_nonneg _) (by positivity)
    linarith

variable (W : PowRounded α ℝ)
include W

/-- The square of a rounded number. -/
theorem sq_scaled {B : ℝ} (hB : 0 ≤ B) (hc : c ≤ B ^ 2) (hΩ : 3 * B ^ 2 ≤ Ω) {a : α} {x : ℝ} (ha : Close a x (18 * (ε * B))) (hx : |x| ≤ B) : Close (Arith.pow a 2) (x ^ 2) (50 * (ε * B ^ 2)) := by
  have hε0 : 0 ≤ ε := A.u_nonneg.trans hε
  obtain ⟨r, h1, h2⟩ := ha
  have hB2 := sq_nonneg B
  have h3 : |r - x| ≤ 9 / 16 * B := h2.trans (by have := mul_le_mul_of_nonneg_right hε' hB; linarith)
  refine (round_scaled A hε hε' hB2 hc (k := 46.2) (X := 1) (by norm_num) (by norm_num) (W a r 2 h1) ?_ ?_ ?_).mono ?_
  · have e : r ^ 2 - x ^ 2 = (r - x) * (2 * x + (r - x)) := by ring
    have h4 : |2 * x + (r - x)| ≤ 41 / 16 * B := by
      have := abs_add_le (2 * x) (r - x)
      rw [abs_mul, abs_of_pos (by norm_num : (0 : ℝ) < 2)] at this
      linarith
    have h5 := mul_le_mul h2 h4 (abs_nonneg _) (by positivity)
    have h6 : 0 ≤ ε * B ^ 2 := by positivity
    rw [e, abs_mul]
    linarith
  · rw [abs_pow, one_mul]; exact pow_le_pow_left₀ (abs_nonneg _) hx 2
  · linarith
  · have h6 : 0 ≤ ε * B ^ 2 := by positivity
    linarith

/-- The cube of a rounded number. -/
theorem cube_scaled {B : ℝ} (hB : 0 ≤ B) (hc : c ≤ B ^ 3) (hΩ : 2 * B ^ 3 ≤ Ω) {a : α} {x : ℝ} (ha : Close a x (4 * (ε * B))) (hx : |x| ≤ B) : Close (Arith.pow a 3) (x ^ 3) (17 * (ε * B ^ 3)) := by
  have hε0 : 0 ≤ ε := A.u_nonneg.trans hε
  obtain ⟨r, h1, h2⟩ := ha
  have hB3 : 0 ≤ B ^ 3 := by positivity
  have h3 : |r - x| ≤ 1 / 8 * B := h2.trans (by have := mul_le_mul_of_nonneg_right hε' hB; linarith)
  have h6 : 0 ≤ ε * B ^ 3 := by positivity
  refine (round_scaled A hε hε' hB3 hc (k := 14) (X := 1) (by norm_num) (by norm_num) (W a r 3 h1) ?_ ?_ ?_).mono ?_
  · have e : r ^ 3 - x ^ 3 = (r - x) * (3 * x ^ 2 + 3 * x * (r - x) + (r - x) ^ 2) := by ring
    have h4 : |3 * x ^ 2 + 3 * x * (r - x) + (r - x) ^ 2| ≤ 7 / 2 * B ^ 2 := by
      have a1 : |3 * x ^ 2| ≤ 3 * B ^ 2 := by
        rw [abs_mul, abs_of_pos (by norm_num : (0 : ℝ) < 3), abs_pow]
        have := pow_le_pow_left₀ (abs_nonneg _) hx 2
        linarith
      have a2 : |3 * x * (r - x)| ≤ 3 * (B * (1 / 8 * B)) := by
        rw [abs_mul, abs_mul, abs_of_pos (by norm_num : (0 : ℝ) < 3)]
        have := mul_le_mul hx h3 (abs_nonneg _) hB
        linarith
      have a3 : |(r - x) ^ 2| ≤ (1 / 8 * B) ^ 2 := by
        rw [abs_pow]; exact pow_le_pow_left₀ (abs_nonneg _) h3 2
      have b1 := abs_add_le (3 * x ^ 2 + 3 * x * (r - x)) ((r - x) ^ 2)
      have b2 := abs_add_le (3 * x ^ 2) (3 * x * (r - x))
      have b3 := sq_nonneg B
      linarith
    have h5 := mul_le_mul h2 h4 (abs_nonneg _) (by positivity)
    rw [e, abs_mul]
    linarith
  · rw [abs_pow, one_mul]; exact pow_le_pow_left₀ (abs_nonneg _) hx 3
  · linarith
  · linarith

end

/-! ### numerator and denominator -/

/-- The cube of the rounded deviation. -/
theorem cubeDev_close (A : Accurate (rnd (α := α)) u c Ω N) (W : PowRounded α ℝ) {P M : ℝ} (hP : 1 ≤ P) (hu : 32 * (P + 1) * u ≤ 1) (hM : 0 ≤ M) (hc : c ≤ u ^ 2 * M ^ 3) (hΩ : 2 * M ^ 3 ≤ Ω)
    {a : α} {σ : ℝ} (ha : Close a σ (18 * (P * u * M))) (hσ : 0 < σ) (hσM : σ ≤ M) (h1 : 120 * (P * u * M) ≤ σ) :
    ∃ T, val (Arith.pow a 3) = fin T ∧ |T - σ ^ 3| ≤ 66 * (P * u * M * σ ^ 2) ∧ 9 / 20 * σ ^ 3 ≤ T := by
  have hu0 := A.u_nonneg
  set e := P * u * M with ee
  have he : 0 ≤ e := by positivity
  obtain ⟨S, hS1, hS2⟩ := ha
  have hS3 : |S - σ| ≤ 3 / 20 * σ := hS2.trans (by linarith)
  have hσ2 : 0 < σ ^ 2 := by positivity
  have hσ3 : 0 < σ ^ 3 := by positivity
  have hes : e * σ ^ 2 ≤ σ ^ 3 / 120 := by
    have := mul_le_mul_of_nonneg_right h1 hσ2.le
    linarith
  have hd : |S ^ 3 - σ ^ 3| ≤ 63 * (e * σ ^ 2) := by
    have e1 : S ^ 3 - σ ^ 3 = (S - σ) * (3 * σ ^ 2 + 3 * σ * (S - σ) + (S - σ) ^ 2) := by ring
    have h4 : |3 * σ ^ 2 + 3 * σ * (S - σ) + (S - σ) ^ 2| ≤ 3.4725 * σ ^ 2 := by
      have a2 : |3 * σ * (S - σ)| ≤ 3 * (σ * (3 / 20 * σ)) := by
        rw [abs_mul, abs_of_pos (by positivity : 0 < 3 * σ)]
        have := mul_le_mul_of_nonneg_left hS3 hσ.le
        linarith
      have a3 : |(S - σ) ^ 2| ≤ (3 / 20 * σ) ^ 2 := by
        rw [abs_pow]; exact pow_le_pow_left₀ (abs_nonneg _) hS3 2
      have b1 := abs_add_le (3 * σ ^ 2 + 3 * σ * (S - σ)) ((S - σ) ^ 2)
      have b2 := abs_add_le (3 * σ ^ 2) (3 * σ * (S - σ))
      rw [abs_of_pos (by positivity : 0 < 3 * σ ^ 2)] at b2
      linarith
    have h5 := mul_le_mul hS2 h4 (abs_nonneg _) (by positivity)
    rw [e1, abs_mul]
    have : 0 ≤ e * σ ^ 2 := by positivity
    linarith
  have hMσ : σ ^ 3 ≤ M * σ ^ 2 := by
    have := mul_le_mul_of_nonneg_right hσM hσ2.le
    linarith
  have hσM3 : σ ^ 3 ≤ M ^ 3 := pow_le_pow_left₀ hσ.le hσM 3
  obtain ⟨T, hT1, hT2⟩ := A.round (W a S 3 hS1) hd (abs_of_pos hσ3).le (by linarith)
  have hcσ : c ≤ M * σ ^ 2 := by
    have k1 : (120 * e) ^ 2 ≤ σ ^ 2 := pow_le_pow_left₀ (by positivity) h1 2
    have k2 := mul_le_mul_of_nonneg_left k1 hM
    have k3 : u ^ 2 * M ^ 3 ≤ M * (120 * e) ^ 2 := by
      have : u ^ 2 * M ^ 3 ≤ P ^ 2 * (u ^ 2 * M ^ 3) := le_mul_of_one_le_left (by positivity) (one_le_pow₀ hP)
      have e3 : M * (120 * e) ^ 2 = 14400 * (P ^ 2 * (u ^ 2 * M ^ 3)) := by rw [ee]; ring
      have : 0 ≤ P ^ 2 * (u ^ 2 * M ^ 3) := by positivity
      linarith
    linarith
  have hu1 : u ≤ 1 / 64 := by nlinarith
  have hr : u * (σ ^ 3 + 63 * (e * σ ^ 2) + c) ≤ 3 * (e * σ ^ 2) := by
    have k1 : σ ^ 3 + 63 * (e * σ ^ 2) + c ≤ 3 * (M * σ ^ 2) := by linarith
    have k2 := mul_le_mul_of_nonneg_left k1 hu0
    have k3 : u * (M * σ ^ 2) ≤ P * (u * (M * σ ^ 2)) := le_mul_of_one_le_left (by positivity) hP
    have e3 : P * (u * (M * σ ^ 2)) = e * σ ^ 2 := by rw [ee]; ring
    linarith
  have hT3 : |T - σ ^ 3| ≤ 66 * (e * σ ^ 2) := by linarith
  refine ⟨T, hT1, hT3, ?_⟩
  have := (abs_le.1 hT3).1
  linarith

/-- A quotient near another one. -/
theorem skew_quot {C κ T σ e M : ℝ} (hC : |C - κ| ≤ 270 * (e * M ^ 3)) (hT : |T - σ ^ 3| ≤ 66 * (e * M * σ ^ 2)) (he : 0 ≤ e) (hσ : 0 < σ) (hσM : σ ≤ M) (hT' : 9 / 20 * σ ^ 3 ≤ T)
    (hκ : |κ| ≤ 2 * M * σ ^ 2) : |C / T - κ / σ ^ 3| ≤ 900 * (e * (M / σ) ^ 3) := by
  have hM : 0 < M := hσ.trans_le hσM
  have hσ3 : 0 < σ ^ 3 := by positivity
  have hTp : 0 < T := by linarith
  have e1 : C / T - κ / σ ^ 3 = ((C - κ) * σ ^ 3 - κ * (T - σ ^ 3)) / (T * σ ^ 3) := by field_simp; ring
  have h1 : |(C - κ) * σ ^ 3 - κ * (T - σ ^ 3)| ≤ 402 * (e * M ^ 3) * σ ^ 3 := by
    refine (abs_sub _ _).trans ?_
    rw [abs_mul, abs_mul, abs_of_pos hσ3]
    have a1 := mul_le_mul_of_nonneg_right hC hσ3.le
    have a2 := mul_le_mul hκ hT (abs_nonneg _) (by positivity)
    have a3 : e * M ^ 2 * σ ^ 3 * σ ≤ e * M ^ 2 * σ ^ 3 * M := mul_le_mul_of_nonneg_left hσM (by positivity)
    linarith
  rw [e1, abs_div, abs_of_pos (by positivity : 0 < T * σ ^ 3), div_le_iff₀ (by positivity)]
  have e2 : 900 * (e * (M / σ) ^ 3) * (T * σ ^ 3) = 900 * (e * M ^ 3) * T := by field_simp
  rw [e2]
  have h2 := mul_le_mul_of_nonneg_left hT' (by positivity : 0 ≤ 900 * (e * M ^ 3))
  have h3 : 0 ≤ e * M ^ 3 * σ ^ 3 := by positivity
  linarith

/-- A rounded quotient near the skewness. -/
theorem skew_round (A : Accurate (rnd (α := α)) u c Ω N) {P M : ℝ} (hP : 1 ≤ P) (hu : 32 * (P + 1) * u ≤ 1) (huΩ : 1 ≤ u ^ 2 * Ω)
    {a b : α} {κ σ T : ℝ} (ha : Close a κ (270 * (P * u * M ^ 3))) (hb : val b = fin T) (hT : |T - σ ^ 3| ≤ 66 * (P * u * M * σ ^ 2)) (hT' : 9 / 20 * σ ^ 3 ≤ T)
    (hσ : 0 < σ) (hσM : σ ≤ M) (h1 : 120 * (P * u * M) ≤ σ) (hκ : |κ| ≤ 2 * M * σ ^ 2) :
    Close (a / b) (κ / σ ^ 3) (1000 * P * u * (M / σ) ^ 3) := by
  have hu0 := A.u_nonneg
  have hσ3 : 0 < σ ^ 3 := by positivity
  have hTp : 0 < T := by linarith
  obtain ⟨C, ha1, ha2⟩ := ha
  have hPu : 0 ≤ P * u := by positivity
  have hqt := skew_quot ha2 hT hPu hσ hσM hT' hκ
  have hv : val (a / b) = rnd (α := α) (fin (C / T)) := by
    rw [F.div_eq _ _ (by rw [hb]; simpa using hTp.ne'), ha1, hb]
    exact congrArg _ (XR.fin_div _ _ hTp.ne')
  have hρ : |κ / σ ^ 3| ≤ 2 * (M / σ) := by
    rw [abs_div, abs_of_pos hσ3, div_le_iff₀ hσ3]
    have : 2 * (M / σ) * σ ^ 3 = 2 * M * σ ^ 2 := by field_simp
    rwa [this]
  have hu1 : u ≤ 1 / 64 := by nlinarith
  have hPu2 : P * u ≤ 1 / 32 := by nlinarith
  set t := M / σ with et
  have ht1 : 1 ≤ t := by rw [et, le_div_iff₀ hσ]; linarith
  have hPut : 120 * (P * u * t) ≤ 1 := by
    rw [et, ← mul_div_assoc, ← mul_div_assoc, div_le_one hσ]; exact h1
  have hut : 120 * (u * t) ≤ 1 := by
    have : u * t ≤ P * (u * t) := le_mul_of_one_le_left (by positivity) hP
    linarith
  have hu' : 0 < u := by
    rcases hu0.eq_or_lt with h | h
    · rw [← h] at huΩ; norm_num at huΩ
    · exact h
  have ht2 : P * u * t ^ 3 ≤ t ^ 2 / 120 := by
    have := mul_le_mul_of_nonneg_right hPut (sq_nonneg t)
    linarith
  have htt : t ≤ t ^ 2 := by nlinarith
  have hΩ : 2 * t + 900 * (P * u * t ^ 3) ≤ Ω := by
    have k1 : (u * t) ^ 2 ≤ (1 / 120) ^ 2 := pow_le_pow_left₀ (by positivity) (by linarith) 2
    have k2 : u ^ 2 * (2 * t + 900 * (P * u * t ^ 3)) ≤ u ^ 2 * (10 * t ^ 2) := mul_le_mul_of_nonneg_left (by linarith) (sq_nonneg u)
    have k3 : u ^ 2 * (2 * t + 900 * (P * u * t ^ 3)) ≤ u ^ 2 * Ω := by linarith
    exact le_of_mul_le_mul_left k3 (by positivity)
  have ht3 : t ^ 2 ≤ t ^ 3 := by
    have := mul_le_mul_of_nonneg_right ht1 (sq_nonneg t)
    linarith
  refine (A.round hv hqt hρ hΩ).mono ?_
  have hc := A.c_le
  have h5 : u * (2 * t + 900 * (P * u * t ^ 3) + c) ≤ u * (30 * t ^ 3) + 900 / 64 * (P * u * t ^ 3) := by
    have k0 : 0 ≤ P * u * t ^ 3 := by positivity
    have k1 := mul_le_mul_of_nonneg_right hu1 k0
    have k2 : u * (2 * t + c) ≤ u * (30 * t ^ 3) := mul_le_mul_of_nonneg_left (by linarith) hu0
    linarith
  have h6 : u * t ^ 3 ≤ P * (u * t ^ 3) := le_mul_of_one_le_left (by positivity) hP
  have h7 : 0 ≤ P * (u * t ^ 3) := by positivity
  linarith

/-- The mean keeps the order. -/
theorem avg_mono {A : Type} {l : List A} {f g : A → ℝ} (h : ∀ x ∈ l, f x ≤ g x) : avg (l.map f) ≤ avg (l.map g) := by
  have h1 := avg_add f (fun x => g x - f x) l
  simp only [add_sub_cancel] at h1
  have h2 : 0 ≤ avg (l.map fun x => g x - f x) := avg_nonneg (by simp only [List.mem_map]; rintro _ ⟨x, hx, rfl⟩; linarith [h x hx])
  linarith

/-- The third central moment of numbers up to `M` in size. -/
theorem thirdMoment_abs {l : List ℝ} (hl : l ≠ []) {M : ℝ} (h : ∀ x ∈ l, |x| ≤ M) : |thirdMoment l| ≤ 2 * M * stdDev l ^ 2 := by
  have hs : stdDev l ^ 2 = variance l := Real.sq_sqrt (variance_nonneg l)
  have hμ := abs_le.2 (avg_between hl fun x hx => abs_le.1 (h x hx))
  have hd : ∀ x ∈ l, |x - avg l| ≤ 2 * M := fun x hx => (abs_sub _ _).trans (by linarith [h x hx])
  rw [hs, variance, thirdMoment, ← avg_map_smul, abs_le]
  constructor
  · have := avg_mono (l := l) (f := fun x => -(2 * M) * (x - avg l) ^ 2) (g := fun x => (x - avg l) ^ 3) (fun x hx => by
      have := mul_le_mul_of_nonneg_right (abs_le.1 (hd x hx)).1 (sq_nonneg (x - avg l)); linarith)
    rw [avg_map_smul] at this ⊢
    linarith
  · exact avg_mono fun x hx => by
      have := mul_le_mul_of_nonneg_right (abs_le.1 (hd x hx)).2 (sq_nonneg (x - avg l)); linarith


/-- The mean of the rounded cubes. -/
theorem cubes_close (A : Accurate (rnd (α := α)) u c Ω N) (W : PowRounded α ℝ) {n : Nat} (hn : 0 < n) (hnN : n ≤ N) (hnu : 32 * ((n : ℝ) + 1) * u ≤ 1) {ε : ℝ} (hε : u ≤ ε) (hε' : ε ≤ 1 / 32) (hnε : n * u ≤ ε)
    {M : ℝ} (hM : 0 ≤ M) (hcM3' : c ≤ M ^ 3) (hM8 : 2 * M ^ 3 ≤ Ω) (hΩ3 : 4 * ((n : ℝ) + 1) * (2 * M ^ 3) ≤ Ω) {w : List (α × ℝ)} (hw : w.length = n) (h : ∀ z ∈ w, Is M z.1 z.2) :
    Close (Arith.mean ((w.map Prod.fst).map fun x => Arith.pow x 3)) (avg ((w.map Prod.snd).map fun x => x ^ 3)) (10 * (ε * M ^ 3)) := by
  have hu0 := A.u_nonneg
  have hM3 : 0 ≤ M ^ 3 := by positivity
  have hu1 : u ≤ 1 / 32 := hε.trans hε'
  have hw0 : w ≠ [] := List.length_pos_iff.1 (by omega)
  set r : α × ℝ → ℝ := fun z => numOf (val (Arith.pow z.1 3)) with er
  have hr : ∀ z ∈ w, val (Arith.pow z.1 3) = fin (r z) ∧ |r z - z.2 ^ 3| ≤ 2 * (u * M ^ 3) := by
    intro z hz
    have hz3 : |z.2 ^ 3| ≤ M ^ 3 := by rw [abs_pow]; exact pow_le_pow_left₀ (abs_nonneg _) (h z hz).2 3
    obtain ⟨y, h1, h2⟩ := A.close (z.2 ^ 3) (by linarith)
    have h3 : val (Arith.pow z.1 3) = fin y := (W z.1 z.2 3 (h z hz).1).trans h1
    simp only [er, h3]
    refine ⟨rfl, h2.trans ?_⟩
    have := mul_le_mul_of_nonneg_left (by linarith : |z.2 ^ 3| + c ≤ 2 * M ^ 3) hu0
    linarith
  have huM3 : u * M ^ 3 ≤ 1 / 32 * M ^ 3 := mul_le_mul_of_nonneg_right hu1 hM3
  have hcub := mean_close A hn hnN hnu (M := 2 * M ^ 3) (by linarith) hΩ3 (w := w.map fun z => (Arith.pow z.1 3, r z)) (by simpa using hw) (by
    simp only [List.mem_map]
    rintro _ ⟨z, hz, rfl⟩
    refine ⟨(hr z hz).1, ?_⟩
    have hz3 : |z.2 ^ 3| ≤ M ^ 3 := by rw [abs_pow]; exact pow_le_pow_left₀ (abs_nonneg _) (h z hz).2 3
    have h1 := abs_add_le (z.2 ^ 3) (r z - z.2 ^ 3)
    rw [add_sub_cancel] at h1
    linarith [(hr z hz).2])
  have hnear := avg_near hw0 fun z hz => (hr z hz).2
  rw [List.map_map, List.map_map] at hcub
  rw [List.map_map, List.map_map]
  refine (hcub.of (y := avg (w.map fun z => z.2 ^ 3))).mono ?_
  have k1 := mul_le_mul_of_nonneg_right hnε hM3
  have k2 := mul_le_mul_of_nonneg_right hε hM3
  have : |avg (w.map (Prod.snd ∘ fun z => (Arith.pow z.1 3, r z))) - avg (w.map fun z => z.2 ^ 3)| ≤ 2 * (u * M ^ 3) := hnear
  linarith

/-- The numerator: mean of cubes, minus three means times the variance, minus the cube of the mean. -/
theorem skewNum_close (A : Accurate (rnd (α := α)) u c Ω N) (W : PowRounded α ℝ) {ε : ℝ} (hε : u ≤ ε) (hε' : ε ≤ 1 / 32) {M : ℝ} (hM : 0 ≤ M) (hcM : c ≤ M) (hcM2 : c ≤ M ^ 2) (hcM3 : c ≤ M ^ 3)
    (hMO : 4 * (M ^ 2 + 1) ≤ Ω) (hM8 : 16 * M ^ 3 ≤ Ω) {m s q : α} {μ σ ξ : ℝ} (hm : Close m μ (4 * (ε * M))) (hs : Close s σ (18 * (ε * M))) (hq : Close q ξ (10 * (ε * M ^ 3)))
    (hμ : |μ| ≤ M) (hσ : |σ| ≤ M) (hξ : |ξ| ≤ M ^ 3) (hκ : |ξ - 3 * μ * σ ^ 2 - μ ^ 3| ≤ 2 * M ^ 3) :
    Close (q - Arith.ofRat 3 * m * Arith.pow s 2 - Arith.pow m 3) (ξ - 3 * μ * σ ^ 2 - μ ^ 3) (270 * (ε * M ^ 3)) := by
  have hu0 := A.u_nonneg
  have hcu := A.c_le
  have hε0 : 0 ≤ ε := hu0.trans hε
  have hM2 : 0 ≤ M ^ 2 := sq_nonneg M
  have hM3 : 0 ≤ M ^ 3 := by positivity
  have hMM : M ≤ M ^ 2 + 1 := by nlinarith [sq_nonneg (M - 1 / 2)]
  have h3 : Close (Arith.ofRat 3 : α) (3 : ℝ) (4 * (ε * 1)) := by
    have := Close.ofRat A (q := 3) (by norm_num; linarith)
    norm_num at this
    refine this.mono ?_
    have := mul_le_mul_of_nonneg_left (by linarith : 3 + c ≤ 4) hu0
    linarith
  have h3m : Close (Arith.ofRat 3 * m : α) (3 * μ) (22 * (ε * M)) := by
    refine (mul_scaled A hε hε' zero_le_one hM (by linarith) (by norm_num) (by norm_num) (X := 3) (Y := 1) (by norm_num) (by norm_num) h3 hm (by norm_num) (by linarith) ?_).mono ?_
    · norm_num; linarith
    · rw [one_mul]
      exact mul_le_mul_of_nonneg_right (by norm_num) (by positivity)
  have hsq := sq_scaled A hε hε' W hM hcM2 (by linarith) hs hσ
  have hprod : Close (Arith.ofRat 3 * m * Arith.pow s 2 : α) (3 * μ * σ ^ 2) (217 * (ε * M ^ 3)) := by
    have e1 : M * M ^ 2 = M ^ 3 := by ring
    have hσ2M : |σ ^ 2| ≤ 1 * M ^ 2 := by rw [abs_pow, one_mul]; exact pow_le_pow_left₀ (abs_nonneg _) hσ 2
    have h3μ : |3 * μ| ≤ 3 * M := by rw [abs_mul]; norm_num; exact hμ
    refine (mul_scaled A hε hε' hM hM2 (by rw [e1]; exact hcM3) (by norm_num) (by norm_num) (X := 3) (Y := 1) (by norm_num) (by norm_num) h3m hsq h3μ hσ2M ?_).mono ?_
    · rw [e1]; norm_num; linarith
    · rw [e1]; exact mul_le_mul_of_nonneg_right (by norm_num) (by positivity)
  have hμ3 := cube_scaled A hε hε' W hM hcM3 (by linarith) hm hμ
  have hprodM : |3 * μ * σ ^ 2| ≤ 3 * M ^ 3 := by
    rw [abs_mul, abs_mul, abs_pow]
    have := mul_le_mul hμ (pow_le_pow_left₀ (abs_nonneg _) hσ 2) (by positivity) hM
    rw [abs_of_pos (by norm_num : (0 : ℝ) < 3)]
    linarith
  have hsub1 := sub_scaled A hε hε' hM3 hcM3 (by norm_num) (by norm_num) (X := 4) (by norm_num) hq hprod ((abs_sub _ _).trans (by linarith)) (by norm_num; linarith)
  exact (sub_scaled A hε hε' hM3 hcM3 (by norm_num) (by norm_num) (X := 2) (by norm_num) (hsub1.mono (e := 240 * (ε * M ^ 3)) (mul_le_mul_of_nonneg_right (by norm_num) (by positivity))) hμ3
    hκ (by norm_num; linarith)).mono (mul_le_mul_of_nonneg_right (by norm_num) (by positivity))

/-- The skewness of `p` numbers. -/
theorem skewness_close (A : Accurate (rnd (α := α)) u c Ω N) (Q : SqrtRounded α ℝ Real.sqrt) (W : PowRounded α ℝ) {n : Nat} (hn : 0 < n) (hnN : n ≤ N) {P : ℝ} (hnP : (n : ℝ) ≤ P) (hPu : 32 * (P + 1) * u ≤ 1)
    {M : ℝ} (hcM : c ≤ M) (hcM2 : c ≤ u * M ^ 2) (hcM3 : c ≤ u ^ 2 * M ^ 3) (hΩ : 32 * (P + 1) * (M ^ 2 + 1) ≤ Ω) (hΩ3 : 8 * (P + 1) * M ^ 3 ≤ Ω) (huΩ : 1 ≤ u ^ 2 * Ω)
    {w : List (α × ℝ)} (hw : w.length = n) (h : ∀ z ∈ w, Is M z.1 z.2) (hσ : 0 < stdDev (w.map Prod.snd)) (hσ2 : 120 * P * u * M ≤ stdDev (w.map Prod.snd)) :
    Close (computeSkewness (w.map Prod.fst)) (skew (w.map Prod.snd)) (1000 * P * u * (M / stdDev (w.map Prod.snd)) ^ 3) := by
  have hu0 := A.u_nonneg
  have hcu := A.c_le
  have hM : 0 ≤ M := A.c_nonneg.trans hcM
  have hM2 : 0 ≤ M ^ 2 := sq_nonneg M
  have hM3 : 0 ≤ M ^ 3 := by positivity
  have hn1 : (1 : ℝ) ≤ n := by exact_mod_cast hn
  have hP1 : 1 ≤ P := hn1.trans hnP
  have hu1 : u ≤ 1 / 64 := by
    have := mul_nonneg (by linarith : 0 ≤ P - 1) hu0
    linarith
  have hMM : M ≤ M ^ 2 + 1 := by nlinarith [sq_nonneg (M - 1 / 2)]
  have hnu : 32 * ((n : ℝ) + 1) * u ≤ 1 := by
    have := mul_nonneg (by linarith : 0 ≤ P - n) hu0
    linarith
  have hPM2 : 0 ≤ (P - n) * (M ^ 2 + 1) := mul_nonneg (by linarith) (by linarith)
  have hPM3 : 0 ≤ (P - n) * M ^ 3 := mul_nonneg (by linarith) hM3
  have hnM2 : 0 ≤ ((n : ℝ) + 1) * (M ^ 2 + 1) := by positivity
  have hnM3 : 0 ≤ ((n : ℝ) - 1) * M ^ 3 := mul_nonneg (by linarith) hM3
  have hM8 : 16 * M ^ 3 ≤ Ω := by linarith
  have hMO : 4 * (M ^ 2 + 1) ≤ Ω := by
    have : 0 ≤ ((n : ℝ) - 1) * (M ^ 2 + 1) := mul_nonneg (by linarith) (by linarith)
    linarith
  have hΩn : 4 * ((n : ℝ) + 1) * M ≤ Ω := by
    have := mul_le_mul_of_nonneg_left hMM (by linarith : 0 ≤ (n : ℝ) + 1)
    linarith
  set ε := P * u with eε
  have hε : u ≤ ε := by rw [eε]; exact le_mul_of_one_le_left hu0 hP1
  have hε0 : 0 ≤ ε := hu0.trans hε
  have hε' : ε ≤ 1 / 32 := by rw [eε]; linarith
  have hnε : n * u ≤ ε := by rw [eε]; exact mul_le_mul_of_nonneg_right hnP hu0
  have hw0 : w ≠ [] := List.length_pos_iff.1 (by omega)
  have hx0 : w.map Prod.snd ≠ [] := by simpa using hw0
  have hxM : ∀ x ∈ w.map Prod.snd, |x| ≤ M := by
    simp only [List.mem_map]; rintro _ ⟨z, hz, rfl⟩; exact (h z hz).2
  have hμ := abs_le.2 (avg_between hx0 fun x hx => abs_le.1 (hxM x hx))
  -- mean and deviation
  have hmean := mean_close A hn hnN hnu hcM hΩn hw h
  have hstd := std_close A Q hn hnN hnu hcM hcM2 hΩn (by linarith) hw h hmean
  have hσM := (le_abs_self _).trans hstd.2
  have hmean' : Close (Arith.mean (w.map Prod.fst)) (avg (w.map Prod.snd)) (4 * (ε * M)) :=
    hmean.mono (by have := mul_le_mul_of_nonneg_right hnε hM; linarith)
  have hstd' : Close (Arith.sqrt (Arith.moments (w.map Prod.fst)).2) (stdDev (w.map Prod.snd)) (18 * (ε * M)) :=
    hstd.1.mono (by have := mul_le_mul_of_nonneg_right hnε hM; linarith)
  have hcM3' : c ≤ M ^ 3 := hcM3.trans (mul_le_of_le_one_left hM3 (pow_le_one₀ hu0 (by linarith)))
  have hcM2' : c ≤ M ^ 2 := hcM2.trans (mul_le_of_le_one_left hM2 (by linarith))
  -- mean of the cubes
  have hcub' := cubes_close A W hn hnN hnu hε hε' hnε hM hcM3' (by linarith) (by linarith) hw h
  have hcubM : |avg ((w.map Prod.snd).map fun x => x ^ 3)| ≤ M ^ 3 := abs_le.2 (avg_between (by simpa using hw0) (by
    intro x hx
    obtain ⟨y, hy, rfl⟩ := List.mem_map.1 hx
    exact abs_le.1 (by rw [abs_pow]; exact pow_le_pow_left₀ (abs_nonneg _) (hxM y hy) 3)))
  -- the numerator
  set μ := avg (w.map Prod.snd) with eμ
  set σ := stdDev (w.map Prod.snd) with eσ
  have hκ := thirdMoment_abs hx0 hxM
  have hs : σ ^ 2 = variance (w.map Prod.snd) := Real.sq_sqrt (variance_nonneg _)
  have ek : avg ((w.map Prod.snd).map fun x => x ^ 3) - 3 * μ * σ ^ 2 - μ ^ 3 = thirdMoment (w.map Prod.snd) := by rw [thirdMoment_eq hx0, hs]
  have hκM : |thirdMoment (w.map Prod.snd)| ≤ 2 * M ^ 3 := by
    have := mul_le_mul_of_nonneg_left (pow_le_pow_left₀ hσ.le hσM 2) hM
    refine hκ.trans ?_
    linarith
  have hsub2 := skewNum_close A W hε hε' hM hcM hcM2' hcM3' (by linarith) hM8 hmean' hstd' hcub' hμ hstd.2 hcubM (by rw [ek]; exact hκM)
  rw [ek] at hsub2
  obtain ⟨T, hT1, hT2, hT3⟩ := cubeDev_close A W hP1 hPu hM hcM3 (by linarith) hstd' hσ hσM (by linarith)
  have hq := skew_round A hP1 hPu huΩ hsub2 hT1 hT2 hT3 hσ hσM (by linarith) hκ
  obtain ⟨S, hS1, hS2⟩ := hstd'
  have hSp : S ≠ 0 := by
    have := (abs_le.1 hS2).1
    have : 120 * (ε * M) ≤ σ := by linarith
    intro h0
    subst h0
    linarith
  have he : TFNum.eq (Arith.sqrt (Arith.moments (w.map Prod.fst)).2) (Arith.ofRat 0 : α) = false := by
    rw [F.eq_eq, hS1, val_ofRat_zero]
    show decide (S = 0) = false
    exact decide_eq_false hSp
  have ec : computeSkewness (w.map Prod.fst) = (Arith.mean ((w.map Prod.fst).map fun x => Arith.pow x 3) - Arith.ofRat 3 * Arith.mean (w.map Prod.fst) * Arith.pow (Arith.sqrt (Arith.moments (w.map Prod.fst)).2) 2
      - Arith.pow (Arith.mean (w.map Prod.fst)) 3) / Arith.pow (Arith.sqrt (Arith.moments (w.map Prod.fst)).2) 3 := by
    unfold computeSkewness
    simp only [he, Bool.false_eq_true, if_false]
    rfl
  rw [ec, skew]
  exact hq

/-- **C70, skewness** of numbers up to `M` in size: whenever the deviation `σ` of the last `p` is positive and at least `120 p u M`, the output is the third standardised moment up to
`1000 p u (M / σ)³`. -/
theorem C70_skewness (A : Accurate (rnd (α := α)) u c Ω N) (Q : SqrtRounded α ℝ Real.sqrt) (W : PowRounded α ℝ) {p : Nat} (hp : 0 < p) (hpN : p ≤ N) (hpu : 32 * ((p : ℝ) + 1) * u ≤ 1) {M : ℝ} (hcM : c ≤ M)
    (hcM2 : c ≤ u * M ^ 2) (hcM3 : c ≤ u ^ 2 * M ^ 3) (hΩ : 32 * ((p : ℝ) + 1) * (M ^ 2 + 1) ≤ Ω) (hΩ3 : 8 * ((p : ℝ) + 1) * M ^ 3 ≤ Ω) (huΩ : 1 ≤ u ^ 2 * Ω) :
    ApproximatesAt (Skewness (p : Int) : Operator α) (Skewness (p : Int) : Operator (XR ℝ)) vSBuf finSeries vSBuf finSeries (Is M)
      fun xs a x => let w := window p xs
        0 < stdDev w → 120 * p * u * M ≤ stdDev w → x = thirdMoment w / stdDev w ^ 3 ∧ Close a x (1000 * p * u * (M / stdDev w) ^ 3) := by
  refine (skewness_streams hp).approximatesAt (skew_reals hp) fun l hl h => ?_
  simp only
  intro hσ hσ2
  have e1 : window p (l.map Prod.fst) = (window p l).map Prod.fst := window_map ..
  have e2 : window p (l.map Prod.snd) = (window p l).map Prod.snd := window_map ..
  rw [e2] at hσ hσ2 ⊢
  have hnp : (window p l).length ≤ p := by rw [window_length]; exact Nat.min_le_left _ _
  rw [skewOf, if_neg hσ.ne', e1]
  exact ⟨rfl, skewness_close A Q W (List.length_pos_iff.2 (window_ne_nil hp hl)) (hnp.trans hpN) (by exact_mod_cast hnp) hpu hcM hcM2 hcM3 hΩ hΩ3 huΩ rfl
    (fun z hz => h z (mem_of_mem_window hz)) hσ hσ2⟩

theorem powRounded32 : PowRounded (F32 ℝ) ℝ := by
  intro a x n h
  have h' : a.val = fin x := h
  show round32 (Arith.pow a.val n) = round32 (fin (x ^ n))
  rw [h', XR.pow_fin]

example := C70_skewness (α := F32 ℝ) round32_accurate sqrtRounded32 powRounded32 (p := 14) (M := 1) (by norm_num) (by norm_num) (by norm_num) (by norm_num) (by norm_num) (by norm_num) (by norm_num)
  (by norm_num) (by norm_num)

/-- **C70, skewness** in binary32. -/
theorem C70_skewness_binary32 {p : Nat} (hp : 0 < p) (hp' : p < 2 ^ 18) {M : ℝ} (h1 : 2 ^ (-26 : Int) ≤ M) (h2 : M ≤ 2 ^ 34) :
    ApproximatesAt (Skewness (p : Int) : Operator (F32 ℝ)) (Skewness (p : Int) : Operator (XR ℝ)) vSBuf finSeries vSBuf finSeries (Is M)
      fun xs a x => let w := window p xs
        0 < stdDev w → 120 * p * 2 ^ (-24 : Int) * M ≤ stdDev w → x = thirdMoment w / stdDev w ^ 3 ∧ Close a x (1000 * p * 2 ^ (-24 : Int) * (M / stdDev w) ^ 3) := by
  have hpK : (p : ℝ) + 1 ≤ 2 ^ 18 := by exact_mod_cast hp'
  have hM0 : (0 : ℝ) < 2 ^ (-26 : Int) := by positivity
  have hM : 0 ≤ M := by linarith
  have hsq : M ^ 2 ≤ (2 ^ 34) ^ 2 := pow_le_pow_left₀ hM h2 2
  have hsq' : ((2 : ℝ) ^ (-26 : Int)) ^ 2 ≤ M ^ 2 := pow_le_pow_left₀ hM0.le h1 2
  have hcu : M ^ 3 ≤ (2 ^ 34) ^ 3 := pow_le_pow_left₀ hM h2 3
  have hcu' : ((2 : ℝ) ^ (-26 : Int)) ^ 3 ≤ M ^ 3 := pow_le_pow_left₀ hM0.le h1 3
  have hp0 : (0 : ℝ) ≤ p := by positivity
  have hM3 : 0 ≤ M ^ 3 := by positivity
  refine C70_skewness (α := F32 ℝ) round32_accurate sqrtRounded32 powRounded32 hp (by omega) ?_ ?_ ?_ ?_ ?_ ?_ ?_
  · norm_num; norm_num at hpK; linarith
  · refine le_trans ?_ h1; norm_num
  · norm_num at hsq' ⊢; linarith
  · norm_num at hcu' ⊢; linarith
  · have := mul_le_mul hpK (add_le_add_left hsq 1) (by positivity) (by positivity)
    norm_num at this ⊢; linarith
  · have := mul_le_mul hpK hcu (by positivity) (by positivity)
    norm_num at this ⊢; linarith
  · norm_num
example := C70_skewness_binary32 (p := 14) (by norm_num) (by norm_num) (M := 1) (by norm_num) (by norm_num)

end TS
