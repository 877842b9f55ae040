import Verif.Lemmas.AccuracyStd
import Verif.Props.Accuracy
import Verif.Props.Between
/-
C70: standard deviations and Bollinger bands in floating-point arithmetic.
-/
namespace TS
open PyVal XR FloatArith
set_option linter.unusedSectionVars false
variable {α : Type} [TFNum α] [F : FloatArith α ℝ] {u c Ω : ℝ} {N : Nat}

/-- the number, 0 for what is none -/
def numOf : XR ℝ → ℝ
  | fin x => x
  | _ => 0

section
variable (A : Accurate (rnd (α := α)) u c Ω N) (Q : SqrtRounded α ℝ Real.sqrt)
  {p : Nat} (hp : 0 < p) (hpN : p ≤ N) (hpu : 32 * ((p : ℝ) + 1) * u ≤ 1) {M : ℝ} (hcM : c ≤ M) (hcM2 : c ≤ u * M ^ 2) (hΩ : 4 * ((p : ℝ) + 1) * M ≤ Ω) (hΩ2 : 32 * ((p : ℝ) + 1) * (M ^ 2 + 1) ≤ Ω)
include A hp hpN hpu hcM hΩ hΩ2

/-- the mean of the squared differences from a number `m'` near the mean `m` -/
theorem squares_close {w : List (α × ℝ)} (hw : w.length = p) (h : ∀ z ∈ w, Is M z.1 z.2) {m' : α} {m : ℝ} (hm : Close m' m (4 * p * u * M)) (hmM : |m| ≤ M) :
    ∃ D : α × ℝ → ℝ, (∀ z ∈ w, |D z - (z.2 - m)| ≤ 4 * (p + 1) * u * M) ∧ ∃ V : ℝ, 0 ≤ V ∧
      val (Arith.mean ((w.map Prod.fst).map fun x => (x - m') * (x - m'))) = fin V ∧ |V - avg (w.map fun z => D z ^ 2)| ≤ 2 * (p + 1) * u * (avg (w.map fun z => D z ^ 2) + c) := by
  have hu := A.u_nonneg
  have hc := A.c_nonneg
  have hM : 0 ≤ M := hc.trans hcM
  have hp1 : (1 : ℝ) ≤ p := by exact_mod_cast hp
  have hpu' : (p : ℝ) * u ≤ 1 / 32 := by nlinarith
  have hu' : u ≤ 1 / 64 := by nlinarith
  have hpuM : p * u * M ≤ M / 32 := by nlinarith
  -- differences
  have hD : ∀ z ∈ w, Close (z.1 - m') (z.2 - m) (4 * (p + 1) * u * M) := by
    intro z hz
    have hz' := h z hz
    refine (Close.sub A (X := 2 * M) (Close.exact hz'.1) hm ?_ ?_).mono ?_
    · have := abs_sub z.2 m; linarith [hz'.2]
    · nlinarith
    · nlinarith
  have hDv : ∀ z ∈ w, val (z.1 - m') = fin (numOf (val (z.1 - m'))) := by
    intro z hz
    obtain ⟨y, h1, -⟩ := hD z hz
    rw [h1]; rfl
  have hDc : ∀ z ∈ w, |numOf (val (z.1 - m')) - (z.2 - m)| ≤ 4 * (p + 1) * u * M := by
    intro z hz
    obtain ⟨y, h1, h2⟩ := hD z hz
    rw [h1]; exact h2
  refine ⟨fun z => numOf (val (z.1 - m')), hDc, ?_⟩
  set D : α × ℝ → ℝ := fun z => numOf (val (z.1 - m')) with eD
  have hDM : ∀ z ∈ w, |D z| ≤ 3 * M := by
    intro z hz
    have h1 := hDc z hz
    have h2 := abs_add_le (z.2 - m) (D z - (z.2 - m))
    rw [add_sub_cancel] at h2
    have h3 := abs_sub z.2 m
    have h4 := (h z hz).2
    have : 4 * ((p : ℝ) + 1) * u * M ≤ M := by nlinarith
    linarith
  have hD2 : ∀ z ∈ w, D z ^ 2 ≤ 9 * M ^ 2 := by
    intro z hz
    rw [← sq_abs]
    calc |D z| ^ 2 ≤ (3 * M) ^ 2 := pow_le_pow_left₀ (abs_nonneg _) (hDM z hz) 2
      _ = 9 * M ^ 2 := by ring
  -- squares
  have hq : ∀ z ∈ w, val ((z.1 - m') * (z.1 - m')) = fin (numOf (val ((z.1 - m') * (z.1 - m')))) ∧
      |numOf (val ((z.1 - m') * (z.1 - m'))) - D z ^ 2| ≤ u * (D z ^ 2 + c) := by
    intro z hz
    have hd := hDv z hz
    have : val ((z.1 - m') * (z.1 - m')) = rnd (α := α) (fin (D z ^ 2)) := by
      rw [F.mul_eq, hd]
      show rnd (α := α) (fin (D z * D z)) = _
      rw [sq]
    have hb := hD2 z hz
    obtain ⟨y, h1, h2⟩ := A.close (D z ^ 2) (by rw [abs_of_nonneg (sq_nonneg _)]; nlinarith)
    rw [abs_of_nonneg (sq_nonneg (D z))] at h2
    rw [this, h1]
    exact ⟨rfl, h2⟩
  set q : α × ℝ → ℝ := fun z => numOf (val ((z.1 - m') * (z.1 - m'))) with eq
  set w' : List (α × ℝ) := w.map fun z => ((z.1 - m') * (z.1 - m'), q z) with ew
  have e1 : (w.map Prod.fst).map (fun x => (x - m') * (x - m')) = w'.map Prod.fst := by simp [ew, Function.comp_def]
  have hlen : w'.length = p := by simp [ew, hw]
  set S := (w.map fun z => D z ^ 2).sum with eS
  have hS0 : 0 ≤ S := List.sum_nonneg (by simp only [List.mem_map]; rintro _ ⟨i, -, rfl⟩; positivity)
  have hS : S ≤ p * (9 * M ^ 2) := by
    have := sum_le_of_le (l := w.map fun z => D z ^ 2) (b := 9 * M ^ 2) (by simp only [List.mem_map]; rintro _ ⟨z, hz, rfl⟩; exact hD2 z hz)
    rwa [List.length_map, hw] at this
  have k1 : ∀ m : List (α × ℝ), (∀ z ∈ m, |q z - D z ^ 2| ≤ u * (D z ^ 2 + c)) →
      |(m.map q).sum - (m.map fun z => D z ^ 2).sum| ≤ u * ((m.map fun z => D z ^ 2).sum + m.length * c) ∧
      (m.map fun z => |q z| + c).sum ≤ (1 + u) * ((m.map fun z => D z ^ 2).sum + m.length * c) := by
    intro m hm
    induction m with
    | nil => simp
    | cons z m ih =>
      obtain ⟨i1, i2⟩ := ih fun y hy => hm y (by simp [hy])
      have h1 := hm z (by simp)
      simp only [List.map_cons, List.sum_cons, List.length_cons]
      push_cast
      constructor
      · rw [add_sub_add_comm]
        refine (abs_add_le _ _).trans ?_
        linarith
      · have := abs_add_le (D z ^ 2) (q z - D z ^ 2)
        rw [add_sub_cancel, abs_of_nonneg (sq_nonneg (D z))] at this
        linarith
  obtain ⟨k2, k3⟩ := k1 w fun z hz => (hq z hz).2
  rw [hw] at k2 k3
  have e2 : (w'.map fun z => |z.2| + c).sum = (w.map fun z => |q z| + c).sum := by simp [ew, Function.comp_def]
  have e3 : (w'.map Prod.snd).sum = (w.map q).sum := by simp [ew, Function.comp_def]
  have hpow := pow_le hu (p := p) (by linarith)
  have hpow1 : (1 : ℝ) ≤ (1 + u) ^ (p - 1) := one_le_pow₀ (by linarith)
  have hpe : (1 + u) ^ p = (1 + u) * (1 + u) ^ (p - 1) := by rw [← pow_succ']; congr 1; omega
  have hcu := A.c_le
  have hT0 : 0 ≤ S + p * c := by positivity
  have hTΩ : S + p * c ≤ Ω / 3 := by nlinarith
  have hs := sum_rel A (l := w') (by simp only [ew, List.mem_map]; rintro _ ⟨z, hz, rfl⟩; exact (hq z hz).1) (by
    rw [hlen, e2]
    have h1 : (1 + u) ^ p * (w.map fun z => |q z| + c).sum ≤ (1 + 2 * p * u) * ((1 + u) * (S + p * c)) := mul_le_mul hpow k3 (by
      refine List.sum_nonneg ?_
      simp only [List.mem_map]; rintro _ ⟨i, -, rfl⟩; positivity) (by positivity)
    have h2 : (1 + 2 * p * u) * (1 + u) ≤ 2 := by nlinarith
    have h3 : (1 + 2 * p * u) * ((1 + u) * (S + p * c)) ≤ 2 * (S + p * c) := by rw [← mul_assoc]; exact mul_le_mul_of_nonneg_right h2 hT0
    linarith)
  rw [hlen, e2, e3] at hs
  obtain ⟨Y, hY1, hY2⟩ := hs
  have hY : |Y - S| ≤ 2 * p * u * (S + p * c) := by
    have h1 : |Y - S| ≤ ((1 + u) ^ (p - 1) - 1) * ((1 + u) * (S + p * c)) + u * (S + p * c) := by
      refine (abs_sub_le Y (w.map q).sum S).trans (add_le_add (hY2.trans (mul_le_mul_of_nonneg_left k3 (by linarith))) k2)
    have h2 : ((1 + u) ^ (p - 1) - 1) * ((1 + u) * (S + p * c)) + u * (S + p * c) = ((1 + u) ^ p - 1) * (S + p * c) := by rw [hpe]; ring
    rw [h2] at h1
    exact h1.trans (mul_le_mul_of_nonneg_right (by linarith) hT0)
  have hp0 : (0 : ℝ) < p := by linarith
  have hd := Close.div A (⟨Y, hY1, hY⟩ : Close (Arith.sum (w'.map Prod.fst)) S _) hp hpN (X := S / p) (by rw [abs_of_nonneg hS0]) (by
    rw [← add_div, div_le_iff₀ hp0]
    have : 2 * p * u * (S + p * c) ≤ S + p * c := by nlinarith
    nlinarith)
  have ea : avg (w.map fun z => D z ^ 2) = S / p := by rw [avg, List.length_map, hw]
  rw [ea]
  have emean : Arith.mean ((w.map Prod.fst).map fun x => (x - m') * (x - m')) = Arith.sum (w'.map Prod.fst) / Arith.ofInt (p : Int) := by
    rw [Arith.mean, e1, List.length_map, hlen]
  obtain ⟨V, hV1, hV2⟩ := hd
  rw [← emean] at hV1
  refine ⟨V, ?_, hV1, hV2.trans ?_⟩
  · have hn : NotNeg (Arith.mean ((w.map Prod.fst).map fun x => (x - m') * (x - m'))) := NotNeg.mean (by
      simp only [List.mem_map]; rintro _ ⟨x, -, rfl⟩; exact NotNeg.sq _) (by rw [← List.length_pos_iff]; simp [hw, hp])
    rw [NotNeg, hV1] at hn
    simpa [XR.lt] using hn
  · have h1 : 2 * p * u * (S + p * c) / p = 2 * p * u * (S / p + c) := by field_simp
    rw [h1]
    have hq0 : 0 ≤ S / p := by positivity
    generalize S / p = b at hq0 ⊢
    have h2 := mul_le_mul_of_nonneg_right (show 2 * p * u ≤ 1 by linarith) (show 0 ≤ b + c by linarith)
    have h3 := mul_le_mul_of_nonneg_left (show b + 2 * p * u * (b + c) + c ≤ 2 * (b + c) by linarith) hu
    linarith

include Q hcM2
theorem std_close {w : List (α × ℝ)} (hw : w.length = p) (h : ∀ z ∈ w, Is M z.1 z.2) (hm : Close (Arith.mean (w.map Prod.fst)) (avg (w.map Prod.snd)) (4 * p * u * M)) :
    Close (Arith.sqrt (Arith.moments (w.map Prod.fst)).2) (stdDev (w.map Prod.snd)) (18 * p * u * M) ∧ |stdDev (w.map Prod.snd)| ≤ M := by
  have hu := A.u_nonneg
  have hc := A.c_nonneg
  have hM : 0 ≤ M := hc.trans hcM
  have hp1 : (1 : ℝ) ≤ p := by exact_mod_cast hp
  have hpu' : (p : ℝ) * u ≤ 1 / 32 := by nlinarith
  have hu' : u ≤ 1 / 64 := by nlinarith
  have hw0 : w ≠ [] := by rw [← List.length_pos_iff, hw]; exact hp
  have hb : ∀ x ∈ w.map Prod.snd, -M ≤ x ∧ x ≤ M := by
    simp only [List.mem_map]; rintro _ ⟨z, hz, rfl⟩; exact abs_le.1 (h z hz).2
  have hσ0 : 0 ≤ stdDev (w.map Prod.snd) := Real.sqrt_nonneg _
  have hσ : stdDev (w.map Prod.snd) ≤ M := by linarith [popoviciu (l := w.map Prod.snd) (by simpa using hw0) (a := -M) (b := M) (by linarith) hb]
  refine ⟨?_, by rwa [abs_of_nonneg hσ0]⟩
  have hma := avg_between (l := w.map Prod.snd) (by simpa using hw0) hb
  obtain ⟨D, hD, V, hV0, hV, hVq⟩ := squares_close A hp hpN hpu hcM hΩ hΩ2 hw h hm (abs_le.2 hma)
  set b := avg (w.map fun z => D z ^ 2) with eb
  have hb0 : 0 ≤ b := avg_nonneg (by simp only [List.mem_map]; rintro _ ⟨z, -, rfl⟩; positivity)
  have es : stdDev (w.map Prod.snd) = Real.sqrt (avg (w.map fun z => (z.2 - avg (w.map Prod.snd)) ^ 2)) := by
    rw [stdDev, variance, List.map_map]; rfl
  have m1 : Real.sqrt b ≤ stdDev (w.map Prod.snd) + 4 * (p + 1) * u * M := by rw [es]; exact rms_le hw0 hD
  have m2 : stdDev (w.map Prod.snd) ≤ Real.sqrt b + 4 * (p + 1) * u * M := by rw [es]; exact rms_le hw0 fun z hz => by rw [abs_sub_comm]; exact hD z hz
  have hr := sqrt_near hV0 hb0 (g := 2 * (p + 1) * u) (t := 2 * p * u * M) (by positivity) (by positivity) (by
    have h1 : 2 * ((p : ℝ) + 1) * u * c ≤ 2 * (p + 1) * u * (u * M ^ 2) := mul_le_mul_of_nonneg_left hcM2 (by positivity)
    have h2 : (2 * p * u * M) ^ 2 - 2 * (p + 1) * u * (u * M ^ 2) = (4 * p ^ 2 - 2 * (p + 1)) * (u * M) ^ 2 := by ring
    have h3 : 0 ≤ (4 * (p : ℝ) ^ 2 - 2 * (p + 1)) * (u * M) ^ 2 := mul_nonneg (by nlinarith) (sq_nonneg _)
    linarith) hVq
  have hs0 := Real.sqrt_nonneg b
  have hr0 := Real.sqrt_nonneg V
  set s := Real.sqrt b
  set r := Real.sqrt V
  set σ := stdDev (w.map Prod.snd)
  have hval : val (Arith.sqrt (Arith.moments (w.map Prod.fst)).2) = rnd (α := α) (fin r) := Q _ V hV hV0
  have hpuM : p * u * M ≤ M / 32 := by nlinarith
  have huM : u * M ≤ M / 64 := by nlinarith
  have hs1 : s ≤ 5 / 4 * M := by nlinarith
  have hg : 2 * ((p : ℝ) + 1) * u * s ≤ 2 * (p + 1) * u * (5 / 4 * M) := mul_le_mul_of_nonneg_left hs1 (by positivity)
  have hpuM0 : 0 ≤ u * M := by positivity
  have hpuM1 : u * M ≤ p * u * M := by nlinarith
  have hrs : |r - σ| ≤ 2 * (p + 1) * u * (5 / 4 * M) + 2 * p * u * M + 4 * (p + 1) * u * M := by
    refine (abs_sub_le r s σ).trans (add_le_add (hr.trans (by linarith)) ?_)
    rw [abs_le]; constructor <;> linarith
  refine (A.round hval hrs (X := M) (by rwa [abs_of_nonneg hσ0]) ?_).mono ?_
  · nlinarith
  · nlinarith

/-- the deviation of the last `p` samples -/
theorem movingStd_close {l : List (α × ℝ)} (h : ∀ z ∈ l, Is M z.1 z.2) :
    Close (movingStd p (l.map Prod.fst) : α) (movingStdR p (l.map Prod.snd)) (18 * p * u * M) ∧ |movingStdR p (l.map Prod.snd)| ≤ M := by
  have hu := A.u_nonneg
  have hM : 0 ≤ M := A.c_nonneg.trans hcM
  unfold movingStd movingStdR
  simp only [List.length_map]
  split
  · exact ⟨(Close.exact (val_zero (α := α))).mono (by positivity), by simpa using hM⟩
  rename_i hl
  have hm := movingAvg_close A hp hpN hpu hcM hΩ h
  rw [movingAvg, movingAvgK, List.length_map, List.length_map, if_neg hl, if_neg hl] at hm
  have e1 : window p (l.map Prod.fst) = (window p l).map Prod.fst := by simp [window]
  have e2 : window p (l.map Prod.snd) = (window p l).map Prod.snd := by simp [window]
  rw [e1, e2] at hm ⊢
  have hn : (window p l).length = p := by rw [window_length]; omega
  refine std_close A Q hp hpN hpu hcM hcM2 hΩ hΩ2 hn (fun z hz => h z (mem_of_mem_window hz)) ?_
  rwa [Arith.mean, List.length_map, hn]

/-- **C70, moving standard deviation**: the error is at most `18 p u M`, although it is the root of a sum of squares of differences. -/
theorem C70_msd : Approximates (MSD (p : Int) : Operator α) (MSD (p : Int) : Operator (XR ℝ)) vSBuf finSeries vSBuf finSeries (Is M) (fun a x => Close a x (18 * p * u * M)) :=
  ((C29_msd_streams hp []).scalar fun l _ => movingStd_pt p l).approximates (msd_reals hp) fun _ _ h => (movingStd_close A Q hp hpN hpu hcM hcM2 hΩ hΩ2 h).1

theorem band_close {k : ℚ} (hk : |(k : ℝ)| ≤ Ω) (hΩk : 4 * (|(k : ℝ)| + 1) * M ≤ Ω) {l : List (α × ℝ)} (h : ∀ z ∈ l, Is M z.1 z.2) :
    Close (movingStd p (l.map Prod.fst) * Arith.ofRat k : α) (movingStdR p (l.map Prod.snd) * k) (22 * p * (|(k : ℝ)| + 1) * u * M) ∧
      |movingStdR p (l.map Prod.snd) * k| ≤ M * |(k : ℝ)| := by
  have hu := A.u_nonneg
  have hc := A.c_nonneg
  have hM : 0 ≤ M := hc.trans hcM
  have hp1 : (1 : ℝ) ≤ p := by exact_mod_cast hp
  have hpu' : (p : ℝ) * u ≤ 1 / 32 := by nlinarith
  have hu' : u ≤ 1 / 64 := by nlinarith
  have hcu := A.c_le
  obtain ⟨h1, h2⟩ := movingStd_close A Q hp hpN hpu hcM hcM2 hΩ hΩ2 h
  have hk0 := abs_nonneg (k : ℝ)
  set κ := |(k : ℝ)| with eκ
  have hab : |movingStdR p (l.map Prod.snd) * k| ≤ M * κ := by rw [abs_mul]; exact mul_le_mul h2 le_rfl hk0 hM
  refine ⟨?_, hab⟩
  have h3 := (Close.ofRat A (α := α) (q := k) hk).mono (mul_le_mul_of_nonneg_left (show κ + c ≤ κ + 1 by linarith) hu)
  clear_value κ
  have huM : 0 ≤ u * M := by positivity
  have hx : 0 ≤ u * M * (κ + 1) := by positivity
  obtain ⟨E, eE⟩ : ∃ E : ℝ, E = 18 * p * u * M * κ + M * (u * (κ + 1)) + 18 * p * u * M * (u * (κ + 1)) := ⟨_, rfl⟩
  have h4 : 18 * p * u * M * (u * (κ + 1)) ≤ u * M * (κ + 1) := by
    have := mul_le_mul_of_nonneg_right (show 18 * (p * u) ≤ 1 by linarith) hx
    linarith
  have hE : E ≤ 18 * p * u * M * κ + 2 * (u * M * (κ + 1)) := by rw [eE]; linarith
  have hE1 : E ≤ M * (κ + 1) := by
    have h5 := mul_le_mul_of_nonneg_right (show 18 * (p * u) ≤ 18 / 32 by linarith) (show 0 ≤ M * κ by positivity)
    have h6 := mul_le_mul_of_nonneg_right (show 2 * u ≤ 1 / 32 by linarith) (show 0 ≤ M * (κ + 1) by positivity)
    have h7 : 0 ≤ M * κ := by positivity
    linarith
  have hMκ : 0 ≤ M * κ := by positivity
  have := Close.mul A h1 h3 h2 (Y := κ) eκ.ge (by rw [← eE]; linarith)
  refine this.mono ?_
  rw [← eE]
  have hp2 := mul_le_mul_of_nonneg_right hp1 hx
  have h5 := mul_le_mul_of_nonneg_left (show M * κ + E + c ≤ 2 * (M * (κ + 1)) by linarith) hu
  have h6 : 0 ≤ p * (u * M) := by positivity
  linarith

/-- **C70, Bollinger bands.** -/
theorem C70_bollinger {k : ℚ} (hk : |(k : ℝ)| ≤ Ω) (hΩk : 4 * (|(k : ℝ)| + 1) * M ≤ Ω) :
    Approximates (BollingerBands (p : Int) k : Operator α) (BollingerBands (p : Int) k : Operator (XR ℝ)) vSBuf finSeries vSBuf3 finSeries3 (Is M)
      (fun a x => Close a.1 x.1 (30 * p * (|(k : ℝ)| + 1) * u * M) ∧ Close a.2.1 x.2.1 (4 * p * u * M) ∧ Close a.2.2 x.2.2 (30 * p * (|(k : ℝ)| + 1) * u * M)) := by
  refine (C30_bollinger_scalar hp k).approximates (bollinger_reals hp k) fun l _ h => ?_
  have hu := A.u_nonneg
  have hc := A.c_nonneg
  have hM : 0 ≤ M := hc.trans hcM
  have hp1 : (1 : ℝ) ≤ p := by exact_mod_cast hp
  have hpu' : (p : ℝ) * u ≤ 1 / 32 := by nlinarith
  have hk0 := abs_nonneg (k : ℝ)
  obtain ⟨h1, h2⟩ := band_close A Q hp hpN hpu hcM hcM2 hΩ hΩ2 hk hΩk h
  have h3 := movingAvg_close A hp hpN hpu hcM hΩ h
  set κ := |(k : ℝ)|
  have h4 : |movingAvgK p (l.map Prod.snd)| ≤ M := by
    rw [movingAvgK]
    split
    · simpa using hM
    · rename_i hl
      refine abs_le.2 (avg_between (window_ne_nil hp (by rw [← List.length_pos_iff]; omega)) fun x hx => ?_)
      obtain ⟨z, hz, rfl⟩ := List.mem_map.1 (window_mem x hx)
      exact abs_le.1 (h z hz).2
  have hx : 0 ≤ u * M * (κ + 1) := by positivity
  have hx1 : u * M ≤ u * M * (κ + 1) := by nlinarith [mul_nonneg hu hM, mul_nonneg (mul_nonneg hu hM) hk0]
  have hsum : 4 * p * u * M + 22 * p * (κ + 1) * u * M ≤ 26 * (p * (u * M * (κ + 1))) := by nlinarith
  have hsum1 : 26 * (p * (u * M * (κ + 1))) ≤ M * (κ + 1) := by
    have : 26 * (p * (u * M * (κ + 1))) = 26 * (p * u) * (M * (κ + 1)) := by ring
    rw [this]; nlinarith [mul_nonneg hM (by linarith : 0 ≤ κ + 1)]
  have hp2 : u * M * (κ + 1) ≤ p * (u * M * (κ + 1)) := by nlinarith
  have hMk : 0 ≤ M * κ := by positivity
  have fin : ∀ E, E = 4 * p * u * M + 22 * p * (κ + 1) * u * M → M * (κ + 1) + E ≤ Ω ∧ E + u * (M * (κ + 1) + E + c) ≤ 30 * p * (κ + 1) * u * M := by
    intro E hE
    have hE1 : E ≤ M * (κ + 1) := by linarith
    refine ⟨by linarith, ?_⟩
    have h5 : u * (M * (κ + 1) + E + c) ≤ 3 * (u * M * (κ + 1)) := by
      have : M * (κ + 1) + E + c ≤ 3 * (M * (κ + 1)) := by nlinarith
      nlinarith
    linarith
  obtain ⟨f1, f2⟩ := fin _ rfl
  refine ⟨(Close.sub A h3 h1 (X := M * (κ + 1)) ?_ f1).mono f2, h3, (Close.add A h3 h1 (X := M * (κ + 1)) ?_ f1).mono f2⟩
  · have := abs_sub (movingAvgK p (l.map Prod.snd)) (movingStdR p (l.map Prod.snd) * k); linarith
  · have := abs_add_le (movingAvgK p (l.map Prod.snd)) (movingStdR p (l.map Prod.snd) * k); linarith

end

/-- binary32 rounds square roots -/
theorem sqrtRounded32 : SqrtRounded (F32 ℝ) ℝ Real.sqrt := by
  intro a x h hx
  show round32 (XR.sqrt a.val) = round32 _
  rw [show a.val = fin x from h]
  simp only [XR.sqrt, not_lt.2 hx, if_false]
  rfl

example := C70_msd (α := F32 ℝ) round32_accurate sqrtRounded32 (p := 14) (by norm_num) (by norm_num) (by norm_num) (M := 1000) (by norm_num) (by norm_num) (by norm_num) (by norm_num)
example := C70_bollinger (α := F32 ℝ) round32_accurate sqrtRounded32 (p := 20) (by norm_num) (by norm_num) (by norm_num) (M := 1000) (by norm_num) (by norm_num) (by norm_num) (by norm_num)
  (k := 2) (by norm_num) (by norm_num)

/-- **C70, binary32**: deviations over fewer than 2^18 samples of size 2^-51 to 2^50. -/
theorem C70_msd_binary32 {p : Nat} (hp : 0 < p) (hp' : p < 2 ^ 18) {M : ℝ} (h1 : 2 ^ (-51 : Int) ≤ M) (h2 : M ≤ 2 ^ 50) :
    Approximates (MSD (p : Int) : Operator (F32 ℝ)) (MSD (p : Int) : Operator (XR ℝ)) vSBuf finSeries vSBuf finSeries (Is M) (fun a x => Close a x (18 * p * 2 ^ (-24 : Int) * M)) := by
  have hpK : (p : ℝ) + 1 ≤ 2 ^ 18 := by exact_mod_cast hp'
  have hM0 : (0 : ℝ) < 2 ^ (-51 : Int) := by positivity
  have hsq : M ^ 2 ≤ (2 ^ 50) ^ 2 := pow_le_pow_left₀ (by linarith) h2 2
  have hsq' : ((2 : ℝ) ^ (-51 : Int)) ^ 2 ≤ M ^ 2 := pow_le_pow_left₀ hM0.le h1 2
  refine C70_msd (α := F32 ℝ) round32_accurate sqrtRounded32 hp (by omega) ?_ ?_ ?_ ?_ ?_
  · norm_num; norm_num at hpK; linarith
  · refine le_trans ?_ h1; norm_num
  · norm_num at hsq' ⊢; linarith
  · norm_num at hpK h2 ⊢; nlinarith
  · norm_num at hpK hsq ⊢; nlinarith [sq_nonneg M]
example := C70_msd_binary32 (p := 14) (by norm_num) (by norm_num) (M := 1000) (by norm_num) (by norm_num)

end TS
