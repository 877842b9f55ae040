import Verif.Props.Accuracy8
/-
C70: logarithmic returns and volatility in floating-point arithmetic.
-/
namespace TS
open PyVal XR FloatArith
set_option linter.unusedSectionVars false
variable {α : Type} [TFNum α] [F : FloatArith α ℝ] {u c Ω : ℝ} {N : Nat}

theorem movingStdR_near {A : Type} {p : Nat} (hp : 0 < p) {w : List A} (hw : ¬ w.length < p) {f g : A → ℝ} {e : ℝ} (h : ∀ z ∈ w, |f z - g z| ≤ e) :
    |movingStdR p (w.map f) - movingStdR p (w.map g)| ≤ 2 * e := by
  rw [movingStdR, movingStdR, if_neg (by rwa [List.length_map]), if_neg (by rwa [List.length_map]), window_map, window_map]
  exact stdDev_near (window_ne_nil hp (by rintro rfl; simp at hw; omega)) fun x hx => h x (mem_of_mem_window hx)

section
variable (A : Accurate (rnd (α := α)) u c Ω N) (W : LogRounded α Real.log) (hu1 : 32 * u ≤ 1) {m M : ℝ} (hm : 0 < m) (hmM : m ≤ M) (hcm : c ≤ m / M) (hΩ : 2 * (M / m) + 2 ≤ Ω)
include A W hu1 hm hmM hcm hΩ

/-- the logarithm of a quotient -/
theorem log_close {a b : α} {x y : ℝ} (ha : val a = fin x) (hb : val b = fin y) (hx : m ≤ x ∧ x ≤ M) (hy : m ≤ y ∧ y ≤ M) :
    Close (Arith.log (a / b)) (Real.log (x / y)) (u * (Real.log (M / m) + 3)) ∧ |Real.log (x / y)| ≤ Real.log (M / m) := by
  have hu := A.u_nonneg
  have hcu := A.c_le
  have hM := hm.trans_le hmM
  have hx0 := hm.trans_le hx.1
  have hy0 := hm.trans_le hy.1
  have hq0 : 0 < x / y := by positivity
  have hqu : x / y ≤ M / m := div_le_div₀ hM.le hx.2 hm hy.1
  have hql : m / M ≤ x / y := div_le_div₀ hx0.le hx.1 hy0 hy.2
  have hL : |Real.log (x / y)| ≤ Real.log (M / m) := by
    rw [abs_le]
    refine ⟨?_, Real.log_le_log hq0 hqu⟩
    rw [← Real.log_inv, inv_div]
    exact Real.log_le_log (by positivity) hql
  refine ⟨?_, hL⟩
  have hL0 : 0 ≤ Real.log (M / m) := (abs_nonneg _).trans hL
  have hLM : Real.log (M / m) ≤ M / m := (Real.log_le_sub_one_of_pos (by positivity)).trans (by linarith)
  obtain ⟨q, h1, h2⟩ := A.close (x / y) (by rw [abs_of_pos hq0]; have : 0 < M / m := by positivity
                                            linarith)
  rw [abs_of_pos hq0] at h2
  have h3 : |q - x / y| ≤ 2 * u * (x / y) := h2.trans (by nlinarith)
  have h4 := abs_le.1 h3
  have hq : 0 < q := by nlinarith
  have hv : val (Arith.log (a / b)) = rnd (α := α) (fin (Real.log q)) := by
    refine W _ _ ?_ hq
    rw [F.div_eq _ _ (by rw [hb]; simpa using hy0.ne'), ha, hb, ← h1]; congr 1; exact XR.fin_div _ _ hy0.ne'
  have h5 : |Real.log q - Real.log (x / y)| ≤ 5 / 2 * u := by
    rw [← Real.log_div hq.ne' hq0.ne']
    have hr0 : 0 < q / (x / y) := by positivity
    have r1 : q / (x / y) ≤ 1 + 2 * u := by rw [div_le_iff₀ hq0]; linarith
    have r2 : 1 - 2 * u ≤ q / (x / y) := by rw [le_div_iff₀ hq0]; linarith
    rw [abs_le]
    constructor
    · have := Real.one_sub_inv_le_log_of_pos hr0
      refine le_trans ?_ this
      have : (q / (x / y))⁻¹ ≤ 1 + 5 / 2 * u := by
        rw [inv_le_comm₀ hr0 (by positivity)]
        refine le_trans ?_ r2
        rw [inv_le_iff_one_le_mul₀ (by positivity)]
        nlinarith
      linarith
    · have := Real.log_le_sub_one_of_pos hr0
      linarith
  refine (A.round hv h5 hL (by linarith)).mono ?_
  have : u * (5 / 2 * u + c) ≤ u * (1 / 2) := mul_le_mul_of_nonneg_left (by linarith) hu
  nlinarith

/-- the logarithmic return -/
theorem logGrowth_close {p : Nat} {l : List (α × ℝ)} (h : ∀ z ∈ l, Is M z.1 z.2 ∧ m ≤ z.2) :
    Close (growth (fun v p => Arith.log (v / p)) p (l.map Prod.fst)) (logGrowth p (l.map Prod.snd)) (u * (Real.log (M / m) + 3)) ∧ |logGrowth p (l.map Prod.snd)| ≤ Real.log (M / m) := by
  have hu := A.u_nonneg
  have hM := hm.trans_le hmM
  have hL0 : 0 ≤ Real.log (M / m) := Real.log_nonneg ((one_le_div hm).2 hmM)
  rcases Nat.lt_or_ge p l.length with hl | hl
  · have e := growth_take (f := fun v p => Arith.log (v / p)) (p := p) (i := l.length - 1) (xs := l.map Prod.fst) (by simp; omega)
    rw [List.take_of_length_le (by simp; omega), dif_pos (by omega)] at e
    have i1 := h l[l.length - 1] (by simp)
    have i2 := h l[l.length - 1 - p] (by simp)
    rw [if_neg (by
      rw [F.eq_eq, List.getElem_map, i2.1.1, val_ofRat_zero]
      have : l[l.length - 1 - p].2 ≠ 0 := by have := i2.2; intro e; linarith
      simp [XR.eq, this])] at e
    rw [e, logGrowth, dif_pos (by simpa using hl)]
    simp only [List.getElem_map, List.length_map]
    exact log_close A W hu1 hm hmM hcm hΩ i1.1.1 i2.1.1 ⟨i1.2, (abs_le.1 i1.1.2).2⟩ ⟨i2.2, (abs_le.1 i2.1.2).2⟩
  · rw [growth, if_pos (.inl (by simpa using hl)), logGrowth, dif_neg (by simpa using hl)]
    exact ⟨(Close.exact val_zero).mono (by positivity), by simpa using hL0⟩

/-- **C70, logarithmic returns** on samples between `m` and `M`. -/
theorem C70_logReturn {p : Nat} (hp : 0 < p) : Approximates (LogReturn (p : Int) : Operator α) (LogReturn (p : Int) : Operator (XR ℝ)) vSBuf finSeries vSBuf vSBuf
    (fun a x => Is M a x ∧ m ≤ x) (fun a x => ∃ y, x = fin y ∧ Close a y (u * (Real.log (M / m) + 3))) := by
  refine (C37_logReturn_streams (by rw [F.eq_eq, val_zero, val_ofRat_zero]; simp [XR.eq]) hp).approximates
    (by simpa only [List.map_id] using (C37_logReturn_streams (α := XR ℝ) XR.zero_eq_zero hp).comap XR.fin id (y' := fun l => growth (fun v p => Arith.log (v / p)) p (l.map XR.fin)) fun _ _ => rfl) fun l _ h => ?_
  refine ⟨logGrowth p (l.map Prod.snd), ?_, (logGrowth_close A W hu1 hm hmM hcm hΩ h).1⟩
  exact growth_fin (g := fun a b => Real.log (a / b)) (fun a b ha hb => log_fin ha hb) (by simp only [List.mem_map]; rintro _ ⟨z, hz, rfl⟩; exact hm.trans_le (h z hz).2)

/-- **C70, volatility** on samples between `m` and `M`. -/
theorem C70_volatility (Q : SqrtRounded α ℝ Real.sqrt) {p r : Nat} (hp : 0 < p) (hr : 0 < r) (hpN : p ≤ N) (hpu : 32 * ((p : ℝ) + 1) * u ≤ 1)
    (hΩ2 : 32 * ((p : ℝ) + 1) * ((2 * (Real.log (M / m) + 1)) ^ 2 + 1) ≤ Ω) :
    Approximates (Volatility (p : Int) r : Operator α) (Volatility (p : Int) r : Operator (XR ℝ)) vSBuf finSeries vSBuf vSBuf
      (fun a x => Is M a x ∧ m ≤ x) (fun a x => ∃ y, x = fin y ∧ Close a y (42 * p * u * (Real.log (M / m) + 1))) := by
  have hu := A.u_nonneg
  have hcu := A.c_le
  have hp1 : (1 : ℝ) ≤ p := by exact_mod_cast hp
  have hL0 : 0 ≤ Real.log (M / m) := Real.log_nonneg ((one_le_div hm).2 hmM)
  refine (C38_volatility_streams (by rw [F.eq_eq, val_zero, val_ofRat_zero]; simp [XR.eq]) hp hr).approximates
    (by simpa only [List.map_id] using (C38_volatility_streams (α := XR ℝ) XR.zero_eq_zero hp hr).comap XR.fin id (y' := fun l => volatility p r (l.map XR.fin)) fun _ _ => rfl) fun l _ h => ?_
  have hpos : ∀ x ∈ l.map Prod.snd, 0 < x := by simp only [List.mem_map]; rintro _ ⟨z, hz, rfl⟩; exact hm.trans_le (h z hz).2
  refine ⟨if l.length ≤ max p r then 0 else movingStdR p (scan (logGrowth r) [] (l.map Prod.snd)), ?_, ?_⟩
  · simp only [volatility, List.length_map]
    split
    · simp
    · rw [← movingStd_fin hp]
      congr 1
      simp only [scan, List.length_map, List.map_map, List.nil_append, ← List.map_take]
      exact List.map_congr_left fun i _ => by
        rw [← List.map_map]
        exact growth_fin (g := fun a b => Real.log (a / b)) (fun a b ha hb => log_fin ha hb) fun x hx => hpos x (by rw [List.map_take] at hx; exact List.mem_of_mem_take hx)
  · simp only [volatility, List.length_map]
    split
    · exact (Close.exact val_zero).mono (by positivity)
    rename_i hlen
    -- the computed returns, their values, and the exact returns
    have key : ∀ i : Nat, ∃ z : α × ℝ × ℝ, z.1 = growth (fun v p => Arith.log (v / p)) r ((l.map Prod.fst).take (i + 1)) ∧ z.2.2 = logGrowth r ((l.map Prod.snd).take (i + 1)) ∧
        val z.1 = fin z.2.1 ∧ |z.2.1 - z.2.2| ≤ u * (Real.log (M / m) + 3) ∧ |z.2.2| ≤ Real.log (M / m) := fun i => by
      obtain ⟨⟨y, h1, h2⟩, h3⟩ := logGrowth_close A W hu1 hm hmM hcm hΩ (p := r) (l := l.take (i + 1)) fun z hz => h z (List.mem_of_mem_take hz)
      rw [List.map_take] at h1 h2 h3
      exact ⟨(_, y, _), rfl, rfl, h1, h2, h3⟩
    choose z z1 z2 z3 z4 z5 using key
    set w : List (α × ℝ × ℝ) := (List.range l.length).map z with hw
    have e1 : scan (growth (fun v p => Arith.log (v / p)) r) [] (l.map Prod.fst) = (w.map fun z => (z.1, z.2.1)).map Prod.fst := by
      simp only [hw, scan, List.map_map, List.length_map, List.nil_append]
      exact List.map_congr_left fun i _ => (z1 i).symm
    have e2 : scan (logGrowth r) [] (l.map Prod.snd) = w.map fun z => z.2.2 := by
      simp only [hw, scan, List.map_map, List.length_map, List.nil_append]
      exact List.map_congr_left fun i _ => (z2 i).symm
    have hwl : w.length = l.length := by simp [hw]
    have hB : ∀ z ∈ w, |z.2.1 - z.2.2| ≤ u * (Real.log (M / m) + 3) ∧ |z.2.2| ≤ Real.log (M / m) ∧ val z.1 = fin z.2.1 := by
      simp only [hw, List.mem_map]; rintro _ ⟨i, -, rfl⟩; exact ⟨z4 i, z5 i, z3 i⟩
    have hB1 : 1 ≤ 2 * (Real.log (M / m) + 1) := by linarith
    have h1 := (movingStd_close A Q hp hpN hpu (M := 2 * (Real.log (M / m) + 1)) (by linarith) (hcu.trans (le_mul_of_one_le_right hu (one_le_pow₀ hB1))) (by
      refine le_trans ?_ hΩ2
      generalize 2 * (Real.log (M / m) + 1) = B at hB1
      have : 4 * B ≤ 32 * (B ^ 2 + 1) := by nlinarith
      nlinarith) hΩ2 (l := w.map fun z => (z.1, z.2.1)) (by
      simp only [List.mem_map]; rintro _ ⟨z, hz, rfl⟩
      obtain ⟨b1, b2, b3⟩ := hB z hz
      refine ⟨b3, ?_⟩
      have := abs_add_le (z.2.1 - z.2.2) z.2.2
      rw [sub_add_cancel] at this
      nlinarith)).1
    rw [show (w.map fun z => (z.1, z.2.1)).map Prod.snd = w.map fun z => z.2.1 by rw [List.map_map]; rfl] at h1
    rw [e1, e2]
    have hlw : ¬ w.length < p := by omega
    have h2 := movingStdR_near hp hlw (f := fun z => z.2.1) (g := fun z => z.2.2) fun z hz => (hB z hz).1
    refine (Close.of h1).mono (le_trans (add_le_add le_rfl h2) ?_)
    clear h1 h2 hB e1 e2 z1 z2 z3 z4 z5 hΩ2 hΩ
    generalize Real.log (M / m) = L at hL0
    have h3 : u ≤ p * u := le_mul_of_one_le_left hu hp1
    have h4 := mul_le_mul_of_nonneg_right h3 hL0
    have h5 := mul_nonneg hu hL0
    linarith

end

/-- binary32 rounds logarithms (in the model; the C library's `logf` is this accurate in most implementations) -/
theorem logRounded32 : LogRounded (F32 ℝ) Real.log := by
  intro a x h hx
  show round32 (XR.log a.val) = round32 _
  rw [show a.val = fin x from h]
  simp only [XR.log, not_lt.2 hx.le, hx.ne', if_false]
  rfl

example := C70_volatility (α := F32 ℝ) round32_accurate logRounded32 (by norm_num) (m := 10) (M := 10) (by norm_num) (by norm_num) (by norm_num) (by norm_num) sqrtRounded32 (p := 5) (r := 2) (by norm_num) (by norm_num) (by norm_num) (by norm_num) (by norm_num)
example := C70_logReturn (α := F32 ℝ) round32_accurate logRounded32 (by norm_num) (m := 10) (M := 1000) (by norm_num) (by norm_num) (by norm_num) (by norm_num) (p := 5) (by norm_num)

theorem binary32_range {m M : ℝ} (hm : 0 < m) (hmM : m ≤ M) (h : M ≤ 2 ^ 125 * m) : (2 : ℝ) ^ (-126 : Int) ≤ m / M ∧ 2 * (M / m) + 2 ≤ 2 ^ 127 ∧ Real.log (M / m) ≤ 125 := by
  have hM := hm.trans_le hmM
  have h1 : M / m ≤ 2 ^ 125 := by rw [div_le_iff₀ hm]; exact h
  refine ⟨?_, ?_, ?_⟩
  · rw [le_div_iff₀ hM]
    have : (2 : ℝ) ^ (-126 : Int) * M ≤ 2 ^ (-126 : Int) * (2 ^ 125 * m) := mul_le_mul_of_nonneg_left h (by positivity)
    norm_num at this ⊢
    linarith
  · norm_num at h1 ⊢; linarith
  · refine (Real.log_le_log (by positivity) h1).trans ?_
    rw [Real.log_pow]
    have := Real.log_le_sub_one_of_pos (show (0 : ℝ) < 2 by norm_num)
    push_cast
    linarith

/-- **C70, logarithmic returns in binary32**: the prices must be positive and not differ by a factor of more than 2^125. -/
theorem C70_logReturn_binary32 {m M : ℝ} (hm : 0 < m) (hmM : m ≤ M) (h : M ≤ 2 ^ 125 * m) {p : Nat} (hp : 0 < p) :
    Approximates (LogReturn (p : Int) : Operator (F32 ℝ)) (LogReturn (p : Int) : Operator (XR ℝ)) vSBuf finSeries vSBuf vSBuf
    (fun a x => Is M a x ∧ m ≤ x) (fun a x => ∃ y, x = fin y ∧ Close a y (2 ^ (-24 : Int) * (Real.log (M / m) + 3))) :=
  C70_logReturn round32_accurate logRounded32 (by norm_num) hm hmM (binary32_range hm hmM h).1 (binary32_range hm hmM h).2.1 hp
example := C70_logReturn_binary32 (m := 10) (M := 1000) (by norm_num) (by norm_num) (by norm_num) (p := 5) (by norm_num)

/-- **C70, volatility in binary32** over fewer than 2^18 returns. -/
theorem C70_volatility_binary32 {m M : ℝ} (hm : 0 < m) (hmM : m ≤ M) (h : M ≤ 2 ^ 125 * m) {p r : Nat} (hp : 0 < p) (hp' : p < 2 ^ 18) (hr : 0 < r) :
    Approximates (Volatility (p : Int) r : Operator (F32 ℝ)) (Volatility (p : Int) r : Operator (XR ℝ)) vSBuf finSeries vSBuf vSBuf
      (fun a x => Is M a x ∧ m ≤ x) (fun a x => ∃ y, x = fin y ∧ Close a y (42 * p * 2 ^ (-24 : Int) * (Real.log (M / m) + 1))) := by
  have hpK : (p : ℝ) + 1 ≤ 2 ^ 18 := by exact_mod_cast hp'
  obtain ⟨h1, h2, h3⟩ := binary32_range hm hmM h
  have hL0 : 0 ≤ Real.log (M / m) := Real.log_nonneg ((one_le_div hm).2 hmM)
  refine C70_volatility round32_accurate logRounded32 (by norm_num) hm hmM h1 h2 sqrtRounded32 hp hr (by omega) (by norm_num; norm_num at hpK; linarith) ?_
  have hsq : (2 * (Real.log (M / m) + 1)) ^ 2 + 1 ≤ 2 ^ 17 := by nlinarith
  have := mul_le_mul hpK hsq (by positivity) (by positivity)
  norm_num at this ⊢
  linarith
example := C70_volatility_binary32 (m := 10) (M := 1000) (by norm_num) (by norm_num) (by norm_num) (p := 20) (r := 1) (by norm_num) (by norm_num) (by norm_num)

end TS
