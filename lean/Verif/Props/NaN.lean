import Verif.Props.Order
/-
C65: missing numbers.
-/
namespace TS
open PyVal XR
set_option linter.unusedSectionVars false

section
variable {K : Type} [Field K] [LinearOrder K] [IsStrictOrderedRing K] [Transc K] [FloorRing K]

/-- A number, or NaN. -/
def orNaN : Option K → XR K
  | none => nan
  | some a => fin a

/-- Streaming `op` over numbers and NaNs outputs numbers and NaNs, NaN exactly where the samples so far satisfy `bad`. -/
def NaNWhen (op : Operator (XR K)) (bad : List (Option K) → Prop) : Prop :=
  ∀ xs : List (Option K), xs ≠ [] → ∃ (os : List (Option K)) (sf s0 : Val (XR K)),
    call op (vSBuf (xs.map orNaN)) none = .ok (vSBuf (os.map orNaN), sf, s0) ∧
    ∃ hl : os.length = xs.length, ∀ i (hi : i < xs.length), os[i] = none ↔ bad (xs.take (i + 1))

theorem StreamsAs.nanWhen {op : Operator (XR K)} {y : List (XR K) → XR K} (h : StreamsAs op vSBuf vSBuf y) {bad : List (Option K) → Prop}
    (e : ∀ l, l ≠ [] → ∃ o, y (l.map orNaN) = orNaN o ∧ (o = none ↔ bad l)) : NaNWhen op bad := by
  intro xs hx
  obtain ⟨sf, s0, h1⟩ := h.at' (xs := xs.map orNaN) (by simpa using hx)
  have e' : ∀ i : Fin xs.length, ∃ o : Option K, y ((xs.take (i + 1)).map orNaN) = orNaN o ∧ (o = none ↔ bad (xs.take (i + 1))) := fun i =>
    e _ (by simpa using hx)
  choose o ho using e'
  refine ⟨List.ofFn o, sf, s0, ?_, by simp, fun i hi => by simpa using (ho ⟨i, hi⟩).2⟩
  rw [h1]
  congr 3
  apply List.ext_getElem (by simp)
  intro i h1 h2
  simp only [List.length_map, List.length_ofFn] at h2
  simpa [scan_getElem, ← List.map_take] using (ho ⟨i, h2⟩).1

/-- A binary operation that is finite on numbers and NaN when one of the arguments is. -/
def Strict (f : XR K → XR K → XR K) : Prop := (∀ a b, ∃ c, f (fin a) (fin b) = fin c) ∧ (∀ x, f nan x = nan) ∧ ∀ x, f x nan = nan

theorem Strict.apply {f : XR K → XR K → XR K} (h : Strict f) (x y : Option K) : ∃ o, f (orNaN x) (orNaN y) = orNaN o ∧ (o = none ↔ x = none ∨ y = none) := by
  cases x with
  | none => exact ⟨none, h.2.1 _, by simp⟩
  | some a =>
    cases y with
    | none => exact ⟨none, h.2.2 _, by simp⟩
    | some b => obtain ⟨c, hc⟩ := h.1 a b; exact ⟨some c, hc, by simp⟩

theorem Strict.fold {f : XR K → XR K → XR K} (h : Strict f) (x : Option K) (l : List (Option K)) :
    ∃ o, (l.map orNaN).foldl f (orNaN x) = orNaN o ∧ (o = none ↔ x = none ∨ none ∈ l) := by
  induction l generalizing x with
  | nil => exact ⟨x, rfl, by simp⟩
  | cons z l ih =>
    obtain ⟨o, h1, h2⟩ := h.apply x z
    obtain ⟨o', h3, h4⟩ := ih o
    exact ⟨o', by rw [List.map_cons, List.foldl_cons, h1, h3], by rw [h4, h2, List.mem_cons, or_assoc, eq_comm (a := z)]⟩

theorem strict_add : Strict (K := K) (· + ·) := ⟨fun a b => ⟨_, fin_add a b⟩, fun x => by cases x <;> rfl, fun x => by cases x <;> rfl⟩
theorem strict_sub : Strict (K := K) (· - ·) := ⟨fun a b => ⟨_, fin_sub a b⟩, fun x => by cases x <;> rfl, fun x => by cases x <;> rfl⟩

theorem sum_orNaN (l : List (Option K)) : ∃ o, (Arith.sum (l.map orNaN) : XR K) = orNaN o ∧ (o = none ↔ none ∈ l) := by
  show ∃ o, (l.map orNaN).foldr add (fin 0) = orNaN o ∧ _
  induction l with
  | nil => exact ⟨some 0, rfl, by simp⟩
  | cons z l ih =>
    obtain ⟨o, h1, h2⟩ := ih
    obtain ⟨o', h3, h4⟩ := strict_add.apply z o
    exact ⟨o', by rw [List.map_cons, List.foldr_cons, h1]; exact h3, by rw [h4, h2, List.mem_cons, eq_comm (a := z)]⟩

theorem div_orNaN {p : Nat} (hp : 0 < p) (o : Option K) : ∃ o', (orNaN o / Arith.ofInt p : XR K) = orNaN o' ∧ (o' = none ↔ o = none) := by
  cases o with
  | none => exact ⟨none, rfl, by simp⟩
  | some a => exact ⟨some _, by rw [ofInt_eq]; exact fin_div _ _ (by exact_mod_cast hp.ne'), by simp⟩

theorem mean_orNaN {l : List (Option K)} (hl : l ≠ []) : ∃ o, (Arith.mean (l.map orNaN) : XR K) = orNaN o ∧ (o = none ↔ none ∈ l) := by
  obtain ⟨o, h1, h2⟩ := sum_orNaN l
  obtain ⟨o', h3, h4⟩ := div_orNaN (List.length_pos_iff.2 hl) o
  exact ⟨o', by rw [Arith.mean, h1, List.length_map, h3], h4.trans h2⟩

theorem movingAvg_orNaN {p : Nat} (hp : 0 < p) (l : List (Option K)) :
    ∃ o, movingAvg p (l.map orNaN) = orNaN o ∧ (o = none ↔ p ≤ l.length ∧ none ∈ window p l) := by
  simp only [movingAvg, List.length_map, window_of_map]
  split
  · exact ⟨some 0, zero_eq, by simp; omega⟩
  · obtain ⟨o, h1, h2⟩ := sum_orNaN (window p l)
    obtain ⟨o', h3, h4⟩ := div_orNaN hp o
    exact ⟨o', by rw [h1, h3], by rw [h4, h2, and_iff_right (by omega)]⟩

theorem recursiveAvg_orNaN {p : Nat} (hp : 0 < p) {f : XR K → XR K → XR K} (hf : Strict f) (l : List (Option K)) :
    ∃ o, recursiveAvg p f (l.map orNaN) = orNaN o ∧ (o = none ↔ p ≤ l.length ∧ none ∈ l) := by
  simp only [recursiveAvg, ← List.map_drop, ← List.map_take]
  obtain ⟨o, h1, h2⟩ := movingAvg_orNaN hp (l.take p)
  obtain ⟨o', h3, h4⟩ := hf.fold o (l.drop p)
  refine ⟨o', by rw [h1, h3], ?_⟩
  rw [h4, h2]
  by_cases hl : p ≤ l.length
  · have : window p (l.take p) = (l.take p).reverse := by rw [window, List.take_of_length_le (by simp)]
    rw [this, List.mem_reverse, List.length_take, and_iff_right (by omega), and_iff_right hl, ← List.mem_append, List.take_append_drop]
  · rw [List.drop_eq_nil_of_le (by omega), List.length_take]
    simp; omega

theorem nan_mul' (x : XR K) : (nan * x : XR K) = nan := by cases x <;> rfl
theorem mul_nan' (x : XR K) : (x * nan : XR K) = nan := by cases x <;> rfl
theorem nan_div' (x : XR K) : (nan / x : XR K) = nan := by cases x <;> rfl

theorem strict_exp (q r : ℚ) : Strict (K := K) (fun e x => x * Arith.ofRat q + e * Arith.ofRat r) := by
  refine ⟨fun a b => ⟨b * q + a * r, by simp⟩, fun x => ?_, fun x => ?_⟩
  · show _ + nan * _ = nan
    rw [nan_mul']; exact strict_add.2.2 _
  · show nan * _ + _ = nan
    rw [nan_mul']; exact strict_add.2.1 _

theorem strict_roll {p : Nat} (hp : 0 < p) : Strict (K := K) (fun e x => (e * Arith.ofInt ((p : Int) - 1) + x) / Arith.ofInt p) := by
  refine ⟨fun a b => ?_, fun x => ?_, fun x => ?_⟩
  · refine ⟨(a * ((((p : Int) - 1 : Int)) : K) + b) / ((p : Int) : K), ?_⟩
    beta_reduce
    rw [ofInt_eq, ofInt_eq, fin_mul, fin_add, fin_div _ _ (by exact_mod_cast hp.ne')]
  · show (nan * _ + x) / _ = nan
    rw [nan_mul', show (nan + x : XR K) = nan from strict_add.2.1 x]; exact nan_div' _
  · show (_ + nan) / _ = nan
    rw [show ∀ y : XR K, y + nan = nan from strict_add.2.2]; exact nan_div' _

/-- **C65 NaN samples**, exact arithmetic with NaN: a moving average is NaN exactly when it is warm and one of the samples it averages is; -/
theorem C65_sma {p : Nat} (hp : 0 < p) : NaNWhen (K := K) (SMA (p : Int)) (fun h => p ≤ h.length ∧ none ∈ window p h) :=
  ((C25_sma (α := XR K) hp []).scalar (y' := movingAvg p) fun l _ => movingAvg_pt p l).nanWhen fun l _ => movingAvg_orNaN hp l
example := C65_sma (K := ℚ) (p := 2) (by norm_num)

/-- a recursive average exactly when it is warm and any sample so far was NaN: one NaN poisons it for good; -/
theorem C65_ema {p : Nat} (hp : 0 < p) : NaNWhen (K := K) (EMA (p : Int)) (fun h => p ≤ h.length ∧ none ∈ h) :=
  ((C26_ema (α := XR K) hp []).scalar (y' := expAvg p) fun l _ => expAvg_pt p l).nanWhen fun l _ => recursiveAvg_orNaN hp (strict_exp _ _) l
example := C65_ema (K := ℚ) (p := 2) (by norm_num)
theorem C65_rma {p : Nat} (hp : 0 < p) : NaNWhen (K := K) (RMA (p : Int)) (fun h => p ≤ h.length ∧ none ∈ h) :=
  ((C27_rma (α := XR K) hp []).scalar (y' := rollAvg p) fun l _ => rollAvg_pt p l).nanWhen fun l _ => recursiveAvg_orNaN hp (strict_roll hp) l
example := C65_rma (K := ℚ) (p := 2) (by norm_num)

/-- the lag operator exactly when the sample `p` steps ago is; -/
theorem C65_lag {p : Nat} (hp : 0 < p) : NaNWhen (K := K) (Lag (p : Int)) (fun h => h.reverse[p]? = some none) :=
  ((C17_lag_streams (α := XR K) hp []).scalar (y' := lagged Arith.zero p) fun l _ => lagged_of_map pt Arith.zero p l).nanWhen fun l _ => by
    refine ⟨lagged (some 0) p l, ?_, ?_⟩
    · rw [show (Arith.zero : XR K) = orNaN (some 0) from zero_eq, lagged_of_map]
    · rw [lagged]; cases l.reverse[p]? <;> simp
example := C65_lag (K := ℚ) (p := 2) (by norm_num)

theorem momentum_pt (p : Nat) (l : List (XR K)) : momentum p (l.map (pt (α := XR K))) = pt (momentum p l) := by
  simp only [momentum, List.length_map]
  split
  · rfl
  · funext c
    show (List.map pt l).getLastD Arith.zero c - lagged Arith.zero p (l.map pt) c = _
    rw [show (Arith.zero : Idx [] → XR K) = pt Arith.zero from rfl, lagged_of_map, getLastD_of_map]
    rfl

/-- the momentum exactly when the sample or the one `p` steps ago is; -/
theorem C65_momentum {p : Nat} (hp : 0 < p) : NaNWhen (K := K) (Momentum (p : Int)) (fun h => p < h.length ∧ (h.getLast? = some none ∨ h.reverse[p]? = some none)) :=
  ((C19_momentum_streams (α := XR K) hp []).scalar (y' := momentum p) fun l _ => momentum_pt p l).nanWhen fun l hl => by
    simp only [momentum, List.length_map]
    split
    · exact ⟨some 0, zero_eq, by simp; omega⟩
    · next hlen =>
      obtain ⟨o, h1, h2⟩ := strict_sub.apply (l.getLastD (some 0)) (lagged (some 0) p l)
      refine ⟨o, ?_, ?_⟩
      · rw [← h1, show (Arith.zero : XR K) = orNaN (some 0) from zero_eq, lagged_of_map]
        congr 1
        rw [List.getLastD_eq_getLast?, List.getLastD_eq_getLast?, List.getLast?_map]
        cases l.getLast? <;> rfl
      · rw [h2, and_iff_right (by omega), List.getLastD_eq_getLast?, lagged]
        refine or_congr ?_ ?_
        · cases l.getLast? <;> simp
        · cases l.reverse[p]? <;> simp
example := C65_momentum (K := ℚ) (p := 2) (by norm_num)

theorem runExt_orNaN {better : XR K → XR K → Bool} (hn : ∀ x y, better x y = true → x ≠ nan ∧ y ≠ nan) (x : Option K) (l : List (Option K)) :
    ∃ o, (l.map orNaN).foldl (fun m v => if better v m then v else m) (orNaN x) = orNaN o ∧ (o = none ↔ x = none) := by
  induction l generalizing x with
  | nil => exact ⟨x, rfl, Iff.rfl⟩
  | cons z l ih =>
    simp only [List.map_cons, List.foldl_cons]
    split
    · next hb =>
      obtain ⟨o, h1, h2⟩ := ih z
      obtain ⟨h3, h4⟩ := hn _ _ hb
      refine ⟨o, h1, h2.trans ?_⟩
      cases z <;> cases x <;> simp_all [orNaN]
    · exact ih x

theorem lt_not_nan {x y : XR K} (h : TFNum.lt x y = true) : x ≠ nan ∧ y ≠ nan := by
  constructor
  · rintro rfl; revert h; cases y <;> exact Bool.noConfusion
  · rintro rfl; revert h; cases x <;> exact Bool.noConfusion

/-- and a global extremum exactly when the first sample is: later NaN samples are ignored, a NaN first sample stays. -/
theorem C65_globalMin : NaNWhen (K := K) GlobalMinimum (fun h => h.head? = some none) := C20_global_min_streams.nanWhen fun l hl => by
  obtain ⟨z, l, rfl⟩ := List.exists_cons_of_ne_nil hl
  simpa [runMin] using runExt_orNaN (better := fun v m => TFNum.lt v m) (fun _ _ => lt_not_nan) z l
example := C65_globalMin (K := ℚ)

theorem C65_globalMax : NaNWhen (K := K) GlobalMaximum (fun h => h.head? = some none) := C20_global_max_streams.nanWhen fun l hl => by
  obtain ⟨z, l, rfl⟩ := List.exists_cons_of_ne_nil hl
  simpa [runMax] using runExt_orNaN (better := fun v m => TFNum.lt m v) (fun _ _ h => (lt_not_nan h).symm) z l
example := C65_globalMax (K := ℚ)

end

theorem somes_of_no_nan {A : Type} {l : List (Option A)} (h : none ∉ l) : ∃ k : List A, l = k.map some := by
  induction l with
  | nil => exact ⟨[], rfl⟩
  | cons z l ih =>
    obtain ⟨k, rfl⟩ := ih fun hh => h (by simp [hh])
    cases z with
    | none => exact absurd (by simp) h
    | some a => exact ⟨a :: k, rfl⟩

theorem std_nan {l : List (Option ℝ)} (h : none ∈ l) : (Arith.sqrt (Arith.moments (l.map orNaN)).2 : XR ℝ) = nan := by
  have hl : l ≠ [] := List.ne_nil_of_mem h
  obtain ⟨o, h1, h2⟩ := mean_orNaN hl
  obtain rfl := h2.2 h
  obtain ⟨o', h3, h4⟩ := mean_orNaN (K := ℝ) (l := l.map fun _ => none) (by simpa using hl)
  have : o' = none := h4.2 (by obtain ⟨z, hz⟩ := List.exists_mem_of_ne_nil l hl; exact List.mem_map.2 ⟨z, hz, rfl⟩)
  subst this
  have e : (Arith.moments (l.map orNaN)).2 = (nan : XR ℝ) := by
    simp only [Arith.moments, h1]
    refine Eq.trans (congrArg Arith.mean ?_) h3
    rw [List.map_map, List.map_map]
    apply List.map_congr_left
    intro z _
    show (orNaN z - nan) * (orNaN z - nan) = (nan : XR ℝ)
    rw [show orNaN z - nan = (nan : XR ℝ) from strict_sub.2.2 _, nan_mul']
  rw [e]; rfl

/-- **C65**, the moving standard deviation (real numbers): like the moving average. -/
theorem C65_msd {p : Nat} (hp : 0 < p) : NaNWhen (K := ℝ) (MSD (p : Int)) (fun h => p ≤ h.length ∧ none ∈ window p h) :=
  ((C29_msd_streams (α := XR ℝ) hp []).scalar (y' := movingStd p) fun l _ => movingStd_pt p l).nanWhen fun l _ => by
    simp only [movingStd, List.length_map, window_of_map]
    split
    · exact ⟨some 0, zero_eq, by simp; omega⟩
    · by_cases h : none ∈ window p l
      · exact ⟨none, std_nan h, by simp [h]; omega⟩
      · obtain ⟨k, hk⟩ := somes_of_no_nan h
        have hk0 : k ≠ [] := by
          rintro rfl
          exact window_ne_nil (p := p) (l := l) hp (by rw [← List.length_pos_iff]; omega) hk
        refine ⟨some (stdDev k), ?_, by simp [h]⟩
        rw [hk, List.map_map]
        exact XR.std_fin hk0

/-- Examples: a NaN leaves the window of a moving average, poisons a recursive average, -/
example : output (call (SMA 2) (vSBuf [XR.fin (1 : ℚ), nan, fin 3, fin 5]) none) = .ok (vSBuf [fin 0, nan, nan, fin 4]) ∧
    output (call (EMA 2) (vSBuf [XR.fin (1 : ℚ), nan, fin 3, fin 5]) none) = .ok (vSBuf [fin 0, nan, nan, nan]) := ⟨by decide +kernel, by decide +kernel⟩
/-- and is ignored by the running minimum unless it comes first. -/
example : output (call GlobalMinimum (vSBuf [XR.fin (4 : ℚ), nan, fin 3]) none) = .ok (vSBuf [fin 4, fin 4, fin 3]) ∧
    output (call GlobalMinimum (vSBuf [nan, XR.fin (4 : ℚ), fin 3]) none) = .ok (vSBuf [nan, nan, nan]) := ⟨by decide +kernel, by decide +kernel⟩

end TS
