import Verif.Props.Offset
/-
C64: order and distance.
-/
namespace TS
open PyVal XR
set_option linter.unusedSectionVars false

section
variable {K : Type} [Field K] [LinearOrder K] [IsStrictOrderedRing K] [Transc K] [FloorRing K]

theorem StreamsAs.preserves {op : Operator (XR K)} {y : List (XR K) → XR K} (h : StreamsAs op vSBuf vSBuf y) {R : K → K → Prop}
    (e : ∀ l : List (K × K), l ≠ [] → (∀ z ∈ l, R z.1 z.2) → ∃ a b, y (l.map fun z => XR.fin z.1) = XR.fin a ∧ y (l.map fun z => XR.fin z.2) = XR.fin b ∧ R a b) :
    Preserves R op := by
  intro zs hz hR
  obtain ⟨sf, s0, h1⟩ := h.at' (xs := zs.map fun z => XR.fin z.1) (by simpa using hz)
  obtain ⟨sf', s0', h2⟩ := h.at' (xs := zs.map fun z => XR.fin z.2) (by simpa using hz)
  have e' : ∀ i : Fin zs.length, ∃ o : K × K, y ((zs.take (i + 1)).map fun z => XR.fin z.1) = XR.fin o.1 ∧
      y ((zs.take (i + 1)).map fun z => XR.fin z.2) = XR.fin o.2 ∧ R o.1 o.2 := fun i => by
    obtain ⟨a, b, ha⟩ := e (zs.take (i + 1)) (by simpa using hz) fun z hz => hR z (List.mem_of_mem_take hz)
    exact ⟨(a, b), ha⟩
  choose o ho using e'
  refine ⟨List.ofFn o, sf, s0, sf', s0', ?_, ?_, by simp, ?_⟩
  · rw [h1]
    congr 3
    apply List.ext_getElem (by simp)
    intro i h1 h2
    simp only [List.length_map, List.length_ofFn] at h2
    simpa [scan_getElem, ← List.map_take] using (ho ⟨i, h2⟩).1
  · rw [h2]
    congr 3
    apply List.ext_getElem (by simp)
    intro i h1 h2
    simp only [List.length_map, List.length_ofFn] at h2
    simpa [scan_getElem, ← List.map_take] using (ho ⟨i, h2⟩).2.1
  · intro q hq
    obtain ⟨i, rfl⟩ := List.mem_ofFn.1 hq
    exact (ho i).2.2

/-- What a relation must be closed under. -/
structure Averaging (R : K → K → Prop) : Prop where
  zero : R 0 0
  mix : ∀ {a a' b b' w : K}, R a a' → R b b' → 0 ≤ w → w ≤ 1 → R (a + w * (b - a)) (a' + w * (b' - a'))
  avg : ∀ l : List (K × K), l ≠ [] → (∀ z ∈ l, R z.1 z.2) → R (avg (l.map Prod.fst)) (avg (l.map Prod.snd))
  min : ∀ {a a' b b' : K}, R a a' → R b b' → R (min a b) (min a' b')
  max : ∀ {a a' b b' : K}, R a a' → R b b' → R (max a b) (max a' b')

theorem sum_pairs_le (l : List (K × K)) (h : ∀ z ∈ l, z.1 ≤ z.2) : (l.map Prod.fst).sum ≤ (l.map Prod.snd).sum := by
  induction l with
  | nil => simp
  | cons z l ih =>
    simp only [List.map_cons, List.sum_cons]
    exact add_le_add (h z (by simp)) (ih fun z hz => h z (by simp [hz]))

theorem averaging_le : Averaging (K := K) (· ≤ ·) where
  zero := le_refl _
  mix {a a' b b' w} ha hb h0 h1 := by nlinarith [mul_le_mul_of_nonneg_left hb h0, mul_le_mul_of_nonneg_left ha (sub_nonneg.2 h1)]
  avg l hl h := by
    simp only [TS.avg, List.length_map]
    exact div_le_div_of_nonneg_right (sum_pairs_le l h) (by positivity)
  min := min_le_min
  max := max_le_max

theorem averaging_close {ε : K} (hε : 0 ≤ ε) : Averaging (K := K) (fun a b => |a - b| ≤ ε) where
  zero := by simpa using hε
  mix {a a' b b' w} ha hb h0 h1 := by
    rw [abs_le] at *
    constructor <;> nlinarith [mul_le_mul_of_nonneg_left hb.1 h0, mul_le_mul_of_nonneg_left hb.2 h0,
      mul_le_mul_of_nonneg_left ha.1 (sub_nonneg.2 h1), mul_le_mul_of_nonneg_left ha.2 (sub_nonneg.2 h1)]
  avg l hl h := by
    have h1 := averaging_le.avg (l.map fun z => (z.1, z.2 + ε)) (by simpa using hl) (by
      simp only [List.mem_map]; rintro _ ⟨z, hz, rfl⟩; have := (abs_le.1 (h z hz)).2; dsimp only; linarith)
    have h2 := averaging_le.avg (l.map fun z => (z.2, z.1 + ε)) (by simpa using hl) (by
      simp only [List.mem_map]; rintro _ ⟨z, hz, rfl⟩; have := (abs_le.1 (h z hz)).1; dsimp only; linarith)
    have s1 := avg_shift (l := l.map Prod.snd) (by simpa using hl) ε
    have s2 := avg_shift (l := l.map Prod.fst) (by simpa using hl) ε
    simp only [List.map_map, Function.comp_def] at h1 h2 s1 s2
    rw [s1] at h1
    rw [s2] at h2
    rw [abs_le]
    constructor
    · have : avg (l.map Prod.snd) ≤ avg (l.map Prod.fst) + ε := h2
      linarith
    · have : avg (l.map Prod.fst) ≤ avg (l.map Prod.snd) + ε := h1
      linarith
  min ha hb := (abs_min_sub_min_le_max _ _ _ _).trans (max_le ha hb)
  max ha hb := (abs_max_sub_max_le_max _ _ _ _).trans (max_le ha hb)

variable {R : K → K → Prop} (A : Averaging R)
include A

theorem Averaging.movingAvg (p : Nat) (hp : 0 < p) (l : List (K × K)) (h : ∀ z ∈ l, R z.1 z.2) : R (movingAvgK p (l.map Prod.fst)) (movingAvgK p (l.map Prod.snd)) := by
  simp only [movingAvgK, List.length_map]
  split
  · exact A.zero
  · rw [window_of_map, window_of_map]
    exact A.avg _ (window_ne_nil hp (by rw [← List.length_pos_iff]; omega)) fun z hz => h z (mem_of_mem_window hz)

theorem Averaging.recursive (p : Nat) (hp : 0 < p) {w : K} (hw : 0 ≤ w ∧ w ≤ 1) (l : List (K × K)) (h : ∀ z ∈ l, R z.1 z.2) :
    R (recursiveAvgK p (fun m x => m + w * (x - m)) (l.map Prod.fst)) (recursiveAvgK p (fun m x => m + w * (x - m)) (l.map Prod.snd)) := by
  simp only [recursiveAvgK, ← List.map_drop, ← List.map_take]
  have h0 := A.movingAvg p hp (l.take p) fun z hz => h z (List.mem_of_mem_take hz)
  have hd : ∀ z ∈ l.drop p, R z.1 z.2 := fun z hz => h z (List.mem_of_mem_drop hz)
  generalize movingAvgK p ((l.take p).map Prod.fst) = a at h0 ⊢
  generalize movingAvgK p ((l.take p).map Prod.snd) = b at h0 ⊢
  generalize l.drop p = l at hd
  induction l generalizing a b with
  | nil => exact h0
  | cons z l ih =>
    simp only [List.map_cons, List.foldl_cons]
    exact ih _ _ (A.mix h0 (hd z (by simp)) hw.1 hw.2) fun z hz => hd z (by simp [hz])

theorem preserves_sma {p : Nat} (hp : 0 < p) : Preserves R (SMA (p : Int)) :=
  ((C25_sma (α := XR K) hp []).scalar (y' := movingAvg p) fun l _ => movingAvg_pt p l).preserves fun l _ h =>
    ⟨_, _, by rw [← movingAvg_fin hp, List.map_map]; rfl, by rw [← movingAvg_fin hp, List.map_map]; rfl, A.movingAvg p hp l h⟩

theorem preserves_ema {p : Nat} (hp : 0 < p) : Preserves R (EMA (p : Int)) :=
  ((C26_ema (α := XR K) hp []).scalar (y' := expAvg p) fun l _ => expAvg_pt p l).preserves fun l _ h =>
    ⟨_, _, by rw [← expAvg_fin hp, List.map_map]; rfl, by rw [← expAvg_fin hp, List.map_map]; rfl, A.recursive p hp (ema_weight hp) l h⟩

theorem preserves_rma {p : Nat} (hp : 0 < p) : Preserves R (RMA (p : Int)) :=
  ((C27_rma (α := XR K) hp []).scalar (y' := rollAvg p) fun l _ => rollAvg_pt p l).preserves fun l _ h =>
    ⟨_, _, by rw [← rollAvg_fin hp, List.map_map]; rfl, by rw [← rollAvg_fin hp, List.map_map]; rfl, A.recursive p hp (rma_weight hp) l h⟩

theorem preserves_lag {p : Nat} (hp : 0 < p) : Preserves R (Lag (p : Int)) :=
  ((C17_lag_streams (α := XR K) hp []).scalar (y' := lagged Arith.zero p) fun l _ => lagged_of_map pt Arith.zero p l).preserves fun l _ h => by
    simp only [lagged, ← List.map_reverse, List.getElem?_map]
    cases e : l.reverse[p]? with
    | none => exact ⟨0, 0, by simp, by simp, A.zero⟩
    | some z => exact ⟨z.1, z.2, rfl, rfl, h z (List.mem_reverse.1 (List.mem_of_getElem? e))⟩

theorem preserves_globalMin : Preserves R GlobalMinimum := C20_global_min_streams.preserves fun l hl h => by
  obtain ⟨z, l, rfl⟩ := List.exists_cons_of_ne_nil hl
  simp only [runMin, List.map_cons]
  have hz := h z (by simp)
  have hd : ∀ z ∈ l, R z.1 z.2 := fun z hz => h z (by simp [hz])
  clear h hl
  obtain ⟨a, b⟩ := z
  induction l generalizing a b with
  | nil => exact ⟨a, b, rfl, rfl, hz⟩
  | cons z l ih =>
    simp only [List.map_cons, List.foldl_cons]
    have e : ∀ x m : K, (if TFNum.lt (XR.fin x) (XR.fin m) = true then XR.fin x else XR.fin m) = XR.fin (Min.min m x) := fun x m => by
      rw [lt_fin]
      rcases lt_or_ge x m with h | h
      · simp [h, min_eq_right h.le]
      · simp [not_lt.2 h, min_eq_left h]
    rw [e, e]
    exact ih (fun z hz => hd z (by simp [hz])) _ _ (A.min hz (hd z (by simp)))

theorem preserves_globalMax : Preserves R GlobalMaximum := C20_global_max_streams.preserves fun l hl h => by
  obtain ⟨z, l, rfl⟩ := List.exists_cons_of_ne_nil hl
  simp only [runMax, List.map_cons]
  have hz := h z (by simp)
  have hd : ∀ z ∈ l, R z.1 z.2 := fun z hz => h z (by simp [hz])
  clear h hl
  obtain ⟨a, b⟩ := z
  induction l generalizing a b with
  | nil => exact ⟨a, b, rfl, rfl, hz⟩
  | cons z l ih =>
    simp only [List.map_cons, List.foldl_cons]
    have e : ∀ x m : K, (if TFNum.lt (XR.fin m) (XR.fin x) = true then XR.fin x else XR.fin m) = XR.fin (Max.max m x) := fun x m => by
      rw [lt_fin]
      rcases lt_or_ge m x with h | h
      · simp [h, max_eq_right h.le]
      · simp [not_lt.2 h, max_eq_left h]
    rw [e, e]
    exact ih (fun z hz => hd z (by simp [hz])) _ _ (A.max hz (hd z (by simp)))

theorem preserves_redMin (l : List (K × K)) (hl : l ≠ []) (h : ∀ z ∈ l, R z.1 z.2) :
    ∃ a b, (Arith.redMin (l.map fun z => XR.fin z.1) : XR K) = XR.fin a ∧ (Arith.redMin (l.map fun z => XR.fin z.2) : XR K) = XR.fin b ∧ R a b := by
  induction l with
  | nil => exact absurd rfl hl
  | cons z l ih =>
    rcases l with _ | ⟨z', l⟩
    · exact ⟨z.1, z.2, min_pinf _, min_pinf _, h z (by simp)⟩
    · obtain ⟨a, b, h1, h2, h3⟩ := ih (by simp) fun z hz => h z (by simp [hz])
      exact ⟨_, _, by rw [List.map_cons, redMin_cons, h1, min_fin], by rw [List.map_cons, redMin_cons, h2, min_fin], A.min (h z (by simp)) h3⟩

theorem preserves_redMax (l : List (K × K)) (hl : l ≠ []) (h : ∀ z ∈ l, R z.1 z.2) :
    ∃ a b, (Arith.redMax (l.map fun z => XR.fin z.1) : XR K) = XR.fin a ∧ (Arith.redMax (l.map fun z => XR.fin z.2) : XR K) = XR.fin b ∧ R a b := by
  induction l with
  | nil => exact absurd rfl hl
  | cons z l ih =>
    rcases l with _ | ⟨z', l⟩
    · exact ⟨z.1, z.2, max_ninf _, max_ninf _, h z (by simp)⟩
    · obtain ⟨a, b, h1, h2, h3⟩ := ih (by simp) fun z hz => h z (by simp [hz])
      exact ⟨_, _, by rw [List.map_cons, redMax_cons, h1, max_fin], by rw [List.map_cons, redMax_cons, h2, max_fin], A.max (h z (by simp)) h3⟩

theorem preserves_localMin {p : Nat} (hp : 0 < p) : Preserves R (LocalMinimum (p : Int)) := (C21_local_min_streams hp).preserves fun l hl h => by
  rw [window_of_map, window_of_map]
  exact preserves_redMin A _ (window_ne_nil hp hl) fun z hz => h z (mem_of_mem_window hz)

theorem preserves_localMax {p : Nat} (hp : 0 < p) : Preserves R (LocalMaximum (p : Int)) := (C21_local_max_streams hp).preserves fun l hl h => by
  rw [window_of_map, window_of_map]
  exact preserves_redMax A _ (window_ne_nil hp hl) fun z hz => h z (mem_of_mem_window hz)

omit A

/-- **C64 Order and distance**, exact arithmetic: when no sample is smaller than before, no output of -/
theorem C64_isotone_sma {p : Nat} (hp : 0 < p) : Isotone (K := K) (SMA (p : Int)) := preserves_sma averaging_le hp
example := C64_isotone_sma (K := ℚ) (p := 2) (by norm_num)
theorem C64_isotone_ema {p : Nat} (hp : 0 < p) : Isotone (K := K) (EMA (p : Int)) := preserves_ema averaging_le hp
example := C64_isotone_ema (K := ℚ) (p := 2) (by norm_num)
theorem C64_isotone_rma {p : Nat} (hp : 0 < p) : Isotone (K := K) (RMA (p : Int)) := preserves_rma averaging_le hp
example := C64_isotone_rma (K := ℚ) (p := 2) (by norm_num)
theorem C64_isotone_lag {p : Nat} (hp : 0 < p) : Isotone (K := K) (Lag (p : Int)) := preserves_lag averaging_le hp
example := C64_isotone_lag (K := ℚ) (p := 2) (by norm_num)
theorem C64_isotone_globalMin : Isotone (K := K) GlobalMinimum := preserves_globalMin averaging_le
example := C64_isotone_globalMin (K := ℚ)
theorem C64_isotone_globalMax : Isotone (K := K) GlobalMaximum := preserves_globalMax averaging_le
example := C64_isotone_globalMax (K := ℚ)
theorem C64_isotone_localMin {p : Nat} (hp : 0 < p) : Isotone (K := K) (LocalMinimum (p : Int)) := preserves_localMin averaging_le hp
example := C64_isotone_localMin (K := ℚ) (p := 2) (by norm_num)
theorem C64_isotone_localMax {p : Nat} (hp : 0 < p) : Isotone (K := K) (LocalMaximum (p : Int)) := preserves_localMax averaging_le hp
example := C64_isotone_localMax (K := ℚ) (p := 2) (by norm_num)
/-- is smaller; and when every sample is off by at most `ε`, every output of -/
theorem C64_nonexpansive_sma {p : Nat} (hp : 0 < p) : Nonexpansive (K := K) (SMA (p : Int)) := fun _ h => preserves_sma (averaging_close h) hp
example := C64_nonexpansive_sma (K := ℚ) (p := 2) (by norm_num)
theorem C64_nonexpansive_ema {p : Nat} (hp : 0 < p) : Nonexpansive (K := K) (EMA (p : Int)) := fun _ h => preserves_ema (averaging_close h) hp
example := C64_nonexpansive_ema (K := ℚ) (p := 2) (by norm_num)
theorem C64_nonexpansive_rma {p : Nat} (hp : 0 < p) : Nonexpansive (K := K) (RMA (p : Int)) := fun _ h => preserves_rma (averaging_close h) hp
example := C64_nonexpansive_rma (K := ℚ) (p := 2) (by norm_num)
theorem C64_nonexpansive_lag {p : Nat} (hp : 0 < p) : Nonexpansive (K := K) (Lag (p : Int)) := fun _ h => preserves_lag (averaging_close h) hp
example := C64_nonexpansive_lag (K := ℚ) (p := 2) (by norm_num)
theorem C64_nonexpansive_globalMin : Nonexpansive (K := K) GlobalMinimum := fun _ h => preserves_globalMin (averaging_close h)
example := C64_nonexpansive_globalMin (K := ℚ)
theorem C64_nonexpansive_globalMax : Nonexpansive (K := K) GlobalMaximum := fun _ h => preserves_globalMax (averaging_close h)
example := C64_nonexpansive_globalMax (K := ℚ)
theorem C64_nonexpansive_localMin {p : Nat} (hp : 0 < p) : Nonexpansive (K := K) (LocalMinimum (p : Int)) := fun _ h => preserves_localMin (averaging_close h) hp
example := C64_nonexpansive_localMin (K := ℚ) (p := 2) (by norm_num)
/-- is off by at most `ε`. -/
theorem C64_nonexpansive_localMax {p : Nat} (hp : 0 < p) : Nonexpansive (K := K) (LocalMaximum (p : Int)) := fun _ h => preserves_localMax (averaging_close h) hp

end

example : output (call (EMA 2) (series [1, 2, 6]) none) = .ok (series [0, 3 / 2, 9 / 2]) ∧
    output (call (EMA 2) (series [1, 3, 7]) none) = .ok (series [0, 2, 16 / 3]) := ⟨by decide +kernel, by decide +kernel⟩

/-- The moving standard deviation is not monotone. -/
example : ∃ zs : List (ℚ × ℚ), (∀ z ∈ zs, z.1 ≤ z.2) ∧
    output (call (MSD 2) (series (zs.map Prod.fst)) none) = .ok (series [0, 1]) ∧ output (call (MSD 2) (series (zs.map Prod.snd)) none) = .ok (series [0, 0]) :=
  ⟨[(0, 2), (2, 2)], by decide +kernel, by decide +kernel, by decide +kernel⟩

end TS
