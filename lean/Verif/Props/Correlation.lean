import Verif.Props.AveragesExact
/-
C41, C42: correlation, cross-correlation and auto-correlation.
-/
namespace TS
open PyVal
variable {α : Type} [TFNum α] {s : List Nat}

/-! ### Lemmas about windows of pairs -/

theorem window_fst {A B : Type} (p : Nat) (l : List (A × B)) : window p (l.map Prod.fst) = (window p l).map Prod.fst := window_map _ p l
theorem window_snd {A B : Type} (p : Nat) (l : List (A × B)) : window p (l.map Prod.snd) = (window p l).map Prod.snd := window_map _ p l

theorem zipWith_maps {A B C D : Type} (f : B → C → D) (g : A → B) (h : A → C) (l : List A) :
    List.zipWith f (l.map g) (l.map h) = l.map fun x => f (g x) (h x) := by
  induction l <;> simp_all

/-! ### The coefficient of lists of real pairs -/

theorem covariance_sq_le (l : List (ℝ × ℝ)) : covariance l ^ 2 ≤ variance (l.map Prod.fst) * variance (l.map Prod.snd) := by
  rcases eq_or_ne l [] with rfl | hl
  · simp [covariance, variance, avg]
  have hn : (0 : ℝ) < l.length := by exact_mod_cast List.length_pos_iff.2 hl
  have := cauchy_schwarz (fun z : ℝ × ℝ => z.1 - avg (l.map Prod.fst)) (fun z => z.2 - avg (l.map Prod.snd)) l
  unfold covariance variance
  generalize avg (l.map Prod.fst) = a at *
  generalize avg (l.map Prod.snd) = b at *
  simp only [avg, List.map_map, List.length_map, Function.comp_def, div_pow]
  rw [div_mul_div_comm, pow_two (l.length : ℝ)]
  exact div_le_div_of_nonneg_right this (by positivity)

theorem stdDev_pos {l : List ℝ} (h : variance l ≠ 0) : 0 < stdDev l :=
  Real.sqrt_pos.2 (lt_of_le_of_ne (variance_nonneg l) (Ne.symm h))

theorem correlation_abs_le {l : List (ℝ × ℝ)} (h1 : variance (l.map Prod.fst) ≠ 0) (h2 : variance (l.map Prod.snd) ≠ 0) : |correlation l| ≤ 1 := by
  have p1 := stdDev_pos h1
  have p2 := stdDev_pos h2
  rw [correlation, abs_div, div_le_one (by positivity), abs_of_pos (mul_pos p1 p2)]
  apply abs_le_of_sq_le_sq _ (by positivity)
  rw [mul_pow, stdDev, stdDev, Real.sq_sqrt (variance_nonneg _), Real.sq_sqrt (variance_nonneg _)]
  exact covariance_sq_le l

theorem correlation_swap (l : List (ℝ × ℝ)) : correlation (l.map Prod.swap) = correlation l := by
  simp only [correlation, covariance, List.map_map, Function.comp_def, Prod.fst_swap, Prod.snd_swap]
  rw [mul_comm (stdDev _)]
  congr 2
  exact List.map_congr_left fun z _ => mul_comm _ _

theorem correlation_self {l : List ℝ} (h : variance l ≠ 0) : correlation (l.map fun x => (x, x)) = 1 := by
  have := stdDev_pos h
  simp only [correlation, covariance, List.map_map, Function.comp_def, List.map_id']
  have e : avg (l.map fun x => (x - avg l) * (x - avg l)) = stdDev l * stdDev l := by
    rw [stdDev, Real.mul_self_sqrt (variance_nonneg l), variance]
    simp only [pow_two]
  rw [e, div_self (by positivity)]

/-- The window varies. -/
def Varies (l : List ℝ) : Prop := ∃ x ∈ l, ∃ y ∈ l, x ≠ y

theorem varies_iff (l : List ℝ) : Varies l ↔ variance l ≠ 0 := by
  rw [Ne, variance_eq_zero, Varies]
  push Not
  rfl

theorem pearson_fin {l : List (ℝ × ℝ)} (hl : l ≠ []) :
    pearson ((l.map Prod.fst).map XR.fin) ((l.map Prod.snd).map XR.fin) =
      (XR.fin (covariance l) / XR.fin (stdDev (l.map Prod.fst) * stdDev (l.map Prod.snd)) : XR ℝ) := by
  have h1 : l.map Prod.fst ≠ [] := by simpa using hl
  have h2 : l.map Prod.snd ≠ [] := by simpa using hl
  have s1 := XR.std_fin h1
  have s2 := XR.std_fin h2
  simp only [Arith.moments] at s1 s2
  rw [pearson, s1, s2, XR.mean_fin h1, XR.mean_fin h2, XR.fin_mul]
  congr 1
  rw [covariance]
  refine Eq.trans ?_ (XR.mean_fin (by simpa using hl))
  simp only [List.map_map, zipWith_maps, Function.comp_def, XR.fin_sub, XR.fin_mul]

theorem pearson_varies {l : List (ℝ × ℝ)} (h1 : Varies (l.map Prod.fst)) (h2 : Varies (l.map Prod.snd)) :
    pearson ((l.map Prod.fst).map XR.fin) ((l.map Prod.snd).map XR.fin) = (XR.fin (correlation l) : XR ℝ) := by
  have hl : l ≠ [] := by rintro rfl; simp [Varies] at h1
  have p1 := stdDev_pos ((varies_iff _).1 h1)
  have p2 := stdDev_pos ((varies_iff _).1 h2)
  rw [pearson_fin hl, XR.fin_div _ _ (by positivity), correlation]

theorem pearson_constant {l : List (ℝ × ℝ)} (hl : l ≠ []) (h : ¬ (Varies (l.map Prod.fst) ∧ Varies (l.map Prod.snd))) :
    pearson ((l.map Prod.fst).map XR.fin) ((l.map Prod.snd).map XR.fin) = (XR.nan : XR ℝ) := by
  have hv : variance (l.map Prod.fst) = 0 ∨ variance (l.map Prod.snd) = 0 := by
    by_contra hc
    push Not at hc
    exact h ⟨(varies_iff _).2 hc.1, (varies_iff _).2 hc.2⟩
  have hc : covariance l = 0 := by
    have := covariance_sq_le l
    have h0 : variance (l.map Prod.fst) * variance (l.map Prod.snd) = 0 := by rcases hv with h | h <;> simp [h]
    rw [h0] at this
    exact pow_eq_zero_iff (two_ne_zero) |>.1 (le_antisymm this (sq_nonneg _))
  have hs : stdDev (l.map Prod.fst) * stdDev (l.map Prod.snd) = 0 := by
    rcases hv with h | h <;> simp [stdDev, h]
  rw [pearson_fin hl, hc, hs]
  show XR.div _ _ = _
  simp [XR.div, XR.infOf]

/-! ### C41 -/

/-- **C41, every arithmetic**: zero for the first `p` pairs, then Pearson's formula on the last `p` pairs. -/
theorem C41_correlation_streams {p : Nat} (hp : 0 < p) (s : List Nat) :
    StreamsAs (Correlation (p : Int) : Operator α) (vBuf2 (s := s)) vBuf (corrOf p) :=
  (corr_tracks hp s).streams pairs_ok isSeries_vBuf fun _ => rfl
example := C41_correlation_streams (α := XR ℚ) (p := 2) (by norm_num) [2]

theorem corrOf_pt {p : Nat} (l : List (α × α)) : corrOf p (l.map (Prod.map pt pt)) = pt (corrOf p l) := by
  funext c
  rw [corrOf_apply, List.map_map]
  simp [Function.comp_def, pt]

theorem C41_correlation_scalar {p : Nat} (hp : 0 < p) : StreamsAs (Correlation (p : Int) : Operator α) vSBuf2 vSBuf (corrOf p) := by
  have := (C41_correlation_streams (α := α) hp []).comap (Prod.map pt pt) pt fun l _ => corrOf_pt l
  have e : (fun l : List (α × α) => vBuf2 (l.map (Prod.map pt pt))) = vSBuf2 := by
    funext l; simp [vBuf2, vSBuf2, vSBuf, Function.comp_def]
  rwa [e] at this
example := C41_correlation_scalar (α := XR ℚ) (p := 2) (by norm_num)

/-- a pair of series of real numbers -/
abbrev finPairs (zs : List (ℝ × ℝ)) : Val (XR ℝ) := .tup [finSeries (zs.map Prod.fst), finSeries (zs.map Prod.snd)]

theorem finPairs_eq (zs : List (ℝ × ℝ)) : finPairs zs = vSBuf2 (zs.map (Prod.map XR.fin XR.fin)) := by
  simp [finPairs, finSeries, vSBuf2, Function.comp_def]

theorem corr_at {p : Nat} {zs : List (ℝ × ℝ)} {i : Nat} (hi : i < zs.length) :
    corrOf p ((zs.map (Prod.map XR.fin XR.fin)).take (i + 1)) =
      if i < p then XR.fin 0 else (pearson (((lastOf p zs i hi).map Prod.fst).map XR.fin) (((lastOf p zs i hi).map Prod.snd).map XR.fin) : XR ℝ) := by
  rw [corrOf, List.length_take, List.length_map]
  by_cases h : i < p
  · rw [if_pos (by omega), if_pos h]; simp
  · rw [if_neg (by omega), if_neg h, show lastOf p zs i hi = window p (zs.take (i + 1)) from (window_take hi (by omega)).symm]
    simp [← List.map_take, ← window_map, Function.comp_def]

/-- **C41 Correlation**, pairs of real numbers: zero below index `p`; from there on the coefficient of the last `p`
pairs, a number between -1 and 1, when both windows vary, and NaN when one of them is constant. -/
theorem C41_correlation {p : Nat} (hp : 0 < p) {zs : List (ℝ × ℝ)} (hz : zs ≠ []) :
    ∃ os sf s0, call (Correlation (p : Int)) (finPairs zs) none = .ok (vSBuf os, sf, s0) ∧ ∃ hl : os.length = zs.length,
      ∀ i (hi : i < zs.length),
        (i < p → os[i] = XR.fin 0) ∧
        (p ≤ i → Varies ((lastOf p zs i hi).map Prod.fst) → Varies ((lastOf p zs i hi).map Prod.snd) →
          os[i] = XR.fin (correlation (lastOf p zs i hi)) ∧ -1 ≤ correlation (lastOf p zs i hi) ∧ correlation (lastOf p zs i hi) ≤ 1) ∧
        (p ≤ i → ¬ (Varies ((lastOf p zs i hi).map Prod.fst) ∧ Varies ((lastOf p zs i hi).map Prod.snd)) → os[i] = XR.nan) := by
  obtain ⟨os, sf, s0, h1, hl, h2⟩ := (C41_correlation_scalar (α := XR ℝ) hp).at (xs := zs.map (Prod.map XR.fin XR.fin)) (by simpa using hz)
  rw [List.length_map] at hl
  refine ⟨os, sf, s0, by rw [finPairs_eq]; exact h1, hl, fun i hi => ⟨fun h => ?_, fun h v1 v2 => ⟨?_, ?_⟩, fun h hv => ?_⟩⟩
  · rw [h2 i (by simpa using hi), corr_at hi, if_pos h]
  · rw [h2 i (by simpa using hi), corr_at hi, if_neg (by omega), pearson_varies v1 v2]
  · exact abs_le.1 (correlation_abs_le ((varies_iff _).1 v1) ((varies_iff _).1 v2))
  · rw [h2 i (by simpa using hi), corr_at hi, if_neg (by omega), pearson_constant (by rw [← List.length_pos_iff]; simpa using hp) hv]
example := C41_correlation (p := 2) (by norm_num) (zs := [(1, 2), (3, 5)]) (by simp)

theorem pearson_swap (l : List (ℝ × ℝ)) (hl : l ≠ []) :
    (pearson (((l.map Prod.swap).map Prod.fst).map XR.fin) (((l.map Prod.swap).map Prod.snd).map XR.fin) : XR ℝ) =
      pearson ((l.map Prod.fst).map XR.fin) ((l.map Prod.snd).map XR.fin) := by
  rw [pearson_fin hl, pearson_fin (by simpa using hl), mul_comm]
  congr 2
  · simp only [covariance, List.map_map, Function.comp_def, Prod.fst_swap, Prod.snd_swap]
    congr 1
    exact List.map_congr_left fun z _ => mul_comm _ _
  · simp [Function.comp_def]

/-- **C41**: the two inputs can be exchanged. -/
theorem C41_correlation_symm {p : Nat} (hp : 0 < p) {zs : List (ℝ × ℝ)} (hz : zs ≠ []) :
    ∃ o sf s0 sf' s0', call (Correlation (p : Int)) (finPairs zs) none = .ok (o, sf, s0) ∧
      call (Correlation (p : Int)) (finPairs (zs.map Prod.swap)) none = .ok (o, sf', s0') := by
  obtain ⟨os, sf, s0, h1, hl, h2⟩ := (C41_correlation_scalar (α := XR ℝ) hp).at (xs := zs.map (Prod.map XR.fin XR.fin)) (by simpa using hz)
  obtain ⟨os', sf', s0', h1', hl', h2'⟩ :=
    (C41_correlation_scalar (α := XR ℝ) hp).at (xs := (zs.map Prod.swap).map (Prod.map XR.fin XR.fin)) (by simpa using hz)
  refine ⟨vSBuf os, sf, s0, sf', s0', by rw [finPairs_eq]; exact h1, ?_⟩
  rw [finPairs_eq, h1']
  congr 3
  apply List.ext_getElem (by simp [hl, hl'])
  intro i hi hi'
  simp only [List.length_map] at hl hl'
  rw [h2' i (by simp; omega), h2 i (by simp; omega), corr_at (zs := zs.map Prod.swap) (i := i) (by simp; omega), corr_at (zs := zs) (i := i) (by omega)]
  congr 1
  rw [← pearson_swap _ (by rw [← List.length_pos_iff]; simpa using hp)]
  simp [List.map_ofFn, Function.comp_def]
example := C41_correlation_symm (p := 2) (by norm_num) (zs := [(1, 2), (3, 5)]) (by simp)

/-- **C41**: a varying series correlates with itself perfectly. -/
theorem C41_correlation_self {p : Nat} (hp : 0 < p) {xs : List ℝ} (hx : xs ≠ []) :
    ∃ os sf s0, call (Correlation (p : Int)) (.tup [finSeries xs, finSeries xs]) none = .ok (vSBuf os, sf, s0) ∧ ∃ hl : os.length = xs.length,
      ∀ i (hi : i < xs.length), p ≤ i → Varies (lastOf p xs i hi) → os[i] = XR.fin 1 := by
  obtain ⟨os, sf, s0, h1, hl, h2⟩ := C41_correlation hp (zs := xs.map fun x => (x, x)) (by simpa using hx)
  rw [List.length_map] at hl
  refine ⟨os, sf, s0, by simpa [finPairs, Function.comp_def] using h1, hl, fun i hi hpi hv => ?_⟩
  have e : lastOf p (xs.map fun x => (x, x)) i (by simpa using hi) = (lastOf p xs i hi).map fun x => (x, x) := by
    simp [lastOf, List.map_ofFn, Function.comp_def]
  have := (h2 i (by simpa using hi)).2.1 hpi (by rw [e]; simpa [Function.comp_def] using hv) (by rw [e]; simpa [Function.comp_def] using hv)
  rw [this.1, e, correlation_self ((varies_iff _).1 hv)]

example : output (call (Correlation 2) (.tup [series [1, 3, 5, 5, 6], series [2, 0, -2, 4, 5]]) none) =
    .ok (vSBuf [XR.fin 0, XR.fin 0, XR.fin (-1), XR.nan, XR.fin 1]) := by decide +kernel

/-! ### C42 -/

/-- **C42, every arithmetic.** -/
theorem C42_cross_streams {p lag : Nat} (hp : 0 < p) (hl : 0 < lag) (s : List Nat) :
    StreamsAs (CrossCorrelation (p : Int) lag : Operator α) (vBuf2 (s := s)) vBuf (crossOf p lag) :=
  (cross_tracks hp hl s).streams pairs_ok isSeries_vBuf fun _ => rfl
example := C42_cross_streams (α := XR ℚ) (p := 2) (lag := 1) (by norm_num) (by norm_num) [2]

/-- the last `p` values of the first series at index `i` -/
theorem crossOf_take {E : Type} [Arith E] {p lag i : Nat} {zs : List (E × E)} (hi : i < zs.length) :
    crossOf p lag (zs.take (i + 1)) =
      if h : i < lag + p then Arith.zero
      else pearson (List.ofFn fun j : Fin p => (zs[i - j]'(by omega)).1) (List.ofFn fun j : Fin p => (zs[i - lag - j]'(by omega)).2) := by
  have hlen : (lagPairs lag (zs.take (i + 1))).length = i + 1 - lag := by simp [lagPairs]; omega
  rw [crossOf, corrOf, hlen]
  by_cases h : i < lag + p
  · rw [if_pos (by omega), dif_pos h]
  · rw [if_neg (by omega), dif_neg h]
    have e1 : (lagPairs lag (zs.take (i + 1))).map Prod.fst = ((zs.take (i + 1)).map Prod.fst).drop lag := by
      rw [lagPairs, List.map_fst_zip]; simp
    have e2 : (lagPairs lag (zs.take (i + 1))).map Prod.snd = ((zs.take (i + 1)).map Prod.snd).take (i + 1 - lag) := by
      rw [lagPairs]
      apply List.ext_getElem
      · simp; omega
      · intro j h1 h2; simp
    rw [e1, e2]
    congr 1
    · apply List.ext_getElem
      · simp [window]; omega
      · intro j h1 h2
        simp only [List.length_ofFn] at h2
        simp only [window, List.getElem_take, List.getElem_reverse, List.getElem_drop, List.getElem_map, List.getElem_ofFn, List.length_drop, List.length_map, List.length_take]
        congr 2
        omega
    · apply List.ext_getElem
      · simp [window]; omega
      · intro j h1 h2
        simp only [List.length_ofFn] at h2
        simp only [window, List.getElem_take, List.getElem_reverse, List.getElem_map, List.getElem_ofFn, List.length_map, List.length_take]
        congr 2
        omega

/-- **C42 Cross-correlation**, by index: zero below index `lag + p`, then Pearson's formula on the last `p` values
of the first series and the `p` values of the second series that end `lag` steps earlier. -/
theorem C42_cross {p lag : Nat} (hp : 0 < p) (hl : 0 < lag) {zs : List ((Idx s → α) × (Idx s → α))} (hz : zs ≠ []) :
    ∃ os sf s0, call (CrossCorrelation (p : Int) lag) (vBuf2 zs) none = .ok (vBuf os, sf, s0) ∧ ∃ hl : os.length = zs.length,
      ∀ i (hi : i < zs.length), os[i] = if h : i < lag + p then Arith.zero
        else pearson (List.ofFn fun j : Fin p => (zs[i - j]'(by omega)).1) (List.ofFn fun j : Fin p => (zs[i - lag - j]'(by omega)).2) := by
  obtain ⟨os, sf, s0, h1, hl, h2⟩ := (C42_cross_streams (α := α) hp hl s).at hz
  exact ⟨os, sf, s0, h1, hl, fun i hi => by rw [h2 i hi, crossOf_take hi]⟩
example := C42_cross (α := XR ℚ) (s := [2]) (p := 2) (lag := 1) (by norm_num) (by norm_num) (zs := [(fun _ => .fin 3, fun _ => .fin 4), (fun c => if c.1 = 0 then .fin 1 else .pinf, fun _ => .fin 5)]) (by simp)

/-- **C42, auto-correlation, every arithmetic.** -/
theorem C42_auto_streams {p lag : Nat} (hp : 0 < p) (hl : 0 < lag) (s : List Nat) :
    StreamsAs (AutoCorrelation (p : Int) lag : Operator α) (vBuf (s := s)) vBuf (fun h => crossOf p lag (h.map fun x => (x, x))) :=
  (auto_tracks hp hl s).streams rows_ok isSeries_vBuf fun _ => rfl
example := C42_auto_streams (α := XR ℚ) (p := 2) (lag := 1) (by norm_num) (by norm_num) [2]

/-- **C42 Auto-correlation** outputs what cross-correlation outputs for the series and itself. -/
theorem C42_auto {p lag : Nat} (hp : 0 < p) (hl : 0 < lag) {xs : List (Idx s → α)} (hx : xs ≠ []) :
    ∃ o sf s0 sf' s0', call (AutoCorrelation (p : Int) lag) (vBuf xs) none = .ok (o, sf, s0) ∧
      call (CrossCorrelation (p : Int) lag) (.tup [vBuf xs, vBuf xs]) none = .ok (o, sf', s0') := by
  obtain ⟨sf, s0, h⟩ := (C42_auto_streams (α := α) hp hl s).at' hx
  obtain ⟨sf', s0', h'⟩ := (C42_cross_streams (α := α) hp hl s).at' (xs := xs.map fun x => (x, x)) (by simpa using hx)
  refine ⟨_, sf, s0, sf', s0', h, ?_⟩
  rw [scan_of_map (y' := fun h => crossOf p lag (h.map fun x => (x, x))) fun l => rfl] at h'
  simpa [vBuf2, Function.comp_def] using h'

example : output (call (CrossCorrelation 2 1) (.tup [series [7, 1, 3, 2, 9], series [1, 3, 5, 8, 0]]) none) =
    .ok (vSBuf [XR.fin 0, XR.fin 0, XR.fin 0, XR.fin (-1), XR.fin 1]) := by decide +kernel
example : output (call (AutoCorrelation 2 1) (series [7, 1, 3, 2, 9]) none) =
    .ok (vSBuf [XR.fin 0, XR.fin 0, XR.fin 0, XR.fin (-1), XR.fin (-1)]) := by decide +kernel

end TS
