import Verif.Props.Accuracy6
import Verif.Props.Perfect
/-
C70: cross-correlation and auto-correlation in floating-point arithmetic.
-/
namespace TS
open PyVal XR FloatArith
set_option linter.unusedSectionVars false
variable {α : Type} [TFNum α] [F : FloatArith α ℝ] {u c Ω : ℝ} {N : Nat}

/-- the number `lag` steps later of the first series beside each number of the second, in both arithmetics at once -/
def lagBoth (lag : Nat) (l : List ((α × α) × (ℝ × ℝ))) : List ((α × α) × (ℝ × ℝ)) := List.zipWith (fun a b => ((a.1.1, b.1.2), (a.2.1, b.2.2))) (l.drop lag) l

theorem lagPairs_eq {A : Type} (lag : Nat) (zs : List (A × A)) : lagPairs lag zs = List.zipWith (fun a b => (a.1, b.2)) (zs.drop lag) zs := by
  rw [lagPairs, ← List.map_drop, List.zip_map, List.zip, List.map_zipWith]; rfl
theorem lagPairs_map {A B : Type} (f : A → B) (lag : Nat) (zs : List (A × A)) : lagPairs lag (zs.map (Prod.map f f)) = (lagPairs lag zs).map (Prod.map f f) := by
  rw [lagPairs_eq, lagPairs_eq, ← List.map_drop, List.zipWith_map, List.map_zipWith]; rfl
theorem lagBoth_fst (lag : Nat) (l : List ((α × α) × (ℝ × ℝ))) : (lagBoth lag l).map Prod.fst = lagPairs lag (l.map Prod.fst) := by
  rw [lagPairs_eq, lagBoth, List.map_zipWith, ← List.map_drop, List.zipWith_map]
theorem lagBoth_snd (lag : Nat) (l : List ((α × α) × (ℝ × ℝ))) : (lagBoth lag l).map Prod.snd = lagPairs lag (l.map Prod.snd) := by
  rw [lagPairs_eq, lagBoth, List.map_zipWith, ← List.map_drop, List.zipWith_map]
theorem lagBoth_length (lag : Nat) (l : List ((α × α) × (ℝ × ℝ))) : (lagBoth lag l).length = l.length - lag := by simp [lagBoth]

theorem mem_lagBoth {lag : Nat} {l : List ((α × α) × (ℝ × ℝ))} {M L : ℝ} (h : ∀ z ∈ l, Is M z.1.1 z.2.1 ∧ Is L z.1.2 z.2.2) :
    ∀ z ∈ lagBoth lag l, Is M z.1.1 z.2.1 ∧ Is L z.1.2 z.2.2 := by
  intro z hz
  rw [lagBoth, List.mem_iff_getElem] at hz
  obtain ⟨i, hi, rfl⟩ := hz
  rw [List.getElem_zipWith]
  exact ⟨(h _ (List.mem_of_mem_drop (List.getElem_mem _))).1, (h _ (List.getElem_mem _)).2⟩

theorem cross_reals {p lag : Nat} (hp : 0 < p) (hl : 0 < lag) : StreamsAs (CrossCorrelation (p : Int) lag : Operator (XR ℝ)) finPairs vSBuf (fun h => crossOf p lag (h.map (Prod.map XR.fin XR.fin))) := by
  have := (C42_cross_scalar (α := XR ℝ) hp hl).comap (y' := fun h => crossOf p lag (h.map (Prod.map XR.fin XR.fin))) (Prod.map XR.fin XR.fin) id (fun l hl => rfl)
  simp only [← finPairs_eq, List.map_id_fun, id] at this
  exact this

/-- **C70, cross-correlation** of numbers up to `M` and `L` in size: zero for the first `p + lag` pairs; after that, whenever the deviations `σ` and `τ` of the `p` numbers that are
compared are positive and at least `120 p u M` and `120 p u L`, the output is the coefficient up to `200 p u (M / σ) (L / τ)`. -/
theorem C70_cross (A : Accurate (rnd (α := α)) u c Ω N) (Q : SqrtRounded α ℝ Real.sqrt) {p lag : Nat} (hp : 0 < p) (hlag : 0 < lag) (hpN : p ≤ N) (hpu : 32 * ((p : ℝ) + 1) * u ≤ 1) {M L : ℝ} (hcM : c ≤ M)
    (hcL : c ≤ L) (hcM2 : c ≤ u * M ^ 2) (hcL2 : c ≤ u * L ^ 2) (hΩM : 32 * ((p : ℝ) + 1) * (M ^ 2 + 1) ≤ Ω) (hΩL : 32 * ((p : ℝ) + 1) * (L ^ 2 + 1) ≤ Ω) (huΩ : 1 ≤ u * Ω) :
    ApproximatesAt (CrossCorrelation (p : Int) lag : Operator α) (CrossCorrelation (p : Int) lag : Operator (XR ℝ)) vSBuf2 finPairs vSBuf vSBuf (fun a x => Is M a.1 x.1 ∧ Is L a.2 x.2)
      fun zs a x => (zs.length ≤ lag + p → val a = fin 0 ∧ x = fin 0) ∧
        (lag + p < zs.length → let w := window p (lagPairs lag zs)
          0 < stdDev (w.map Prod.fst) → 0 < stdDev (w.map Prod.snd) → 120 * p * u * M ≤ stdDev (w.map Prod.fst) → 120 * p * u * L ≤ stdDev (w.map Prod.snd) →
          x = fin (correlation w) ∧ Close a (correlation w) (200 * p * u * (M / stdDev (w.map Prod.fst)) * (L / stdDev (w.map Prod.snd)))) := by
  refine (C42_cross_scalar hp hlag).approximatesAt (cross_reals hp hlag) fun l _ h => ?_
  have := corrOf_close A Q hp hpN hpu hcM hcL hcM2 hcL2 hΩM hΩL huΩ (mem_lagBoth (lag := lag) h)
  rw [lagBoth_fst, lagBoth_snd, lagBoth_length, ← lagPairs_map] at this
  rw [List.length_map]
  exact ⟨fun hl => this.1 (by omega), fun hl => this.2 (by omega)⟩
example := C70_cross (α := F32 ℝ) round32_accurate sqrtRounded32 (p := 14) (lag := 3) (M := 1) (L := 2) (by norm_num) (by norm_num) (by norm_num) (by norm_num) (by norm_num) (by norm_num) (by norm_num)
  (by norm_num) (by norm_num) (by norm_num) (by norm_num)

theorem auto_reals {p lag : Nat} (hp : 0 < p) (hl : 0 < lag) :
    StreamsAs (AutoCorrelation (p : Int) lag : Operator (XR ℝ)) finSeries vSBuf (fun h => crossOf p lag ((h.map fun x => (x, x)).map (Prod.map XR.fin XR.fin))) := by
  have := (C42_auto_scalar (α := XR ℝ) hp hl).comap (y' := fun h => crossOf p lag ((h.map fun x => (x, x)).map (Prod.map XR.fin XR.fin))) XR.fin id
    (fun l hl => by simp [List.map_map, Function.comp_def])
  simp only [List.map_id_fun, id] at this
  exact this

/-- **C70, auto-correlation** of numbers up to `M` in size, the same with the series and itself. -/
theorem C70_auto (A : Accurate (rnd (α := α)) u c Ω N) (Q : SqrtRounded α ℝ Real.sqrt) {p lag : Nat} (hp : 0 < p) (hlag : 0 < lag) (hpN : p ≤ N) (hpu : 32 * ((p : ℝ) + 1) * u ≤ 1) {M : ℝ} (hcM : c ≤ M)
    (hcM2 : c ≤ u * M ^ 2) (hΩM : 32 * ((p : ℝ) + 1) * (M ^ 2 + 1) ≤ Ω) (huΩ : 1 ≤ u * Ω) :
    ApproximatesAt (AutoCorrelation (p : Int) lag : Operator α) (AutoCorrelation (p : Int) lag : Operator (XR ℝ)) vSBuf finSeries vSBuf vSBuf (Is M)
      fun xs a x => (xs.length ≤ lag + p → val a = fin 0 ∧ x = fin 0) ∧
        (lag + p < xs.length → let w := window p (lagPairs lag (xs.map fun x => (x, x)))
          0 < stdDev (w.map Prod.fst) → 0 < stdDev (w.map Prod.snd) → 120 * p * u * M ≤ stdDev (w.map Prod.fst) → 120 * p * u * M ≤ stdDev (w.map Prod.snd) →
          x = fin (correlation w) ∧ Close a (correlation w) (200 * p * u * (M / stdDev (w.map Prod.fst)) * (M / stdDev (w.map Prod.snd)))) := by
  refine (C42_auto_scalar hp hlag).approximatesAt (auto_reals hp hlag) fun l _ h => ?_
  have h' : ∀ z ∈ l.map fun z => ((z.1, z.1), (z.2, z.2)), Is M z.1.1 z.2.1 ∧ Is M z.1.2 z.2.2 := by
    simp only [List.mem_map]; rintro _ ⟨z, hz, rfl⟩; exact ⟨h z hz, h z hz⟩
  have := corrOf_close A Q hp hpN hpu hcM hcM hcM2 hcM2 hΩM hΩM huΩ (mem_lagBoth (lag := lag) h')
  rw [lagBoth_fst, lagBoth_snd, lagBoth_length, ← lagPairs_map] at this
  simp only [List.map_map, Function.comp_def, List.length_map] at this ⊢
  exact ⟨fun hl => this.1 (by omega), fun hl => this.2 (by omega)⟩
example := C70_auto (α := F32 ℝ) round32_accurate sqrtRounded32 (p := 14) (lag := 3) (M := 1) (by norm_num) (by norm_num) (by norm_num) (by norm_num) (by norm_num) (by norm_num)
  (by norm_num) (by norm_num)

/-- **C70, cross-correlation** in binary32. -/
theorem C70_cross_binary32 {p lag : Nat} (hp : 0 < p) (hlag : 0 < lag) (hp' : p < 2 ^ 18) {M L : ℝ} (h1 : 2 ^ (-51 : Int) ≤ M) (h2 : M ≤ 2 ^ 50) (h3 : 2 ^ (-51 : Int) ≤ L) (h4 : L ≤ 2 ^ 50) :
    ApproximatesAt (CrossCorrelation (p : Int) lag : Operator (F32 ℝ)) (CrossCorrelation (p : Int) lag : Operator (XR ℝ)) vSBuf2 finPairs vSBuf vSBuf (fun a x => Is M a.1 x.1 ∧ Is L a.2 x.2)
      fun zs a x => (zs.length ≤ lag + p → val a = fin 0 ∧ x = fin 0) ∧
        (lag + p < zs.length → let w := window p (lagPairs lag zs)
          0 < stdDev (w.map Prod.fst) → 0 < stdDev (w.map Prod.snd) → 120 * p * 2 ^ (-24 : Int) * M ≤ stdDev (w.map Prod.fst) → 120 * p * 2 ^ (-24 : Int) * L ≤ stdDev (w.map Prod.snd) →
          x = fin (correlation w) ∧ Close a (correlation w) (200 * p * 2 ^ (-24 : Int) * (M / stdDev (w.map Prod.fst)) * (L / stdDev (w.map Prod.snd)))) := by
  have hpK : (p : ℝ) + 1 ≤ 2 ^ 18 := by exact_mod_cast hp'
  have hM0 : (0 : ℝ) < 2 ^ (-51 : Int) := by positivity
  have hsq : M ^ 2 ≤ (2 ^ 50) ^ 2 := pow_le_pow_left₀ (by linarith) h2 2
  have hsq' : ((2 : ℝ) ^ (-51 : Int)) ^ 2 ≤ M ^ 2 := pow_le_pow_left₀ hM0.le h1 2
  have hsl : L ^ 2 ≤ (2 ^ 50) ^ 2 := pow_le_pow_left₀ (by linarith) h4 2
  have hsl' : ((2 : ℝ) ^ (-51 : Int)) ^ 2 ≤ L ^ 2 := pow_le_pow_left₀ hM0.le h3 2
  refine C70_cross (α := F32 ℝ) round32_accurate sqrtRounded32 hp hlag (by omega) ?_ ?_ ?_ ?_ ?_ ?_ ?_ ?_
  · norm_num; norm_num at hpK; linarith
  · refine le_trans ?_ h1; norm_num
  · refine le_trans ?_ h3; norm_num
  · norm_num at hsq' ⊢; linarith
  · norm_num at hsl' ⊢; linarith
  · norm_num at hpK hsq ⊢; nlinarith [sq_nonneg M]
  · norm_num at hpK hsl ⊢; nlinarith [sq_nonneg L]
  · norm_num
example := C70_cross_binary32 (p := 14) (lag := 3) (by norm_num) (by norm_num) (by norm_num) (M := 1) (L := 2) (by norm_num) (by norm_num) (by norm_num) (by norm_num)

/-- **C70, auto-correlation** in binary32. -/
theorem C70_auto_binary32 {p lag : Nat} (hp : 0 < p) (hlag : 0 < lag) (hp' : p < 2 ^ 18) {M : ℝ} (h1 : 2 ^ (-51 : Int) ≤ M) (h2 : M ≤ 2 ^ 50) :
    ApproximatesAt (AutoCorrelation (p : Int) lag : Operator (F32 ℝ)) (AutoCorrelation (p : Int) lag : Operator (XR ℝ)) vSBuf finSeries vSBuf vSBuf (Is M)
      fun xs a x => (xs.length ≤ lag + p → val a = fin 0 ∧ x = fin 0) ∧
        (lag + p < xs.length → let w := window p (lagPairs lag (xs.map fun x => (x, x)))
          0 < stdDev (w.map Prod.fst) → 0 < stdDev (w.map Prod.snd) → 120 * p * 2 ^ (-24 : Int) * M ≤ stdDev (w.map Prod.fst) → 120 * p * 2 ^ (-24 : Int) * M ≤ stdDev (w.map Prod.snd) →
          x = fin (correlation w) ∧ Close a (correlation w) (200 * p * 2 ^ (-24 : Int) * (M / stdDev (w.map Prod.fst)) * (M / stdDev (w.map Prod.snd)))) := by
  have hpK : (p : ℝ) + 1 ≤ 2 ^ 18 := by exact_mod_cast hp'
  have hM0 : (0 : ℝ) < 2 ^ (-51 : Int) := by positivity
  have hsq : M ^ 2 ≤ (2 ^ 50) ^ 2 := pow_le_pow_left₀ (by linarith) h2 2
  have hsq' : ((2 : ℝ) ^ (-51 : Int)) ^ 2 ≤ M ^ 2 := pow_le_pow_left₀ hM0.le h1 2
  refine C70_auto (α := F32 ℝ) round32_accurate sqrtRounded32 hp hlag (by omega) ?_ ?_ ?_ ?_ ?_
  · norm_num; norm_num at hpK; linarith
  · refine le_trans ?_ h1; norm_num
  · norm_num at hsq' ⊢; linarith
  · norm_num at hpK hsq ⊢; nlinarith [sq_nonneg M]
  · norm_num
example := C70_auto_binary32 (p := 14) (lag := 3) (by norm_num) (by norm_num) (by norm_num) (M := 1) (by norm_num) (by norm_num)

end TS
