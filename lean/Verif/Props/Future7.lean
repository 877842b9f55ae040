import Verif.Props.Future2
/-
C105: the correlation.
-/
namespace TS

/-- the correlation coefficient of a list of pairs -/
noncomputable def pearsonOf (l : List (ℝ × ℝ)) : XR ℝ := pearson ((l.map Prod.fst).map XR.fin) ((l.map Prod.snd).map XR.fin)

/-- the covariance, times the square of the number of pairs -/
def crossSum (l : List (ℝ × ℝ)) : ℝ := l.length * (l.map fun z => z.1 * z.2).sum - (l.map Prod.fst).sum * (l.map Prod.snd).sum

theorem sum_cross_centre (c d : ℝ) : ∀ l : List (ℝ × ℝ), (l.map fun z => (z.1 - c) * (z.2 - d)).sum =
    (l.map fun z => z.1 * z.2).sum - d * (l.map Prod.fst).sum - c * (l.map Prod.snd).sum + l.length * (c * d)
  | [] => by simp
  | x :: l => by
    simp only [List.map_cons, List.sum_cons, sum_cross_centre c d l, List.length_cons]
    push_cast; ring

theorem pearson_pos {l : List (ℝ × ℝ)} (h1 : Varies (l.map Prod.fst)) (h2 : Varies (l.map Prod.snd)) : ∃ c, pearsonOf l = XR.fin c ∧ (0 < c ↔ 0 < crossSum l) := by
  have hl : l ≠ [] := by rintro rfl; simp [Varies] at h1
  have hm : (0 : ℝ) < l.length := by exact_mod_cast List.length_pos_iff.2 hl
  have p1 := stdDev_pos ((varies_iff _).1 h1)
  have p2 := stdDev_pos ((varies_iff _).1 h2)
  refine ⟨_, pearson_varies h1 h2, ?_⟩
  have hc : crossSum l = l.length ^ 2 * covariance l := by
    rw [covariance, avg, List.length_map, sum_cross_centre, avg, avg, crossSum, List.length_map, List.length_map]
    field_simp
    ring
  rw [correlation, hc, div_pos_iff_of_pos_right (by positivity), mul_pos_iff_of_pos_left (by positivity)]

theorem pearson_nan_iff {l : List (ℝ × ℝ)} (hl : l ≠ []) : pearsonOf l = XR.nan ↔ ¬ (Varies (l.map Prod.fst) ∧ Varies (l.map Prod.snd)) := by
  constructor
  · rintro h ⟨h1, h2⟩
    rw [pearsonOf, pearson_varies h1 h2] at h
    cases h
  · exact pearson_constant hl

theorem crossSum_insert (U V : List (ℝ × ℝ)) (x y : ℝ) : crossSum (U ++ (x, y) :: V) =
    y * ((U ++ V).length * x - ((U ++ V).map Prod.fst).sum) + (((U ++ V).length + 1) * ((U ++ V).map fun z => z.1 * z.2).sum - (x + ((U ++ V).map Prod.fst).sum) * ((U ++ V).map Prod.snd).sum) := by
  simp [crossSum]
  ring

theorem beyond (l : List ℝ) : ∃ Y, 0 < Y ∧ ∀ y, Y ≤ |y| → y ∉ l := by
  induction l with
  | nil => exact ⟨1, one_pos, by simp⟩
  | cons a l ih =>
    obtain ⟨Y, h0, h⟩ := ih
    refine ⟨Y + |a| + 1, by positivity, fun y hy hc => ?_⟩
    have := abs_nonneg a
    rcases List.mem_cons.1 hc with rfl | hc
    · linarith
    · exact h y (by linarith) hc

theorem varies_insert {U V : List ℝ} (h : U ++ V ≠ []) {y : ℝ} (hy : y ∉ U ++ V) : Varies (U ++ y :: V) := by
  obtain ⟨z, hz⟩ := List.exists_mem_of_ne_nil _ h
  refine ⟨y, by simp, z, ?_, fun e => hy (e ▸ hz)⟩
  rcases List.mem_append.1 hz with h | h
  · simp [h]
  · simp [h]

theorem constant_insert {U V : List ℝ} {y : ℝ} (h : ¬ Varies (U ++ y :: V)) : (U ++ V).sum = (U ++ V).length * y := by
  have : ∀ z ∈ U ++ V, z = y := by
    intro z hz
    by_contra hc
    refine h ⟨z, ?_, y, by simp, hc⟩
    rcases List.mem_append.1 hz with h | h
    · simp [h]
    · simp [h]
  rw [List.eq_replicate_of_mem this, List.sum_replicate, List.length_replicate, nsmul_eq_mul]

/-- correlations with every further pair tell the sum of the first numbers -/
theorem corr_told {U V U' V' : List (ℝ × ℝ)} (h0 : U ++ V ≠ []) (hl : (U ++ V).length = (U' ++ V').length)
    (h : ∀ x y, pearsonOf (U ++ (x, y) :: V) = pearsonOf (U' ++ (x, y) :: V')) : ((U ++ V).map Prod.fst).sum = ((U' ++ V').map Prod.fst).sum := by
  by_contra hne
  have h0' : U' ++ V' ≠ [] := by rw [← List.length_pos_iff, ← hl]; exact List.length_pos_iff.2 h0
  have hr : (0 : ℝ) < (U ++ V).length := by exact_mod_cast List.length_pos_iff.2 h0
  obtain ⟨Y, hY, hb⟩ := beyond ((U ++ V).map Prod.snd ++ (U' ++ V').map Prod.snd)
  have v : ∀ x y, Y ≤ |y| → Varies ((U ++ (x, y) :: V).map Prod.snd) ∧ Varies ((U' ++ (x, y) :: V').map Prod.snd) := by
    intro x y hy
    have hn := hb y hy
    rw [List.mem_append, not_or] at hn
    rw [List.map_append, List.map_append] at hn
    constructor
    · rw [List.map_append, List.map_cons]
      exact varies_insert (by rw [← List.map_append]; simpa using h0) hn.1
    · rw [List.map_append, List.map_cons]
      exact varies_insert (by rw [← List.map_append]; simpa using h0') hn.2
  set s := ((U ++ V).map Prod.fst).sum with hs
  set s' := ((U' ++ V').map Prod.fst).sum with hs'
  set x := s / (U ++ V).length with hx
  have hrx : ((U ++ V).length : ℝ) * x = s := by rw [hx]; field_simp
  have cst : ∀ {W X : List (ℝ × ℝ)}, (W ++ X).length = (U ++ V).length → ∀ y, ¬ Varies ((W ++ (x, y) :: X).map Prod.fst) → ((W ++ X).map Prod.fst).sum = s := by
    intro W X hl y hc
    rw [List.map_append, List.map_cons] at hc
    have := constant_insert hc
    rw [← List.map_append, List.length_map, hl, hrx] at this
    exact this
  have fv : ∀ y, Y ≤ |y| → Varies ((U ++ (x, y) :: V).map Prod.fst) ∧ Varies ((U' ++ (x, y) :: V').map Prod.fst) := by
    intro y hy
    have h2 : Varies ((U' ++ (x, y) :: V').map Prod.fst) := by
      by_contra hc
      exact hne (cst hl.symm y hc).symm
    refine ⟨?_, h2⟩
    by_contra hc
    have := (pearson_nan_iff (l := U ++ (x, y) :: V) (by simp)).2 fun k => hc k.1
    rw [h, pearson_nan_iff (by simp)] at this
    exact this ⟨h2, (v x y hy).2⟩
  have sign : ∀ y, Y ≤ |y| → (0 < crossSum (U ++ (x, y) :: V) ↔ 0 < crossSum (U' ++ (x, y) :: V')) := by
    intro y hy
    obtain ⟨c, h1, h2⟩ := pearson_pos (fv y hy).1 (v x y hy).1
    obtain ⟨c', h3, h4⟩ := pearson_pos (fv y hy).2 (v x y hy).2
    rw [h, h3, XR.fin.injEq] at h1
    rw [← h2, ← h4, h1]
  simp only [crossSum_insert, ← hs, ← hs', ← hl, hrx, sub_self, mul_zero, zero_add] at sign
  generalize ((U ++ V).length + 1 : ℝ) * ((U ++ V).map fun z => z.1 * z.2).sum - (x + s) * ((U ++ V).map Prod.snd).sum = k at sign
  generalize ((U ++ V).length + 1 : ℝ) * ((U' ++ V').map fun z => z.1 * z.2).sum - (x + s') * ((U' ++ V').map Prod.snd).sum = k' at sign
  have hd : 0 < |s - s'| := abs_pos.2 (sub_ne_zero.2 hne)
  set M := Y + (|k'| + 1) / |s - s'| with hM
  have hq : 0 < (|k'| + 1) / |s - s'| := by positivity
  have hMd : |k'| + 1 ≤ M * |s - s'| := by
    rw [hM, add_mul, div_mul_cancel₀ _ hd.ne']
    linarith [mul_pos hY hd]
  have a1 := sign M (by rw [abs_of_pos (by linarith)]; linarith)
  have a2 := sign (-M) (by rw [abs_neg, abs_of_pos (by linarith)]; linarith)
  have b1 := le_abs_self k'
  have b2 := neg_abs_le k'
  rcases le_total 0 (s - s') with hc | hc
  · rw [abs_of_nonneg hc] at hMd
    have := a2.1 (a1.2 (by linarith))
    linarith
  · rw [abs_of_nonpos hc] at hMd
    have := a1.1 (a2.2 (by linarith))
    linarith

/-- some further pair correlates -/
theorem corr_some {U V : List (ℝ × ℝ)} (h0 : U ++ V ≠ []) : ∃ x y, pearsonOf (U ++ (x, y) :: V) ≠ XR.fin 0 := by
  have hr : (1 : ℝ) ≤ (U ++ V).length := by exact_mod_cast List.length_pos_iff.2 h0
  obtain ⟨X, hX, hx⟩ := beyond ((U ++ V).map Prod.fst)
  obtain ⟨Y, hY, hy⟩ := beyond ((U ++ V).map Prod.snd)
  set s := ((U ++ V).map Prod.fst).sum with hs
  have n1 := abs_nonneg s
  set x := X + |s| + 1 with hxd
  set k := ((U ++ V).length + 1 : ℝ) * ((U ++ V).map fun z => z.1 * z.2).sum - (x + s) * ((U ++ V).map Prod.snd).sum with hk
  have n2 := abs_nonneg k
  have v1 : Varies ((U ++ (x, Y + |k|) :: V).map Prod.fst) := by
    rw [List.map_append, List.map_cons]
    refine varies_insert (by rw [← List.map_append]; simpa using h0) ?_
    rw [← List.map_append]
    exact hx x (by rw [abs_of_pos (by linarith)]; linarith)
  have v2 : Varies ((U ++ (x, Y + |k|) :: V).map Prod.snd) := by
    rw [List.map_append, List.map_cons]
    refine varies_insert (by rw [← List.map_append]; simpa using h0) ?_
    rw [← List.map_append]
    exact hy _ (by rw [abs_of_pos (by linarith)]; linarith)
  obtain ⟨c, h1, h2⟩ := pearson_pos v1 v2
  refine ⟨x, Y + |k|, ?_⟩
  rw [h1]
  intro hc
  rw [XR.fin.injEq] at hc
  have h3 : (1 : ℝ) ≤ (U ++ V).length * x - s := by
    have : 1 * x ≤ (U ++ V).length * x := mul_le_mul_of_nonneg_right hr (by linarith)
    linarith [le_abs_self s]
  have h4 : (Y + |k|) * 1 ≤ (Y + |k|) * ((U ++ V).length * x - s) := mul_le_mul_of_nonneg_left h3 (by linarith)
  have : 0 < crossSum (U ++ (x, Y + |k|) :: V) := by
    rw [crossSum_insert, ← hs, ← hk]
    linarith [neg_abs_le k]
  rw [← h2, hc] at this
  exact lt_irrefl _ this

theorem pearsonOf_swap {l : List (ℝ × ℝ)} (hl : l ≠ []) : pearsonOf (l.map Prod.swap) = pearsonOf l := pearson_swap l hl

/-- the correlation, by all pairs but the first -/
noncomputable def corrTail (p : Nat) (l : List (ℝ × ℝ)) : XR ℝ := if l.length < p then XR.fin 0 else pearsonOf (window p l)

theorem corr_tail {p : Nat} (l : List (ℝ × ℝ)) (hl : l ≠ []) : corrOf p (l.map (Prod.map XR.fin XR.fin)) = corrTail p l.tail := by
  obtain ⟨x, l, rfl⟩ := List.exists_cons_of_ne_nil hl
  rw [corrOf_window, corrTail, List.tail_cons, List.length_cons]
  by_cases h : l.length < p
  · rw [if_pos (by omega), if_pos h]
  · rw [if_neg (by omega), if_neg h, pearsonOf, show x :: l = [x] ++ l from rfl, window_append_long _ _ (by omega)]

theorem corr_insert {p k : Nat} (hk : k + 1 ≤ p) {A : List (ℝ × ℝ)} (hA : k ≤ A.length) (x y : ℝ) :
    corrTail p (A ++ (x, y) :: List.replicate (p - k - 1) (0, 0)) = pearsonOf (List.replicate (p - k - 1) (0, 0) ++ (x, y) :: window k A) := by
  rw [corrTail, if_neg (by simp; omega), window_append _ _ (by simp; omega)]
  simp only [List.length_cons, List.length_replicate, List.reverse_cons, List.reverse_replicate, List.append_assoc, List.singleton_append]
  rw [show p - (p - k - 1 + 1) = k by omega]

/-- **C105 Correlation**: the last `p - 1` pairs agree and are equally many, the very first pair of a history not counted. -/
theorem C105_correlation {p : Nat} (hp : 0 < p) {a b : List (ℝ × ℝ)} (ha : a ≠ []) (hb : b ≠ []) :
    SameFuture (Correlation (p : Int) : Operator (XR ℝ)) pairs a b ↔ a.tail.reverse.take (p - 1) = b.tail.reverse.take (p - 1) := by
  rw [(corr_pairs_reals hp).sameFuture_iff (fun _ _ => vSBuf_inj) ha hb]
  have e : ∀ {a : List (ℝ × ℝ)}, a ≠ [] → ∀ xs, corrOf p ((a ++ xs).map (Prod.map XR.fin XR.fin)) = corrTail p (a.tail ++ xs) := by
    intro a ha xs
    rw [corr_tail _ (by simp [ha]), List.tail_append_of_ne_nil ha]
  simp only [e ha, e hb]
  generalize a.tail = A
  generalize b.tail = B
  constructor
  · intro h
    have len : ∀ A B : List (ℝ × ℝ), (∀ xs, xs ≠ [] → corrTail p (A ++ xs) = corrTail p (B ++ xs)) → min (p - 1) B.length ≤ min (p - 1) A.length := by
      intro A B h
      by_contra hc
      set n := min (p - 1) B.length with hn
      obtain ⟨x, y, hxy⟩ := corr_some (U := List.replicate (p - n - 1) (0, 0)) (V := window n B) (by
        rw [← List.length_pos_iff, List.length_append, List.length_replicate, window_length]; omega)
      have := h ((x, y) :: List.replicate (p - n - 1) (0, 0)) (by simp)
      rw [corr_insert (A := B) (by omega) (by omega), corrTail, if_pos (by simp; omega)] at this
      exact hxy this.symm
    have hl : min (p - 1) A.length = min (p - 1) B.length := le_antisymm (len B A fun xs hx => (h xs hx).symm) (len A B h)
    by_cases hp1 : p = 1
    · subst hp1; simp
    have told : ∀ k ≤ min (p - 1) A.length, ∀ x y, pearsonOf (List.replicate (p - k - 1) (0, 0) ++ (x, y) :: window k A) = pearsonOf (List.replicate (p - k - 1) (0, 0) ++ (x, y) :: window k B) := by
      intro k hk x y
      rw [← corr_insert (by omega) (by omega), ← corr_insert (by omega) (by omega)]
      exact h _ (by simp)
    have len2 : ∀ k ≤ min (p - 1) A.length, (window k A).length = (window k B).length := by
      intro k hk
      rw [window_length, window_length]; omega
    have ne : ∀ k (A : List (ℝ × ℝ)), k ≤ min (p - 1) A.length → List.replicate (p - k - 1) ((0, 0) : ℝ × ℝ) ++ window k A ≠ [] := by
      intro k A hk
      rw [← List.length_pos_iff, List.length_append, List.length_replicate, window_length]; omega
    have f : (A.map Prod.fst).reverse.take (p - 1) = (B.map Prod.fst).reverse.take (p - 1) := by
      refine take_of_sums (by simpa using hl) fun k hk => ?_
      rw [List.length_map] at hk
      have := corr_told (ne k A hk) (by rw [List.length_append, List.length_append, len2 k hk]) (told k hk)
      simpa [window_map] using this
    have g : (A.map Prod.snd).reverse.take (p - 1) = (B.map Prod.snd).reverse.take (p - 1) := by
      refine take_of_sums (by simpa using hl) fun k hk => ?_
      rw [List.length_map] at hk
      have := corr_told (U := (List.replicate (p - k - 1) (0, 0)).map Prod.swap) (V := (window k A).map Prod.swap) (U' := (List.replicate (p - k - 1) (0, 0)).map Prod.swap) (V' := (window k B).map Prod.swap)
        (by rw [← List.map_append]; simpa using ne k A hk) (by simp [len2 k hk]) fun x y => by
          have := told k hk y x
          rw [← pearsonOf_swap (by simp), ← pearsonOf_swap (l := _ ++ (y, x) :: window k B) (by simp)] at this
          simpa only [List.map_append, List.map_cons, Prod.swap_prod_mk] using this
      simpa [window_map, Function.comp_def] using this
    rw [← List.map_reverse, ← List.map_reverse, ← List.map_take, ← List.map_take] at f g
    refine List.ext_getElem (by simpa using hl) fun i h1 h2 => Prod.ext ?_ ?_
    · have := List.getElem_of_eq f (i := i) (by simpa using h1)
      rwa [List.getElem_map, List.getElem_map] at this
    · have := List.getElem_of_eq g (i := i) (by simpa using h1)
      rwa [List.getElem_map, List.getElem_map] at this
  · intro h xs hx
    have hw := same_windows h hx
    rw [corrTail, corrTail, hw.1]
    simp only [hw.2]

example : SameFuture (Correlation 3 : Operator (XR ℝ)) pairs [(7, 7), (1, 2), (3, 4)] [(8, 5), (9, 9), (1, 2), (3, 4)] ∧ ¬ SameFuture (Correlation 3 : Operator (XR ℝ)) pairs [(7, 7), (1, 2), (3, 4)] [(7, 7), (1, 2), (4, 3)] :=
  ⟨(C105_correlation (p := 3) (by decide) (by simp) (by simp)).2 (by simp), fun h => absurd ((C105_correlation (p := 3) (by decide) (by simp) (by simp)).1 h) (by norm_num)⟩
end TS
