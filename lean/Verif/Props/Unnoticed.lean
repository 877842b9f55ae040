import Verif.Props.Transforms
import Verif.Props.Units
import Verif.Props.Offset
import Verif.Props.Accuracy4
import Verif.Props.Perfect
/-
C96: which transformations of the samples Return, RSI, Correlation and MSD do not notice.
-/
namespace TS
open XR
variable {K : Type} [Field K] [LinearOrder K] [IsStrictOrderedRing K] [Transc K] [FloorRing K]

/-- **C96 Return** is unchanged for all series exactly if the unit is changed. -/
theorem C96_return {p : Nat} (hp : 0 < p) (f : K → K) : PassesThrough (Return (p : Int)) numbers numbers f id ↔ ∃ c, c ≠ 0 ∧ ∀ x, f x = c * x := by
  rw [show (numbers : List K → Val (XR K)) = finSeries from rfl, (return_reals hp).passes fun _ _ => finSeries_inj]
  constructor
  · intro h
    have e (u v w : K) : returnK p (v :: List.replicate (p - 1) w ++ [u]) = if v = 0 then 0 else u / v - 1 := by
      have : ((v :: List.replicate (p - 1) w ++ [u]).reverse)[p]? = some v := by
        rw [List.getElem?_reverse (by simp; omega), show (v :: List.replicate (p - 1) w ++ [u]).length - 1 - p = 0 by simp; omega]
        simp
      rw [returnK, lagged, this, List.getLastD_concat, Option.getD_some]
      simp [show ¬ (p - 1 + 1 + 1 ≤ p) by omega]
    have key (u v : K) : (if f v = 0 then 0 else f u / f v - 1) = if v = 0 then 0 else u / v - 1 := by
      have := h (v :: List.replicate (p - 1) 0 ++ [u]) (by simp)
      rw [e, List.map_append, List.map_cons, List.map_replicate, List.map_cons, List.map_nil, e] at this
      exact this
    have h1 : f 1 ≠ 0 := fun h0 => by
      have := key 2 1
      rw [if_pos h0] at this
      norm_num at this
    refine ⟨f 1, h1, fun x => ?_⟩
    have := key x 1
    rw [if_neg h1, if_neg one_ne_zero, div_one, sub_left_inj, div_eq_iff h1] at this
    rw [this, mul_comm]
  · rintro ⟨c, hc, h⟩ xs hx
    have hl : lagged 0 p (xs.map f) = c * lagged 0 p xs := by
      rw [lagged, lagged, ← List.map_reverse, List.getElem?_map]
      rcases xs.reverse[p]? with _ | v <;> simp [h]
    have hg : (xs.map f).getLastD 0 = c * xs.getLastD 0 := by
      rw [List.getLastD_eq_getLast?, List.getLastD_eq_getLast?, List.getLast?_map]
      rcases xs.getLast? with _ | v <;> simp [h]
    simp only [returnK, hl, hg, List.length_map, mul_eq_zero, hc, false_or, id]
    split
    · rfl
    · rw [mul_div_mul_left _ _ hc]
example := (C96_return (K := ℚ) (p := 2) (by norm_num) (fun x => 3 * x)).2 ⟨3, by norm_num, fun _ => rfl⟩

omit [IsStrictOrderedRing K] in
theorem rsi_reals {p : Nat} (hp : 0 < p) : StreamsAs (RSI (p : Int) : Operator (XR K)) finSeries vSBuf (fun l => rsi p (l.map fin)) := by
  have := (C36_rsi_streams (α := XR K) hp).comap (y' := fun l : List K => rsi p (l.map fin)) XR.fin id (fun l _ => rfl)
  simpa only [List.map_id] using this

/-- the share of the gains in percent -/
def share (g l : K) : XR K := if g + l = 0 then nan else fin (100 * g / (g + l))

theorem rsi_share {p : Nat} (hp : 0 < p) {l : List K} {i : Nat} (hl : l.length = i + 1) (hi : p ≤ i) : rsi p (l.map fin) = share (gainAt p l i) (lossAt p l i) := by
  have := rsi_fin hp (xs := l) (i := i) (by omega) hi
  rw [List.take_of_length_le (by simp [hl])] at this
  have hG := gainAt_nonneg hp l i
  have hL := lossAt_nonneg hp l i
  rw [this, share]
  split
  · rename_i h
    have g0 : gainAt p l i = 0 := by linarith
    have l0 : lossAt p l i = 0 := by linarith
    rw [g0, l0, show (XR.fin (0 : K) / XR.fin 0 : XR K) = XR.nan by
      show XR.div _ _ = _
      simp [XR.div, XR.infOf]]
    rfl
  · rename_i h
    exact rsi_exact hG hL (lt_of_le_of_ne (by linarith) (Ne.symm h))

omit [LinearOrder K] [IsStrictOrderedRing K] [Transc K] [FloorRing K] in
theorem moves_three {p : Nat} (hp : 2 ≤ p) (a b c : K) : moves (a :: b :: List.replicate (p - 1) c) p = (b - a) :: (c - b) :: List.replicate (p - 2) 0 := by
  apply List.ext_getElem (by simp [moves]; omega)
  intro k h1 h2
  have hk : k < p := by simpa [moves] using h1
  rcases k with _ | _ | k
  · simp [moves]
  · simp [moves, show 0 < p - 1 by omega]
  · simp [moves, show k < p - 1 by omega, show k + 1 < p - 1 by omega]

theorem rsi_three {p : Nat} (hp : 2 ≤ p) (a b c : K) : rsi p ((a :: b :: List.replicate (p - 1) c).map fin) = share (max 0 (b - a) + max 0 (c - b)) (max 0 (a - b) + max 0 (b - c)) := by
  have hp0 : (p : K) ≠ 0 := by positivity
  have e (u v : K) : wilderAvg p (u :: v :: List.replicate (p - 2) 0) = (u + v) / p := by
    rw [wilderAvg, List.drop_eq_nil_of_le (by simp; omega), List.foldl_nil, List.take_of_length_le (by simp; omega), avg]
    simp [show p - 2 + 1 + 1 = p by omega]
  rw [rsi_share (by omega) (i := p) (by simp; omega) le_rfl, gainAt, lossAt, moves_three hp]
  simp only [List.map_cons, List.map_replicate, max_self, neg_zero, neg_sub, e]
  simp only [share]
  rw [← add_div, mul_div_assoc', div_div_div_cancel_right₀ hp0]
  simp only [div_eq_zero_iff, hp0, or_false]

omit [Transc K] in
theorem share_inj {g l g' l' : K} (h : share g l = share g' l') (h0 : g + l ≠ 0) : g' + l' ≠ 0 ∧ g * l' = g' * l := by
  unfold share at h
  rw [if_neg h0] at h
  split at h
  · cases h
  · rename_i h1
    refine ⟨h1, ?_⟩
    injection h with h
    rw [div_eq_div_iff h0 h1] at h
    linarith

/-- **C96 RSI** with a period of at least 2 is unchanged for all series exactly if unit and origin are changed. -/
theorem C96_rsi {p : Nat} (hp : 2 ≤ p) (f : K → K) : PassesThrough (RSI (p : Int)) numbers vSBuf f id ↔ ∃ c d, 0 < c ∧ ∀ x, f x = c * x + d := by
  rw [show (numbers : List K → Val (XR K)) = finSeries from rfl, (rsi_reals (by omega)).passes fun _ _ => vSBuf_inj]
  constructor
  · intro h
    have key (a b c : K) : share (max 0 (f b - f a) + max 0 (f c - f b)) (max 0 (f a - f b) + max 0 (f b - f c)) = share (max 0 (b - a) + max 0 (c - b)) (max 0 (a - b) + max 0 (b - c)) := by
      rw [← rsi_three hp, ← rsi_three hp]
      simpa using h (a :: b :: List.replicate (p - 1) c) (by simp)
    have mono : StrictMono f := fun a b hab => by
      have := key a b b
      simp only [sub_self, max_self, add_zero] at this
      rw [max_eq_right (sub_pos.2 hab).le, max_eq_left (sub_neg.2 hab).le] at this
      obtain ⟨n, e⟩ := share_inj this.symm (by rw [add_zero]; exact (sub_pos.2 hab).ne')
      rw [mul_zero, mul_eq_zero, or_iff_right (sub_pos.2 hab).ne', max_eq_left_iff, sub_nonpos] at e
      refine lt_of_le_of_ne e fun h => n ?_
      rw [h]; simp
    have slope (a b c : K) (ha : a < b) (hc : c < b) : (b - a) * (f b - f c) = (f b - f a) * (b - c) := by
      have := key a b c
      have ha' := sub_pos.2 (mono ha)
      have hc' := sub_pos.2 (mono hc)
      have k1 := sub_pos.2 ha
      have k2 := sub_pos.2 hc
      rw [max_eq_right ha'.le, max_eq_left (by linarith), max_eq_left (by linarith), max_eq_right hc'.le, max_eq_right k1.le, max_eq_left (by linarith), max_eq_left (by linarith),
        max_eq_right k2.le, add_zero, zero_add, add_zero, zero_add] at this
      exact (share_inj this.symm (by linarith)).2
    refine ⟨f 1 - f 0, f 0, sub_pos.2 (mono one_pos), fun x => ?_⟩
    obtain ⟨b, h0, h1, hx⟩ : ∃ b : K, 0 < b ∧ 1 < b ∧ x < b := ⟨max 1 x + 1, by have := le_max_left 1 x; linarith, by have := le_max_left 1 x; linarith, by have := le_max_right 1 x; linarith⟩
    have s1 := slope 0 b 1 h0 h1
    have s2 := slope 0 b x h0 hx
    rw [sub_zero] at s1 s2
    have hb : b ≠ 0 := h0.ne'
    have : b * (f x - ((f 1 - f 0) * x + f 0)) = 0 := by linear_combination x * s1 - s2
    linarith [(mul_eq_zero.1 this).resolve_left hb]
  · rintro ⟨c, d, hc, h⟩ xs hx
    have e : (xs.map f).map fin = ((xs.map fin).map (scale c)).map (plus d) := by
      simp only [List.map_map]
      refine List.map_congr_left fun x _ => ?_
      simp [h, scale, plus]
    rw [e, id, rsi, shifted_changes, List.length_map, ← (scale_pos hc).rsi p (xs.map fin), rsi]
example := (C96_rsi (K := ℚ) (p := 2) (by norm_num) (fun x => 3 * x + 1)).2 ⟨3, 1, by norm_num, fun _ => rfl⟩

omit [IsStrictOrderedRing K] [Transc K] [FloorRing K] [LinearOrder K] in
theorem wilderAvg_one (l : List K) (x : K) : wilderAvg 1 (l ++ [x]) = x := by
  rcases l with _ | ⟨a, l⟩
  · simp [wilderAvg, avg]
  · simp [wilderAvg]

theorem rsi_one (l : List K) (a b : K) : rsi 1 ((l ++ [a, b]).map fin) = share (max 0 (b - a)) (max 0 (a - b)) := by
  have hm : moves (l ++ [a, b]) (l.length + 1) = moves (l ++ [a, b]) l.length ++ [b - a] := by
    simp [moves, List.range_succ]
  rw [rsi_share one_pos (i := l.length + 1) (by simp) (by omega), gainAt, lossAt, hm, List.map_append, List.map_append, List.map_cons, List.map_cons, List.map_nil, List.map_nil,
    wilderAvg_one, wilderAvg_one, neg_sub]

/-- **C96 RSI** with period 1 is unchanged exactly by strictly increasing functions: it only tells rises from falls. -/
theorem C96_rsi_one (f : K → K) : PassesThrough (RSI 1) numbers vSBuf f id ↔ StrictMono f := by
  rw [show (numbers : List K → Val (XR K)) = finSeries from rfl, show (1 : Int) = ((1 : Nat) : Int) from rfl, (rsi_reals one_pos).passes fun _ _ => vSBuf_inj]
  constructor
  · intro h a b hab
    have := h ([] ++ [a, b]) (by simp)
    rw [List.map_append, List.map_cons, List.map_cons, List.map_nil, rsi_one, id, rsi_one, max_eq_right (sub_pos.2 hab).le, max_eq_left (sub_neg.2 hab).le] at this
    obtain ⟨n, e⟩ := share_inj this.symm (by rw [add_zero]; exact (sub_pos.2 hab).ne')
    rw [mul_zero, mul_eq_zero, or_iff_right (sub_pos.2 hab).ne', max_eq_left_iff, sub_nonpos] at e
    refine lt_of_le_of_ne e fun h => n ?_
    rw [h]; simp
  · intro h xs hx
    rcases List.eq_nil_or_concat xs with rfl | ⟨l, b, rfl⟩
    · exact absurd rfl hx
    rcases List.eq_nil_or_concat l with rfl | ⟨l, a, rfl⟩
    · simp [rsi]
    rw [List.concat_eq_append, List.concat_eq_append, List.append_assoc, show [a] ++ [b] = [a, b] from rfl, List.map_append, List.map_cons, List.map_cons, List.map_nil, rsi_one, id, rsi_one]
    rcases lt_trichotomy a b with k | rfl | k
    · have k1 := sub_pos.2 k
      have k2 := sub_pos.2 (h k)
      rw [max_eq_right k1.le, max_eq_right k2.le, max_eq_left (by linarith), max_eq_left (by linarith), share, share, add_zero, add_zero, if_neg k1.ne', if_neg k2.ne',
        mul_div_cancel_right₀ _ k1.ne', mul_div_cancel_right₀ _ k2.ne']
    · simp
    · have k1 := sub_pos.2 k
      have k2 := sub_pos.2 (h k)
      rw [max_eq_right k1.le, max_eq_right k2.le, max_eq_left (by linarith), max_eq_left (by linarith), share, share, zero_add, zero_add, if_neg k1.ne', if_neg k2.ne']
      simp
example := (C96_rsi_one (K := ℚ) (fun x => x ^ 3)).2 (Odd.strictMono_pow (by decide))

theorem corr_pairs_reals {p : Nat} (hp : 0 < p) : StreamsAs (Correlation (p : Int) : Operator (XR ℝ)) pairs vSBuf (fun l => corrOf p (l.map (Prod.map fin fin))) := by
  have := (C41_correlation_scalar (α := XR ℝ) hp).comap (y' := fun l => corrOf p (l.map (Prod.map fin fin))) (Prod.map XR.fin XR.fin) id (fun l _ => rfl)
  simp only [← finPairs_eq] at this
  rw [show (pairs : List (ℝ × ℝ) → Val (XR ℝ)) = finPairs from rfl]
  simpa only [List.map_id] using this

/-- **C96 Correlation** over at least 3 samples is unchanged by a transformation of the first series, whatever both series are, exactly if unit and origin of that series are changed. -/
theorem C96_correlation {p : Nat} (hp : 3 ≤ p) (f : ℝ → ℝ) : PassesThrough (Correlation (p : Int)) pairs vSBuf (fun z => (f z.1, z.2)) id ↔ ∃ c d, 0 < c ∧ ∀ x, f x = c * x + d := by
  rw [(corr_pairs_reals (by omega)).passes fun _ _ => vSBuf_inj]
  constructor
  · intro h
    have key (a b c : ℝ) (hab : a ≠ b) : ∃ u v, 0 < u ∧ a = u * f a + v ∧ b = u * f b + v ∧ c = u * f c + v := by
      have e (g : ℝ → ℝ) : corrOf p (((List.replicate (p - 1) (g c, c) ++ [(g b, b), (g a, a)])).map (Prod.map fin fin)) =
          (pearson ((((g a, a) :: (g b, b) :: List.replicate (p - 2) (g c, c)).map Prod.fst).map fin) ((((g a, a) :: (g b, b) :: List.replicate (p - 2) (g c, c)).map Prod.snd).map fin) : XR ℝ) := by
        have hw : window p (List.replicate (p - 1) (g c, c) ++ [(g b, b), (g a, a)]) = (g a, a) :: (g b, b) :: List.replicate (p - 2) (g c, c) := by
          obtain ⟨q, rfl⟩ : ∃ q, p = q + 2 := ⟨p - 2, by omega⟩
          simp [window, List.take_replicate]
        rw [corrOf, if_neg (by simp; omega), List.map_map, List.map_map, ← hw]
        simp only [window_map, List.map_map]
        rfl
      have := h (List.replicate (p - 1) (c, c) ++ [(b, b), (a, a)]) (by simp)
      rw [id, e fun x => x, List.map_append, List.map_replicate, List.map_cons, List.map_cons, List.map_nil] at this
      rw [e f] at this
      have v1 : Varies (((a, a) :: (b, b) :: List.replicate (p - 2) (c, c)).map Prod.fst) := ⟨a, by simp, b, by simp, hab⟩
      have v2 : Varies (((a, a) :: (b, b) :: List.replicate (p - 2) (c, c)).map Prod.snd) := ⟨a, by simp, b, by simp, hab⟩
      have v2' : Varies (((f a, a) :: (f b, b) :: List.replicate (p - 2) (f c, c)).map Prod.snd) := ⟨a, by simp, b, by simp, hab⟩
      rw [pearson_varies v1 v2, (correlation_sign v1 v2 (e := 1) (.inl rfl)).2 ⟨1, 0, by norm_num, by simp⟩] at this
      by_cases v1' : Varies (((f a, a) :: (f b, b) :: List.replicate (p - 2) (f c, c)).map Prod.fst)
      · rw [pearson_varies v1' v2'] at this
        injection this with this
        obtain ⟨u, v, hu, hz⟩ := (correlation_sign v1' v2' (e := 1) (.inl rfl)).1 this
        exact ⟨u, v, by linarith, hz (f a, a) (by simp), hz (f b, b) (by simp), hz (f c, c) (by simp [show p - 2 ≠ 0 by omega])⟩
      · rw [pearson_constant (by simp) (fun hh => v1' hh.1)] at this
        cases this
    have k01 := key 0 1 0 (by norm_num)
    obtain ⟨u, v, hu, e0, e1, -⟩ := k01
    refine ⟨f 1 - f 0, f 0, by nlinarith, fun x => ?_⟩
    obtain ⟨u', v', hu', e0', e1', ex⟩ := key 0 1 x (by norm_num)
    have h1 : u' * (f 1 - f 0) = 1 := by linarith
    have h2 : u' * (f x - f 0) = x := by linarith
    have : u' * (f x - ((f 1 - f 0) * x + f 0)) = 0 := by linear_combination h2 - x * h1
    linarith [(mul_eq_zero.1 this).resolve_left hu'.ne']
  · rintro ⟨c, d, hc, h⟩ zs hz
    have e : (zs.map fun z => (f z.1, z.2)).map (Prod.map fin fin) = ((zs.map (Prod.map fin fin)).map (Prod.map (scale c) (scale 1))).map (Prod.map (plus d) (plus (0 : ℝ))) := by
      simp only [List.map_map]
      refine List.map_congr_left fun x _ => ?_
      rcases x with ⟨x, y⟩
      simp [h, scale, plus]
    rw [e, id, shifted_corrOf d (by omega), (scale_pos hc).corrOf (scale_pos one_pos) (scale_sqrt hc) (scale_sqrt one_pos)]
example := (C96_correlation (p := 3) (by norm_num) (fun x => 3 * x + 1)).2 ⟨3, 1, by norm_num, fun _ => rfl⟩

/-- the variance of one sample among `n` equal others -/
theorem variance_one_replicate (n : Nat) (a b : ℝ) : variance (a :: List.replicate n b) = (n / (n + 1) ^ 2) * (a - b) ^ 2 := by
  have hn : (n : ℝ) + 1 ≠ 0 := by positivity
  have ha : avg (a :: List.replicate n b) = (a + n * b) / (n + 1) := by
    simp only [avg, List.sum_cons, List.sum_replicate, List.length_cons, List.length_replicate, nsmul_eq_mul]
    push_cast
    rfl
  rw [variance, ha]
  simp only [avg, List.map_cons, List.map_replicate, List.sum_cons, List.sum_replicate, List.length_cons, List.length_replicate, nsmul_eq_mul]
  push_cast
  field_simp
  ring

/-- **C96 MSD** over at least 2 samples is unchanged for all series exactly if the samples are moved or reflected. -/
theorem C96_msd {p : Nat} (hp : 2 ≤ p) (f : ℝ → ℝ) : PassesThrough (MSD (p : Int)) numbers numbers f id ↔ ∃ e d, (e = 1 ∨ e = -1) ∧ ∀ x, f x = e * x + d := by
  rw [show (numbers : List ℝ → Val (XR ℝ)) = finSeries from rfl, (msd_reals (by omega)).passes fun _ _ => finSeries_inj]
  constructor
  · intro h
    have key (a b : ℝ) : (f a - f b) ^ 2 = (a - b) ^ 2 := by
      have e (u v : ℝ) : movingStdR p (List.replicate (p - 1) v ++ [u]) = stdDev (u :: List.replicate (p - 1) v) := by
        rw [movingStdR, if_neg (by simp; omega), window, List.reverse_append, List.take_of_length_le (by simp; omega)]
        simp
      have := h (List.replicate (p - 1) b ++ [a]) (by simp)
      rw [id, e, List.map_append, List.map_replicate, List.map_cons, List.map_nil, e, stdDev, stdDev, Real.sqrt_inj (variance_nonneg _) (variance_nonneg _),
        variance_one_replicate, variance_one_replicate] at this
      have hq : (0 : ℝ) < (p - 1 : Nat) := by exact_mod_cast (by omega : 0 < p - 1)
      exact mul_left_cancel₀ (by positivity) this
    refine ⟨f 1 - f 0, f 0, ?_, fun x => ?_⟩
    · exact sq_eq_one_iff.1 (by simpa using key 1 0)
    · have h1 := key 1 0
      have h2 := key x 0
      have h3 := key x 1
      have : (f x - ((f 1 - f 0) * x + f 0)) ^ 2 = 0 := by
        have hm : (f x - f 0) * (f 1 - f 0) = x := by nlinarith
        nlinarith
      linarith [pow_eq_zero_iff (two_ne_zero) |>.1 this]
  · rintro ⟨e, d, he, h⟩ xs hx
    have hm : xs.map f = (xs.map (e * ·)).map (· + d) := by
      simp only [List.map_map]
      exact List.map_congr_left fun x _ => h x
    rw [hm, movingStdR, id, movingStdR, window_map, window_map, stdDev_shift, stdDev_smul]
    rcases he with rfl | rfl <;> simp
example := (C96_msd (p := 2) (by norm_num) (fun x => -1 * x + 1)).2 ⟨-1, 1, .inr rfl, fun _ => rfl⟩

end TS
