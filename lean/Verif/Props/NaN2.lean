import Verif.Props.NaN
import Verif.Props.Moments
import Verif.Props.Accuracy4
import Verif.Props.Helpers
/-
C65: missing numbers in crossovers, returns, bands, skewness and the relative strength index.
-/
namespace TS
open PyVal XR
set_option linter.unusedSectionVars false

section
variable {K : Type} [Field K] [LinearOrder K] [IsStrictOrderedRing K] [Transc K] [FloorRing K]

/-- As `StreamsAs.nanWhen`, for outputs of any kind. -/
theorem StreamsAs.chosen {A A' B B' : Type} {op : Operator (XR K)} {ser : List A → Val (XR K)} {outs : List B → Val (XR K)} {y : List A → B} (h : StreamsAs op ser outs y) {f : A' → A} {g : B' → B}
    {P : List A' → B' → Prop} (e : ∀ l, l ≠ [] → ∃ o, y (l.map f) = g o ∧ P l o) {xs : List A'} (hx : xs ≠ []) :
    ∃ (os : List B') (sf s0 : Val (XR K)), call op (ser (xs.map f)) none = .ok (outs (os.map g), sf, s0) ∧
      ∃ hl : os.length = xs.length, ∀ i (hi : i < xs.length), P (xs.take (i + 1)) os[i] := by
  obtain ⟨sf, s0, h1⟩ := h.at' (xs := xs.map f) (by simpa using hx)
  have e' : ∀ i : Fin xs.length, ∃ o : B', y ((xs.take (i + 1)).map f) = g o ∧ P (xs.take (i + 1)) o := fun i => e _ (by simpa using hx)
  choose o ho using e'
  refine ⟨List.ofFn o, sf, s0, ?_, by simp, fun i hi => by simpa using (ho ⟨i, hi⟩).2⟩
  rw [h1]
  congr 3
  apply List.ext_getElem (by simp)
  intro i h1 h2
  simp only [List.length_map, List.length_ofFn] at h2
  simpa [scan_getElem, ← List.map_take] using (ho ⟨i, h2⟩).1

/-- **C65**, the difference of two moving averages: NaN exactly when the slow one is warm and a sample in one of the two windows is NaN; -/
theorem C65_crossover {slow fast : Nat} (hs : 0 < slow) (hf : 0 < fast) : NaNWhen (K := K) (SMACrossover (slow : Int) fast)
    (fun h => slow ≤ h.length ∧ (none ∈ window slow h ∨ fast ≤ h.length ∧ none ∈ window fast h)) :=
  ((C32_crossover (α := XR K) hs hf []).scalar (y' := smaDiff slow fast) fun l _ => by
    funext c; rw [smaDiff_apply, map_pt_apply]; rfl).nanWhen fun l _ => by
    simp only [smaDiff, List.length_map]
    obtain ⟨o1, h1, h2⟩ := movingAvg_orNaN (K := K) hs l
    obtain ⟨o2, h3, h4⟩ := movingAvg_orNaN (K := K) hf l
    rw [h1, h3]
    split
    · next h =>
      obtain ⟨o, h5, h6⟩ := strict_sub.apply (some 0) o1
      refine ⟨o, by rw [← h5, zero_eq]; rfl, ?_⟩
      rw [h6, h2]
      simp [Nat.not_le.2 h]
    · next h =>
      obtain ⟨o, h5, h6⟩ := strict_sub.apply o2 o1
      refine ⟨o, h5, ?_⟩
      rw [h6, h2, h4, and_iff_right (Nat.not_lt.1 h), or_comm]
      simp [Nat.not_lt.1 h]
example := C65_crossover (K := ℚ) (slow := 3) (fast := 2) (by norm_num) (by norm_num)

/-- returns: NaN exactly when the sample or the one `p` steps ago is, unless the latter is zero (then the return is taken to be zero, even if the newest sample is NaN); -/
theorem C65_return {p : Nat} (hp : 0 < p) : NaNWhen (K := K) (Return (p : Int))
    (fun h => h.reverse[p]? = some none ∨ h.getLast? = some none ∧ ∃ a, h.reverse[p]? = some (some a) ∧ a ≠ 0) :=
  (C37_return_streams (α := XR K) (by simp) hp).nanWhen fun l hl => by
    have e1 : lagged Arith.zero p (l.map orNaN) = orNaN (lagged (some 0) p l) := by
      rw [show (Arith.zero : XR K) = orNaN (some 0) from zero_eq, lagged_of_map]
    have e2 : (l.map orNaN).getLastD Arith.zero = orNaN (l.getLastD (some 0)) := by
      rw [List.getLastD_eq_getLast?, List.getLastD_eq_getLast?, List.getLast?_map]
      cases l.getLast? <;> first | rfl | exact zero_eq
    simp only [growth, List.length_map, e1, e2]
    have hlag : lagged (some (0 : K)) p l = (l.reverse[p]?).getD (some 0) := rfl
    have hlast : l.getLastD (some (0 : K)) = l.getLast?.getD (some 0) := List.getLastD_eq_getLast? ..
    by_cases hlen : l.length ≤ p
    · have : l.reverse[p]? = none := by simpa using hlen
      rw [if_pos (Or.inl hlen)]
      exact ⟨some 0, zero_eq, by simp [this]⟩
    · obtain ⟨z, hz⟩ : ∃ z, l.reverse[p]? = some z := ⟨_, List.getElem?_eq_getElem (by simpa using hlen)⟩
      obtain ⟨w, hw⟩ : ∃ w, l.getLast? = some w := ⟨_, List.getLast?_eq_getLast_of_ne_nil hl⟩
      rw [hlag, hlast, hz, hw]
      simp only [Option.getD_some]
      cases z with
      | none =>
        rw [if_neg (by rintro (h | h); exact hlen h; cases h)]
        refine ⟨none, ?_, by simp⟩
        cases w <;> rfl
      | some b =>
        by_cases hb : b = 0
        · rw [if_pos (Or.inr (by simp [orNaN, hb]))]
          exact ⟨some 0, zero_eq, by simp [hb]⟩
        · rw [if_neg (by rintro (h | h); exact hlen h; simp [orNaN] at h; exact hb h)]
          cases w with
          | none => exact ⟨none, rfl, by simp [hb]⟩
          | some a =>
            refine ⟨some (a / b - 1), ?_, by simp⟩
            show fin a / fin b - Arith.ofRat 1 = fin _
            rw [fin_div _ _ hb, ofRat_eq, fin_sub]; norm_num
example := C65_return (K := ℚ) (p := 2) (by norm_num)

/-- **C09, NaN**: `any_value(inputs, nan)` is false whatever the inputs hold (NaN equals nothing, not even itself; `any_nan` is there for that), -/
theorem C09_any_value_nan {inputs : Val (XR K)} (hw : inputs.WF) (hf : ∀ l ∈ flatten inputs, ∃ t, l = .f t) : anyValue inputs nan = .ok false := by
  obtain ⟨b, h1, h2⟩ := C09_any_value (nan : XR K) hw hf
  rw [h1]
  cases b with
  | false => rfl
  | true =>
    obtain ⟨t, -, c, h⟩ := h2.1 rfl
    revert h; cases t.val c <;> exact Bool.noConfusion
example : anyValue (vSBuf [(nan : XR ℚ), fin 1]) nan = .ok false := C09_any_value_nan (by simp) (by simp [flatten, vSBuf, vBuf])
example : anyNan (vSBuf [(nan : XR ℚ), fin 1]) = .ok true := by decide +kernel

/-- and on any other value, `any_value` looks for exactly that value. -/
theorem C09_any_value_exact {v : XR K} (hv : v ≠ nan) {inputs : Val (XR K)} (hw : inputs.WF) (hf : ∀ l ∈ flatten inputs, ∃ t, l = .f t) :
    ∃ b, anyValue inputs v = .ok b ∧ (b = true ↔ HasElem inputs fun x => x = v) := by
  obtain ⟨b, h1, h2⟩ := C09_any_value v hw hf
  refine ⟨b, h1, h2.trans ?_⟩
  have : ∀ x : XR K, TFNum.eq x v = true ↔ x = v := by
    intro x
    cases x <;> cases v <;> first | exact absurd rfl hv | (simp; done) | (constructor <;> intro h <;> cases h <;> rfl)
  simp only [this]
example := C09_any_value_exact (K := ℚ) (v := fin 0) (by simp) (inputs := vSBuf [nan, fin 1]) (by simp) (by simp [flatten, vSBuf, vBuf])

/-- the change between two samples, NaN if one of them is -/
def optSub (a b : Option K) : Option K := a.bind fun a => b.map fun b => a - b

theorem changes_orNaN (l : List (Option K)) : changes (l.map orNaN) = (List.zipWith optSub l.tail l).map (orNaN (K := K)) := by
  rw [changes, ← List.map_tail, List.zipWith_map, List.map_zipWith]
  congr 1
  funext a b
  cases a <;> cases b <;> first | rfl | exact fin_sub _ _

/-- **C65, relative strength index** at index `p`, the first one computed: NaN samples are ignored, whichever they are; it is NaN exactly when no two consecutive samples are different numbers,
and otherwise between 0 and 100. -/
theorem C65_rsi {p : Nat} (hp : 0 < p) {xs : List (Option K)} (hx : xs ≠ []) : ∃ (os : List (XR K)) (sf s0 : Val (XR K)),
    call (RSI (p : Int)) (vSBuf (xs.map orNaN)) none = .ok (vSBuf os, sf, s0) ∧ os.length = xs.length ∧ ∀ o, p < xs.length → os[p]? = some o →
      (o = nan ↔ ∀ k a b, k < p → xs[k]? = some (some a) → xs[k + 1]? = some (some b) → a = b) ∧ (o ≠ nan → ∃ v, o = fin v ∧ 0 ≤ v ∧ v ≤ 100) := by
  obtain ⟨os, sf, s0, h1, hl, h2⟩ := (C36_rsi_streams (α := XR K) hp).at (xs := xs.map orNaN) (by simpa using hx)
  rw [List.length_map] at hl
  refine ⟨os, sf, s0, h1, hl, fun o hpx ho => ?_⟩
  rw [List.getElem?_eq_getElem (by omega), h2 p (by simpa using hpx), Option.some_inj] at ho
  set d := List.zipWith optSub (xs.take (p + 1)).tail (xs.take (p + 1)) with ed
  have hd : d.length = p := by simp [ed]; omega
  rw [rsi, if_neg (by simp; omega), ← List.map_take, changes_orNaN, ← ed] at ho
  have hdf : ∀ {f : Option K → K}, d.reverse.map f ≠ [] := by
    intro f h
    have := congrArg List.length h
    rw [List.length_map, List.length_reverse, List.length_nil] at this; omega
  have hnl : ∀ x : XR K, TFNum.lt nan x = false := fun x => by cases x <;> rfl
  have hnr : ∀ x : XR K, TFNum.lt x nan = false := fun x => by cases x <;> rfl
  have hg : avgGain p (d.map orNaN) = fin (avg (d.map fun z => Max.max 0 (z.getD 0))) := by
    rw [avgGain, wilder, List.drop_eq_nil_of_le (by simp [hd]), List.foldl_nil, List.take_of_length_le (by simp [hd]), ← List.map_reverse, List.map_map,
      ← avg_reverse, ← List.map_reverse, ← XR.mean_fin hdf, List.map_map]
    congr 1
    refine List.map_congr_left fun z _ => ?_
    cases z with
    | none => simp [orNaN, hnr]
    | some a => 
      rcases lt_or_ge 0 a with h | h
      · simp [orNaN, h, h.le]
      · simp [orNaN, not_lt.2 h, h]
  have hk : avgLoss p (d.map orNaN) = fin (avg (d.map fun z => Max.max 0 (-(z.getD 0)))) := by
    have e : avg (d.map fun z => Max.max 0 (-(z.getD 0))) = - avg (d.map fun z => Min.min 0 (z.getD 0)) := by
      rw [avg, avg, List.length_map, List.length_map, ← neg_div]
      congr 1
      generalize d = d
      induction d with
      | nil => simp
      | cons z d ih =>
        rw [List.map_cons, List.sum_cons, ih, List.map_cons, List.sum_cons, neg_add, ← max_neg_neg, neg_zero]
    rw [e, avgLoss, List.drop_eq_nil_of_le (by simp [hd]), List.foldl_nil, List.take_of_length_le (by simp [hd]), ← List.map_reverse, List.map_map,
      ← avg_reverse, ← List.map_reverse, ← fin_neg, ← XR.mean_fin hdf, List.map_map]
    congr 2
    refine List.map_congr_left fun z _ => ?_
    cases z with
    | none => simp [orNaN, hnl]
    | some a => 
      rcases lt_or_ge a 0 with h | h
      · simp [orNaN, h, h.le]
      · simp [orNaN, not_lt.2 h, h]
  rw [hg, hk] at ho
  have hmem : ∀ z ∈ d, ∃ k a b, k < p ∧ xs[k]? = some a ∧ xs[k + 1]? = some b ∧ z = optSub b a := by
    intro z hz
    obtain ⟨k, hk, rfl⟩ := List.getElem_of_mem hz
    refine ⟨k, xs[k]'(by omega), xs[k + 1]'(by omega), by omega, List.getElem?_eq_getElem _, List.getElem?_eq_getElem _, ?_⟩
    simp [ed]
  have hmem' : ∀ k a b, k < p → xs[k]? = some a → xs[k + 1]? = some b → optSub b a ∈ d := by
    intro k a b hk ha hb
    obtain ⟨h3, rfl⟩ := List.getElem?_eq_some_iff.1 ha
    obtain ⟨h4, rfl⟩ := List.getElem?_eq_some_iff.1 hb
    have : d[k]'(by omega) = optSub xs[k + 1] xs[k] := by simp [ed]
    rw [← this]
    exact List.getElem_mem _
  have hg0 : 0 ≤ avg (d.map fun z => Max.max 0 (z.getD 0)) := avg_nonneg (by simp only [List.mem_map]; rintro _ ⟨z, -, rfl⟩; exact le_max_left _ _)
  have hk0 : 0 ≤ avg (d.map fun z => Max.max 0 (-(z.getD 0))) := avg_nonneg (by simp only [List.mem_map]; rintro _ ⟨z, -, rfl⟩; exact le_max_left _ _)
  have hp' : (0 : K) < p := by exact_mod_cast hp
  -- the sums vanish exactly when all changes do
  have hzero : ∀ f : Option K → K, (∀ z, 0 ≤ f z) → (avg (d.map f) = 0 ↔ ∀ z ∈ d, f z = 0) := by
    intro f hf
    rw [avg, List.length_map, hd, div_eq_zero_iff, or_iff_left hp'.ne']
    generalize d = d
    induction d with
    | nil => simp
    | cons z d ih =>
      have : 0 ≤ (d.map f).sum := List.sum_nonneg (by simp only [List.mem_map]; rintro _ ⟨z, -, rfl⟩; exact hf z)
      rw [List.map_cons, List.sum_cons, add_eq_zero_iff_of_nonneg (hf z) this, ih]
      simp
  have hall : (avg (d.map fun z => Max.max 0 (z.getD 0)) = 0 ∧ avg (d.map fun z => Max.max 0 (-(z.getD 0))) = 0) ↔
      ∀ k a b, k < p → xs[k]? = some (some a) → xs[k + 1]? = some (some b) → a = b := by
    rw [hzero _ fun z => le_max_left _ _, hzero _ fun z => le_max_left _ _]
    constructor
    · rintro ⟨h3, h4⟩ k a b hk ha hb
      have h5 := h3 _ (hmem' k _ _ hk ha hb)
      have h6 := h4 _ (hmem' k _ _ hk ha hb)
      simp [optSub] at h5 h6
      exact le_antisymm h6 h5
    · intro h
      have : ∀ z ∈ d, z.getD 0 = 0 := by
        intro z hz
        obtain ⟨k, a, b, hk, ha, hb, rfl⟩ := hmem z hz
        cases a with
        | none => cases b <;> rfl
        | some a =>
          cases b with
          | none => rfl
          | some b => simp [optSub, h k a b hk ha hb]
      exact ⟨fun z hz => by rw [this z hz]; simp, fun z hz => by rw [this z hz]; simp⟩
  rw [← hall]
  set g := avg (d.map fun z => Max.max 0 (z.getD 0))
  set k := avg (d.map fun z => Max.max 0 (-(z.getD 0)))
  have e100 : (Arith.ofRat 100 : XR K) = fin 100 := by rw [ofRat_eq]; norm_num
  have e1 : (Arith.ofRat 1 : XR K) = fin 1 := by rw [ofRat_eq]; norm_num
  rw [e100, e1] at ho
  by_cases h0 : g = 0 ∧ k = 0
  · have : o = nan := by
      rw [← ho, h0.1, h0.2]
      rw [show (fin 0 / fin 0 : XR K) = nan by show XR.div _ _ = _; simp [XR.div]]
      rfl
    exact ⟨⟨fun _ => h0, fun _ => this⟩, fun h => absurd this h⟩
  · have hpos : 0 < g + k := by
      rcases hg0.eq_or_lt with h3 | h3
      · rcases hk0.eq_or_lt with h4 | h4
        · exact absurd ⟨h3.symm, h4.symm⟩ h0
        · linarith
      · linarith
    rw [rsi_exact hg0 hk0 hpos] at ho
    subst ho
    refine ⟨⟨fun h => absurd h (by simp), fun h => absurd h h0⟩, fun _ => ⟨_, rfl, by positivity, ?_⟩⟩
    rw [div_le_iff₀ hpos]
    linarith
example := C65_rsi (K := ℚ) (p := 2) (by norm_num) (xs := [some 1, none, some 3]) (by simp)

end

/-- **C65**, Bollinger bands (real numbers): all three bands like the moving average. -/
theorem C65_bollinger {p : Nat} (hp : 0 < p) (k : ℚ) {xs : List (Option ℝ)} (hx : xs ≠ []) : ∃ (os : List (Option ℝ × Option ℝ × Option ℝ)) (sf s0 : Val (XR ℝ)),
    call (BollingerBands (p : Int) k) (vSBuf (xs.map orNaN)) none = .ok (vSBuf3 (os.map (Prod.map orNaN (Prod.map orNaN orNaN))), sf, s0) ∧
    ∃ hl : os.length = xs.length, ∀ i (hi : i < xs.length),
      let bad := p ≤ i + 1 ∧ none ∈ window p (xs.take (i + 1))
      (os[i].1 = none ↔ bad) ∧ (os[i].2.1 = none ↔ bad) ∧ (os[i].2.2 = none ↔ bad) := by
  have := (C30_bollinger_scalar (α := XR ℝ) hp k).chosen (f := orNaN) (g := Prod.map orNaN (Prod.map orNaN orNaN))
    (P := fun l o => let bad := p ≤ l.length ∧ none ∈ window p l; (o.1 = none ↔ bad) ∧ (o.2.1 = none ↔ bad) ∧ (o.2.2 = none ↔ bad)) (fun l hl => by
      obtain ⟨m, h1, h2⟩ := movingAvg_orNaN (K := ℝ) hp l
      obtain ⟨d, h3, h4⟩ : ∃ o, movingStd p (l.map orNaN) = (orNaN o : XR ℝ) ∧ (o = none ↔ p ≤ l.length ∧ none ∈ window p l) := by
        simp only [movingStd, List.length_map, window_of_map]
        split
        · exact ⟨some 0, zero_eq, by simp; omega⟩
        · by_cases h : none ∈ window p l
          · exact ⟨none, std_nan h, by simp [h]; omega⟩
          · obtain ⟨k, hk⟩ := somes_of_no_nan h
            have hk0 : k ≠ [] := by
              rintro rfl
              exact window_ne_nil (p := p) (l := l) hp (by rw [← List.length_pos_iff]; omega) hk
            refine ⟨some (stdDev k), ?_, by simp [h]⟩
            rw [hk, List.map_map]
            exact XR.std_fin hk0
      obtain ⟨e, h5, h6⟩ : ∃ e : Option ℝ, (orNaN d * Arith.ofRat k : XR ℝ) = orNaN e ∧ (e = none ↔ d = none) := by
        cases d with
        | none => exact ⟨none, nan_mul' _, by simp⟩
        | some a => exact ⟨some (a * k), by rw [ofRat_eq]; exact fin_mul _ _, by simp⟩
      obtain ⟨lo, h7, h8⟩ := strict_sub.apply m e
      obtain ⟨hi, h9, h10⟩ := strict_add.apply m e
      refine ⟨(lo, m, hi), ?_, ?_, h2, ?_⟩
      · rw [bands3, h1, h3, h5, h7, h9]; rfl
      · rw [h8, h6, h2, h4, or_self]
      · rw [h10, h6, h2, h4, or_self]) hx
  obtain ⟨os, sf, s0, k1, hl, k2⟩ := this
  refine ⟨os, sf, s0, k1, hl, fun i hi => ?_⟩
  have := k2 i hi
  rwa [List.length_take, Nat.min_eq_left (by omega)] at this
example := C65_bollinger (p := 2) (by norm_num) 2 (xs := [some 1, none, some 3]) (by simp)

/-- and skewness (real numbers): NaN exactly when a sample in the window is, from the first sample on. -/
theorem C65_skewness {p : Nat} (hp : 0 < p) : NaNWhen (K := ℝ) (Skewness (p : Int)) (fun h => none ∈ window p h) :=
  (skewness_streams hp).nanWhen fun l hl => by
    rw [window_of_map]
    by_cases h : none ∈ window p l
    · refine ⟨none, ?_, by simp [h]⟩
      have hs := std_nan h
      rw [computeSkewness]
      simp only
      rw [hs, if_neg (by rintro h; cases h)]
      show XR.div _ _ = nan
      rw [show (Arith.pow nan 3 : XR ℝ) = nan from rfl]
      generalize (_ - _ : XR ℝ) = x
      cases x <;> rfl
    · obtain ⟨k, hk⟩ := somes_of_no_nan h
      have hk0 : k ≠ [] := by
        rintro rfl
        exact window_ne_nil (p := p) (l := l) hp hl hk
      refine ⟨some (if stdDev k = 0 then 0 else skew k), ?_, by simp [h]⟩
      rw [hk, List.map_map]
      exact skewness_fin hk0
example := C65_skewness (p := 2) (by norm_num)

/-- Examples: a NaN among the first samples does not keep the index from being computed (the third sample below), and a return from zero is zero even to NaN. -/
example : output (call (RSI 2) (vSBuf [fin (1 : ℚ), nan, fin 3]) none) = .ok (vSBuf [fin 0, fin 0, nan]) := by decide +kernel
example : output (call (RSI 3) (vSBuf [fin (1 : ℚ), nan, fin 3, fin 4]) none) = .ok (vSBuf [fin 0, fin 0, fin 0, fin 100]) := by decide +kernel
example : output (call (Return 1) (vSBuf [fin (0 : ℚ), nan, fin 3]) none) = .ok (vSBuf [fin 0, fin 0, nan]) := by decide +kernel

end TS
