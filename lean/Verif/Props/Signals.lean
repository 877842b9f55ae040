import Verif.Props.RSI
import Verif.Spec.Crossing
/-
C33 - C35: zero crossover and trading signals.
-/
namespace TS
open PyVal

section
variable {K : Type} [Zero K] [LinearOrder K]

theorem sgn_mem (x : K) : sgn x = 1 ∨ sgn x = -1 ∨ sgn x = 0 := by unfold sgn; split <;> [simp; split <;> simp]
theorem sgn_eq_zero {x : K} : sgn x = 0 ↔ x = 0 := by
  unfold sgn
  rcases lt_trichotomy x 0 with h | h | h
  · simp [h.not_gt, h, h.ne]
  · simp [h]
  · simp [h, h.ne']

theorem lastSign_snoc (l : List K) (x : K) : lastSign (l ++ [x]) = if x = 0 then lastSign l else sgn x := by
  simp [lastSign, List.foldl_append]

theorem lastSign_mem (l : List K) : lastSign l = 1 ∨ lastSign l = -1 := by
  induction l using List.reverseRecOn with
  | nil => exact .inl rfl
  | append_singleton l x ih =>
    rw [lastSign_snoc]
    split
    · exact ih
    · rename_i h
      rcases sgn_mem x with h' | h' | h'
      · exact .inl h'
      · exact .inr h'
      · exact absurd (sgn_eq_zero.1 h') h

theorem turnAt_mem (xs : List K) (i : Nat) : turnAt xs i = -1 ∨ turnAt xs i = 0 ∨ turnAt xs i = 1 := by
  unfold turnAt
  split
  · simp
  · rcases sgn_mem (xs.getD i 0) with h | h | h <;> rw [h] <;> simp

theorem turnAt_sign {xs : List K} {i : Nat} (h : turnAt xs i ≠ 0) : turnAt xs i = sgn (xs.getD i 0) ∧ turnAt xs i = - lastSign (xs.take i) := by
  unfold turnAt at h ⊢
  split at h
  · exact absurd rfl h
  · rename_i hc
    push Not at hc
    rw [if_neg (by push Not; exact hc)]
    refine ⟨rfl, ?_⟩
    rcases sgn_mem (xs.getD i 0) with h1 | h1 | h1 <;> rcases lastSign_mem (xs.take i) with h2 | h2 <;> simp_all

/-- The direction after sample `i`. -/
theorem lastSign_step {xs : List K} {i : Nat} (hi : i < xs.length) (h0 : i ≠ 0) :
    lastSign (xs.take (i + 1)) = if turnAt xs i = 0 then lastSign (xs.take i) else turnAt xs i := by
  rw [List.take_succ_eq_append_getElem hi, lastSign_snoc]
  have e : xs.getD i 0 = xs[i] := by rw [List.getD_eq_getElem?_getD, List.getElem?_eq_getElem hi, Option.getD_some]
  unfold turnAt
  rw [e]
  by_cases hx : xs[i] = 0
  · simp [hx]
  · by_cases hs : sgn xs[i] = lastSign (xs.take i)
    · simp [hx, hs]
    · simp [hx, hs, h0, sgn_eq_zero]

theorem turns_alternate (xs : List K) {i j : Nat} (hij : i < j) (hj : j < xs.length) (h1 : turnAt xs i ≠ 0) (h2 : turnAt xs j ≠ 0)
    (h3 : ∀ k, i < k → k < j → turnAt xs k = 0) : turnAt xs j = - turnAt xs i := by
  have h0 : i ≠ 0 := by rintro rfl; simp [turnAt] at h1
  have key : ∀ d, i + 1 + d ≤ j → lastSign (xs.take (i + 1 + d)) = turnAt xs i := by
    intro d
    induction d with
    | zero => intro _; rw [Nat.add_zero, lastSign_step (by omega) h0, if_neg h1]
    | succ d ih =>
      intro hd
      rw [← Nat.add_assoc, lastSign_step (by omega) (by omega), if_pos (h3 _ (by omega) (by omega)), ih (by omega)]
  rw [(turnAt_sign h2).2, show j = i + 1 + (j - i - 1) by omega, key _ (by omega)]

end

/-! ### The signal in exact arithmetic -/
section
variable {K : Type} [Field K] [LinearOrder K] [IsStrictOrderedRing K] [Transc K] [FloorRing K]

theorem orientation_fin (x : K) : orientation (XR.fin x) = XR.fin (if 0 ≤ x then 1 else -1) := by
  unfold orientation
  simp only [XR.sign_fin, XR.zero_eq, XR.le_fin, XR.ofRat_eq, decide_eq_true_eq]
  rcases lt_trichotomy x 0 with h | h | h
  · simp [h.not_gt, h, h.not_ge, not_le.2 (neg_one_lt_zero (R := K))]
  · simp [h]
  · simp [h, h.le]

theorem against_fin {d : Int} (hd : d = 1 ∨ d = -1) (x : K) : against (XR.fin (d : K)) (XR.fin x) = decide (x ≠ 0 ∧ sgn x ≠ d) := by
  simp only [against, XR.fin_mul, orientation_fin, XR.zero_eq, XR.lt_fin, XR.eq_fin]
  rcases lt_trichotomy x 0 with h | h | h
  · rcases hd with rfl | rfl <;> simp [sgn, h, h.le, h.not_gt, h.not_ge, h.ne]
  · rcases hd with rfl | rfl <;> simp [h]
  · rcases hd with rfl | rfl <;> simp [sgn, h, h.le, h.not_gt, h.not_ge, h.ne']

theorem direction_snoc {α : Type} [TFNum α] {h : List α} (hh : h ≠ []) (x : α) :
    direction (h ++ [x]) = if against (direction h) x then - direction h else direction h := by
  cases h with
  | nil => exact absurd rfl hh
  | cons a l => simp only [direction, List.cons_append, List.foldl_append, List.foldl_cons, List.foldl_nil]; rfl

theorem direction_fin {l : List K} (hl : l ≠ []) : direction (l.map XR.fin) = XR.fin (lastSign l : K) := by
  induction l using List.reverseRecOn with
  | nil => exact absurd rfl hl
  | append_singleton l x ih =>
    by_cases h : l = []
    · subst h
      simp only [List.nil_append, List.map_cons, List.map_nil, direction, List.foldl_nil, orientation_fin, lastSign, List.foldl_cons]
      rcases lt_trichotomy x 0 with h | h | h
      · simp [sgn, h, h.not_gt, h.not_ge, h.ne]
      · simp [h]
      · simp [sgn, h, h.le, h.ne']
    · rw [List.map_append, List.map_cons, List.map_nil, direction_snoc (by simpa using h), ih h, against_fin (lastSign_mem l), lastSign_snoc]
      by_cases hx : x = 0
      · simp [hx]
      · by_cases hs : sgn x = lastSign l
        · simp [hs]
        · have : sgn x = - lastSign l := by
            have := sgn_eq_zero.not.2 hx
            rcases sgn_mem x with h1 | h1 | h1 <;> rcases lastSign_mem l with h2 | h2 <;> simp_all
          simp [hx, this]
          rcases lastSign_mem l with h2 | h2 <;> simp [h2]

theorem toInt_fin (n : Int) : TFNum.toInt (XR.fin (n : K)) = n := by
  show XR.toInt _ = _
  simp [XR.toInt]

theorem crossing_snoc {α : Type} [TFNum α] (h : List α) (x : α) :
    crossing (h ++ [x]) = if h = [] then Arith.zero else if against (direction h) x then - direction h else Arith.zero := by
  simp [crossing]

theorem crossing_fin {us : List K} {i : Nat} (hi : i < us.length) : TFNum.toInt (crossing ((us.map XR.fin).take (i + 1))) = turnAt us i := by
  rw [List.take_succ_eq_append_getElem (by simpa using hi), crossing_snoc, List.getElem_map]
  by_cases h0 : i = 0
  · subst h0
    have := toInt_fin (K := K) 0
    simp at this
    simp [turnAt, this]
  · have hne : us.take i ≠ [] := by rw [← List.length_pos_iff, List.length_take]; omega
    rw [← List.map_take, if_neg (by simpa using hne), direction_fin hne, against_fin (lastSign_mem _)]
    have e : us.getD i 0 = us[i] := by rw [List.getD_eq_getElem?_getD, List.getElem?_eq_getElem hi, Option.getD_some]
    unfold turnAt
    rw [e]
    by_cases hc : us[i] ≠ 0 ∧ sgn us[i] ≠ lastSign (us.take i)
    · rw [if_pos (by simpa using hc), if_neg (by push Not; exact ⟨h0, hc⟩), XR.fin_neg]
      have := toInt_fin (K := K) (- lastSign (us.take i))
      push_cast at this
      rw [this]
      have := sgn_eq_zero.not.2 hc.1
      rcases sgn_mem us[i] with h1 | h1 | h1 <;> rcases lastSign_mem (us.take i) with h2 | h2 <;> simp_all
    · have h3 := toInt_fin (K := K) 0
      simp only [Int.cast_zero] at h3
      rw [if_neg (by simpa using hc), if_pos (by by_contra hh; push Not at hh; exact hc hh.2), XR.zero_eq, h3]

/-! ### C33 -/

/-- **C33, every arithmetic and shape.** -/
theorem C33_zero_crossover_streams {α : Type} [TFNum α] (s : List Nat) :
    StreamsAs (ZeroCrossoverSignal : Operator α) (vBuf (s := s)) vIsBuf (fun h c => TFNum.toInt (crossing (h.map (· c)))) :=
  zc_tracks.streams rows_ok isSeries_vIsBuf fun _ => rfl
example := C33_zero_crossover_streams (α := XR ℚ) [2]

/-- An int per step from a function of the history of numbers. -/
theorem StreamsAs.scalarInt {α : Type} {op : Operator α} {y : List α → Int}
    (h : StreamsAs op (vBuf (s := [])) vIsBuf (fun h c => y (h.map (· c)))) : StreamsAs op vSBuf vIBuf y :=
  h.comap pt (fun n _ => n) fun k _ => by funext c; rw [map_pt_apply]

/-- **C33 Zero crossover signal**, exact arithmetic: the first output is zero; the output at `i` is non-zero exactly when `x[i]` is non-zero
and of sign opposite to the current direction, and then it is the sign of `x[i]`.  The direction `ds[i]` starts with the sign of
the first input (zero counting as `+`) and is turned by every signal; it is the sign of the last non-zero input. -/
theorem C33_zero_crossover {xs : List K} (hx : xs ≠ []) :
    ∃ (os : List Int) (sf s0 : Val (XR K)) (ds : Nat → Int), call ZeroCrossoverSignal (finSeries xs) none = .ok (vIBuf os, sf, s0) ∧
      ∃ hl : os.length = xs.length, os[0]? = some 0 ∧
      (∀ h : 0 < xs.length, ds 0 = if (0 : K) ≤ xs[0] then 1 else -1) ∧
      (∀ i, (hi : i + 1 < xs.length) →
        (os[i + 1] ≠ 0 ↔ xs[i + 1] ≠ 0 ∧ sgn xs[i + 1] = - ds i) ∧
        (os[i + 1] ≠ 0 → os[i + 1] = sgn xs[i + 1]) ∧
        ds (i + 1) = if os[i + 1] ≠ 0 then - ds i else ds i) ∧
      (∀ i, ds i = lastSign (xs.take (i + 1))) ∧
      (∀ o ∈ os, o = -1 ∨ o = 0 ∨ o = 1) ∧ Alternates os := by
  obtain ⟨os, sf, s0, h1, hl, h2⟩ := ((C33_zero_crossover_streams (α := XR K) []).scalarInt (y := fun h => TFNum.toInt (crossing h))).at
    (xs := xs.map XR.fin) (by simpa using hx)
  rw [List.length_map] at hl
  have ho : ∀ i (hi : i < xs.length), os[i] = turnAt xs i := fun i hi => by rw [h2 i (by simpa using hi), crossing_fin hi]
  have ho' : ∀ i a, os[i]? = some a → i < xs.length ∧ a = turnAt xs i := by
    intro i a h
    obtain ⟨hi, rfl⟩ := List.getElem?_eq_some_iff.1 h
    exact ⟨by omega, ho i (by omega)⟩
  have hpos := List.length_pos_iff.2 hx
  refine ⟨os, sf, s0, fun i => lastSign (xs.take (i + 1)), h1, hl, ?_, fun h => ?_, fun i hi => ⟨?_, ?_, ?_⟩, fun _ => rfl, fun o hmem => ?_, ?_⟩
  · rw [List.getElem?_eq_getElem (by omega), ho 0 hpos]; simp [turnAt]
  · show lastSign (xs.take (0 + 1)) = _
    rw [List.take_succ_eq_append_getElem h]
    simp only [List.take_zero, lastSign_snoc]
    rcases lt_trichotomy xs[0] 0 with h | h | h
    · simp [sgn, h, h.not_gt, h.not_ge, h.ne]
    · simp [h, lastSign]
    · simp [sgn, h, h.le, h.ne']
  · rw [ho _ hi]
    constructor
    · intro h
      obtain ⟨e1, e2⟩ := turnAt_sign h
      have e : xs.getD (i + 1) 0 = xs[i + 1] := by rw [List.getD_eq_getElem?_getD, List.getElem?_eq_getElem hi, Option.getD_some]
      rw [e] at e1
      exact ⟨fun h0 => h (by rw [e1, sgn_eq_zero]; exact h0), by rw [← e1, e2]⟩
    · rintro ⟨hx0, hs⟩
      have e : xs.getD (i + 1) 0 = xs[i + 1] := by rw [List.getD_eq_getElem?_getD, List.getElem?_eq_getElem hi, Option.getD_some]
      unfold turnAt
      rw [e, if_neg]
      · exact sgn_eq_zero.not.2 hx0
      · push Not
        refine ⟨by omega, hx0, ?_⟩
        rw [hs]
        show - lastSign (xs.take (i + 1)) ≠ lastSign (xs.take (i + 1))
        rcases lastSign_mem (xs.take (i + 1)) with h | h <;> rw [h] <;> decide
  · intro h
    rw [ho _ hi] at h ⊢
    have e : xs.getD (i + 1) 0 = xs[i + 1] := by rw [List.getD_eq_getElem?_getD, List.getElem?_eq_getElem hi, Option.getD_some]
    rw [← e]; exact (turnAt_sign h).1
  · show lastSign (xs.take (i + 1 + 1)) = if os[i + 1] ≠ 0 then - lastSign (xs.take (i + 1)) else lastSign (xs.take (i + 1))
    rw [ho _ hi, lastSign_step hi (by omega)]
    by_cases h : turnAt xs (i + 1) = 0
    · simp [h]
    · rw [if_neg h, if_pos h, (turnAt_sign h).2]
  · obtain ⟨i, hi, rfl⟩ := List.mem_iff_getElem.1 hmem
    rw [ho i (by omega)]
    exact turnAt_mem xs i
  · intro i j hij a b ha hb ha0 hb0 hk
    obtain ⟨hi, rfl⟩ := ho' i a ha
    obtain ⟨hj, rfl⟩ := ho' j b hb
    exact turns_alternate xs hij hj ha0 hb0 fun k h1 h2 => ((ho' k 0 (hk k h1 h2)).2).symm

example : output (call ZeroCrossoverSignal (series [0, 2, -1, -3, 0, 4, -5]) none) = .ok (vIBuf [0, 0, -1, 0, 0, 1, -1]) := by decide +kernel
example : output (call ZeroCrossoverSignal (series [0, -2, 1]) none) = .ok (vIBuf [0, -1, 1]) := by decide +kernel

/-! ### C34 -/

/-- What a trading signal over an underlying series `us` looks like: silent below index `n`, then the sign of `us` at its crossings;
the outputs are -1, 0 or 1, and the non-zero ones alternate. -/
structure TradeSignal (us : List K) (n : Nat) (os : List Int) : Prop where
  length : os.length = us.length
  silent : ∀ i, i < n → i < us.length → os[i]? = some 0
  cross : ∀ i, n ≤ i → i < us.length → os[i]? = some (turnAt us i)
  values : ∀ o ∈ os, o = -1 ∨ o = 0 ∨ o = 1
  sign : ∀ i (hi : i < us.length) o, os[i]? = some o → o ≠ 0 → o = sgn us[i]
  alternates : Alternates os

theorem tradeSignal_of {us : List K} {n : Nat} {os : List Int} (hl : os.length = us.length)
    (h : ∀ i, (hi : i < us.length) → os[i] = if i < n then 0 else turnAt us i) : TradeSignal us n os := by
  have h' : ∀ i o, os[i]? = some o → i < us.length ∧ o = if i < n then 0 else turnAt us i := by
    intro i o ho
    obtain ⟨hi, rfl⟩ := List.getElem?_eq_some_iff.1 ho
    exact ⟨by omega, h i (by omega)⟩
  refine ⟨hl, fun i hi hu => ?_, fun i hi hu => ?_, fun o ho => ?_, fun i hi o ho h0 => ?_, fun i j hij a b ha hb a0 b0 hk => ?_⟩
  · rw [List.getElem?_eq_getElem (by omega), h i hu, if_pos hi]
  · rw [List.getElem?_eq_getElem (by omega), h i hu, if_neg (by omega)]
  · obtain ⟨i, hi, rfl⟩ := List.mem_iff_getElem.1 ho
    rw [h i (by omega)]
    split
    · simp
    · exact turnAt_mem us i
  · obtain ⟨-, rfl⟩ := h' i o ho
    split at h0
    · exact absurd rfl h0
    · rename_i hn
      rw [if_neg hn, (turnAt_sign h0).1, List.getD_eq_getElem?_getD, List.getElem?_eq_getElem hi, Option.getD_some]
  · obtain ⟨hi, rfl⟩ := h' i a ha
    obtain ⟨hj, rfl⟩ := h' j b hb
    have hni : ¬ i < n := fun hn => a0 (if_pos hn)
    rw [if_neg hni] at a0 ⊢
    rw [if_neg (by omega)] at b0 ⊢
    refine turns_alternate us hij hj a0 b0 fun k h1 h2 => ?_
    have := (h' k 0 (hk k h1 h2)).2
    rw [if_neg (by omega)] at this
    exact this.symm

theorem C34_sma_streams {α : Type} [TFNum α] {slow fast : Nat} (hs : 0 < slow) (hf : 0 < fast) :
    StreamsAs (SMACrossoverSignal (slow : Int) fast : Operator α) vSBuf vIBuf (smaSignal slow fast) :=
  StreamsAs.scalarInt ((smaSignal_tracks hs hf []).streams rows_ok isSeries_vIsBuf fun _ => rfl)
example := C34_sma_streams (α := XR ℚ) (slow := 3) (fast := 2) (by norm_num) (by norm_num)

theorem C34_macd_streams {α : Type} [TFNum α] {slow fast m : Nat} (hs : 0 < slow) (hf : 0 < fast) (hm : 0 < m) :
    StreamsAs (MACDSignal (slow : Int) fast m : Operator α) vSBuf vIBuf (macdTrade slow fast m) :=
  StreamsAs.scalarInt ((macdTrade_tracks hs hf hm []).streams rows_ok isSeries_vIsBuf fun _ => rfl)
example := C34_macd_streams (α := XR ℚ) (slow := 3) (fast := 2) (m := 2) (by norm_num) (by norm_num) (by norm_num)

theorem scan_take {A B : Type} (y : List A → B) (xs : List A) (i : Nat) (hi : i < xs.length) : scan y [] (xs.take (i + 1)) = (scan y [] xs).take (i + 1) := by
  apply List.ext_getElem
  · simp
  · intro k h1 h2
    simp only [scan_length, List.length_take] at h1
    simp only [scan_getElem, List.getElem_take, List.nil_append, List.take_take]
    rw [Nat.min_eq_left (by omega)]

/-- the difference of the two moving averages, on numbers -/
def smaDiffK (slow fast : Nat) (l : List K) : K := (if l.length < slow then 0 else movingAvgK fast l) - movingAvgK slow l

theorem smaDiff_fin {slow fast : Nat} (hs : 0 < slow) (hf : 0 < fast) (l : List K) :
    smaDiff slow fast (l.map XR.fin) = XR.fin (smaDiffK slow fast l) := by
  simp only [smaDiff, smaDiffK, List.length_map, movingAvg_fin hs, movingAvg_fin hf]
  split <;> simp

theorem crossover_reals {slow fast : Nat} (hs : 0 < slow) (hf : 0 < fast) :
    StreamsAs (SMACrossover (slow : Int) fast : Operator (XR K)) finSeries finSeries (smaDiffK slow fast) :=
  ((C32_crossover (α := XR K) hs hf []).scalar (y' := smaDiff slow fast) fun l _ => by
    funext c; rw [smaDiff_apply, map_pt_apply]; rfl).fin fun l _ => smaDiff_fin hs hf l

/-- **C34, crossovers of moving averages**, exact arithmetic: the signal of the series that `SMACrossover` outputs, silent below index `slow`. -/
theorem C34_sma {slow fast : Nat} (hs : 0 < slow) (hf : 0 < fast) {xs : List K} (hx : xs ≠ []) :
    ∃ (os : List Int) (us : List K), (∃ sf s0, call (SMACrossoverSignal (slow : Int) fast) (finSeries xs) none = .ok (vIBuf os, sf, s0)) ∧
      (∃ sf s0, call (SMACrossover (slow : Int) fast) (finSeries xs) none = .ok (finSeries us, sf, s0)) ∧
      us.length = xs.length ∧ TradeSignal us slow os := by
  obtain ⟨os, sf, s0, h1, hl, h2⟩ := (C34_sma_streams (α := XR K) hs hf).at (xs := xs.map XR.fin) (by simpa using hx)
  obtain ⟨sf', s0', h3⟩ := (crossover_reals hs hf).at' hx
  rw [List.length_map] at hl
  refine ⟨os, _, ⟨sf, s0, h1⟩, ⟨sf', s0', h3⟩, by simp, tradeSignal_of (by simpa using hl) fun i hi => ?_⟩
  simp only [scan_length] at hi
  rw [h2 i (by simpa using hi), smaSignal, List.length_take, List.length_map, scan_take _ _ _ (by simpa using hi)]
  by_cases h : i < slow
  · rw [if_pos (by omega), if_pos h]
  · have e := scan_comap (y := smaDiff slow fast) (f := XR.fin) (g := XR.fin) (fun l _ => smaDiff_fin (K := K) hs hf l) [] xs
    rw [List.map_nil] at e
    rw [if_neg (by omega), if_neg h, e, crossing_fin (by simpa using hi)]
example := C34_sma (K := ℚ) (slow := 3) (fast := 2) (by norm_num) (by norm_num) (xs := [3, 1, 4]) (by simp)

/-- the histogram, on numbers -/
def macdLineK (slow fast : Nat) (l : List K) : K :=
  if l.length < slow then 0
  else recursiveAvgK fast (fun m x => m + 2 / ((fast : K) + 1) * (x - m)) l - recursiveAvgK slow (fun m x => m + 2 / ((slow : K) + 1) * (x - m)) l

def macdHistK (slow fast m : Nat) (l : List K) : K :=
  if l.length + 1 < slow + m then 0
  else macdLineK slow fast l - (if l.length < slow then 0 else
    recursiveAvgK m (fun e x => e + 2 / ((m : K) + 1) * (x - e)) ((scan (macdLineK slow fast) [] l).drop (slow - 1)))

theorem macdLine_fin {slow fast : Nat} (hs : 0 < slow) (hf : 0 < fast) (l : List K) :
    macdLine slow fast (l.map XR.fin) = XR.fin (macdLineK slow fast l) := by
  simp only [macdLine, macdLineK, List.length_map, expAvg_fin hs, expAvg_fin hf]
  split <;> simp

theorem macdHist_fin {slow fast m : Nat} (hs : 0 < slow) (hf : 0 < fast) (hm : 0 < m) (l : List K) :
    macdHist slow fast m (l.map XR.fin) = XR.fin (macdHistK slow fast m l) := by
  have e := scan_comap (y := macdLine slow fast) (f := XR.fin) (g := XR.fin) (fun l _ => macdLine_fin (K := K) hs hf l) [] l
  rw [List.map_nil] at e
  simp only [macdHist, macdHistK, macdSignal, macdHistory, List.length_map, macdLine_fin hs hf, e, ← List.map_drop, expAvg_fin hm]
  split
  · simp
  · split <;> simp

/-- The last of the five outputs of MACD, exact arithmetic. -/
theorem macd_hist_reals {slow fast m : Nat} (hs : 0 < slow) (hf : 0 < fast) (hm : 0 < m) {xs : List K} (hx : xs ≠ []) :
    ∃ a b c d sf s0, call (MACD (slow : Int) fast m) (finSeries xs) none = .ok (.tup [a, b, c, d, finSeries (scan (macdHistK slow fast m) [] xs)], sf, s0) := by
  obtain ⟨sf, s0, h⟩ := (C31_macd (α := XR K) hs hf hm []).at' (xs := (xs.map XR.fin).map pt) (by simpa using hx)
  have e1 : ((scan (macdAll slow fast m) [] ((xs.map XR.fin).map pt)).map fun z => z.2.2.2.2) = ((scan (macdHistK slow fast m) [] xs).map XR.fin).map pt := by
    rw [scan_map]
    have e2 : ∀ l : List (XR K), macdHist slow fast m (l.map pt) = pt (macdHist slow fast m l) := fun l => by
      funext c; rw [macdHist_apply, map_pt_apply]; rfl
    have e3 := scan_comap (y := macdHist slow fast m) (f := pt) (g := pt) (fun l _ => e2 l) [] (xs.map XR.fin)
    have e4 := scan_comap (y := macdHist slow fast m) (f := XR.fin) (g := XR.fin) (fun l _ => macdHist_fin (K := K) hs hf hm l) [] xs
    rw [List.map_nil] at e3 e4
    rw [← e4, ← e3]
    rfl
  have e5 : (vBuf ((xs.map XR.fin).map pt) : Val (XR K)) = finSeries xs := rfl
  rw [e5] at h
  simp only [vBuf5, e1] at h
  exact ⟨_, _, _, _, sf, s0, h⟩

/-- **C34, MACD**, exact arithmetic: the signal of the histogram that `MACD` outputs, silent below index `slow + m - 2`. -/
theorem C34_macd {slow fast m : Nat} (hs : 0 < slow) (hf : 0 < fast) (hm : 0 < m) {xs : List K} (hx : xs ≠ []) :
    ∃ (os : List Int) (us : List K), (∃ sf s0, call (MACDSignal (slow : Int) fast m) (finSeries xs) none = .ok (vIBuf os, sf, s0)) ∧
      (∃ a b c d sf s0, call (MACD (slow : Int) fast m) (finSeries xs) none = .ok (.tup [a, b, c, d, finSeries us], sf, s0)) ∧
      us.length = xs.length ∧ TradeSignal us (slow + m - 2) os := by
  obtain ⟨os, sf, s0, h1, hl, h2⟩ := (C34_macd_streams (α := XR K) hs hf hm).at (xs := xs.map XR.fin) (by simpa using hx)
  rw [List.length_map] at hl
  refine ⟨os, _, ⟨sf, s0, h1⟩, macd_hist_reals hs hf hm hx, by simp, tradeSignal_of (by simpa using hl) fun i hi => ?_⟩
  simp only [scan_length] at hi
  rw [h2 i (by simpa using hi), macdTrade, List.length_take, List.length_map, scan_take _ _ _ (by simpa using hi)]
  by_cases h : i < slow + m - 2
  · rw [if_pos (by omega), if_pos h]
  · have e := scan_comap (y := macdHist slow fast m) (f := XR.fin) (g := XR.fin) (fun l _ => macdHist_fin (K := K) hs hf hm l) [] xs
    rw [List.map_nil] at e
    rw [if_neg (by omega), if_neg h, e, crossing_fin (by simpa using hi)]

example : output (call (SMACrossoverSignal 3 2) (series [1, 3, 5, 9, 0, 0, 20]) none) = .ok (vIBuf [0, 0, 0, 0, -1, 0, 1]) := by decide +kernel

/-! ### C35 -/

theorem lastSign_neg {l : List K} (h : lastSign l = -1) : ∃ x ∈ l, x < 0 := by
  induction l using List.reverseRecOn with
  | nil => simp [lastSign] at h
  | append_singleton l x ih =>
    rw [lastSign_snoc] at h
    split at h
    · obtain ⟨y, hy, h0⟩ := ih h; exact ⟨y, by simp [hy], h0⟩
    · refine ⟨x, by simp, ?_⟩
      unfold sgn at h
      split at h
      · simp at h
      · split at h
        · assumption
        · simp at h

theorem lastSign_pos {l : List K} (h : lastSign l = 1) : (∃ x ∈ l, 0 < x) ∨ ∀ x ∈ l, x = 0 := by
  induction l using List.reverseRecOn with
  | nil => simp
  | append_singleton l x ih =>
    rw [lastSign_snoc] at h
    split at h
    · rename_i hx
      rcases ih h with ⟨y, hy, h0⟩ | h0
      · exact .inl ⟨y, by simp [hy], h0⟩
      · refine .inr fun y hy => ?_
        rcases List.mem_append.1 hy with h | h
        · exact h0 y h
        · rw [List.mem_singleton.1 h, hx]
    · refine .inl ⟨x, by simp, ?_⟩
      unfold sgn at h
      split at h
      · assumption
      · split at h <;> simp at h

theorem mem_take_index {A : Type} {xs : List A} {i : Nat} {x : A} (h : x ∈ xs.take i) : ∃ j, ∃ hj : j < xs.length, j < i ∧ xs[j] = x := by
  obtain ⟨j, hj, rfl⟩ := List.mem_iff_getElem.1 h
  simp only [List.length_take] at hj
  exact ⟨j, by omega, by omega, by simp⟩

theorem macdHistK_cold {slow fast m : Nat} {xs : List K} {i : Nat} (hi : i < xs.length) (h : i + 2 < slow + m) :
    macdHistK slow fast m (xs.take (i + 1)) = 0 := by
  rw [macdHistK, List.length_take, if_pos (by omega)]

/-- **C35, what precedes a signal**: a buy signal (+1) is emitted only when an earlier genuine histogram value was negative; a sell signal (-1) only when an
earlier genuine value was positive *or all earlier values were zero*. -/
theorem C35_before_signal {slow fast m : Nat} (hs : 0 < slow) (hf : 0 < fast) (hm : 0 < m) {xs : List K} (hx : xs ≠ []) :
    ∃ (os : List Int) (us : List K), (∃ sf s0, call (MACDSignal (slow : Int) fast m) (finSeries xs) none = .ok (vIBuf os, sf, s0)) ∧
      (∃ a b c d sf s0, call (MACD (slow : Int) fast m) (finSeries xs) none = .ok (.tup [a, b, c, d, finSeries us], sf, s0)) ∧
      ∃ (l1 : os.length = xs.length) (l2 : us.length = xs.length), ∀ i (hi : i < xs.length),
        (os[i] = 1 → 0 < us[i] ∧ ∃ j, ∃ hj : j < i, slow + m - 2 ≤ j ∧ us[j] < 0) ∧
        (os[i] = -1 → us[i] < 0 ∧ ((∃ j, ∃ hj : j < i, slow + m - 2 ≤ j ∧ 0 < us[j]) ∨ ∀ j, (hj : j < i) → us[j] = 0)) := by
  obtain ⟨os, sf, s0, h1, hl, h2⟩ := (C34_macd_streams (α := XR K) hs hf hm).at (xs := xs.map XR.fin) (by simpa using hx)
  rw [List.length_map] at hl
  have ho : ∀ i (hi : i < xs.length), os[i] = if i < slow + m - 2 then 0 else turnAt (scan (macdHistK slow fast m) [] xs) i := by
    intro i hi
    rw [h2 i (by simpa using hi), macdTrade, List.length_take, List.length_map, scan_take _ _ _ (by simpa using hi)]
    by_cases h : i < slow + m - 2
    · rw [if_pos (by omega), if_pos h]
    · have e := scan_comap (y := macdHist slow fast m) (f := XR.fin) (g := XR.fin) (fun l _ => macdHist_fin (K := K) hs hf hm l) [] xs
      rw [List.map_nil] at e
      rw [if_neg (by omega), if_neg h, e, crossing_fin (by simpa using hi)]
  have hcold : ∀ j (hj : j < xs.length), (scan (macdHistK slow fast m) [] xs)[j]'(by simpa using hj) ≠ 0 → slow + m - 2 ≤ j := by
    intro j hj hne
    by_contra hc
    exact hne (by rw [scan_getElem, List.nil_append, macdHistK_cold hj (by omega)])
  refine ⟨os, scan (macdHistK slow fast m) [] xs, ⟨sf, s0, h1⟩, macd_hist_reals hs hf hm hx, hl, by simp, fun i hi => ⟨fun h => ?_, fun h => ?_⟩⟩
  all_goals
    have hoi := ho i hi
    rw [h] at hoi
    split at hoi
    · simp at hoi
    have hne : turnAt (scan (macdHistK slow fast m) [] xs) i ≠ 0 := by rw [← hoi]; decide
    obtain ⟨t1, t2⟩ := turnAt_sign hne
    have hi' : i < (scan (macdHistK slow fast m) [] xs).length := by simpa using hi
    rw [List.getD_eq_getElem?_getD, List.getElem?_eq_getElem hi', Option.getD_some, ← hoi] at t1
    rw [← hoi] at t2
  · constructor
    · unfold sgn at t1
      split at t1
      · assumption
      · split at t1 <;> simp at t1
    · obtain ⟨x, hx, h0⟩ := lastSign_neg (l := (scan (macdHistK slow fast m) [] xs).take i) (by omega)
      obtain ⟨j, hj, hji, rfl⟩ := mem_take_index hx
      exact ⟨j, hji, hcold j (by simpa using hj) h0.ne, h0⟩
  · constructor
    · unfold sgn at t1
      split at t1
      · simp at t1
      · split at t1
        · assumption
        · simp at t1
    · rcases lastSign_pos (l := (scan (macdHistK slow fast m) [] xs).take i) (by omega) with ⟨x, hx, h0⟩ | h0
      · obtain ⟨j, hj, hji, rfl⟩ := mem_take_index hx
        exact .inl ⟨j, hji, hcold j (by simpa using hj) h0.ne', h0⟩
      · refine .inr fun j hj => h0 _ ?_
        exact List.mem_take_iff_getElem.2 ⟨j, by simp; omega, rfl⟩
example := C35_before_signal (K := ℚ) (slow := 3) (fast := 2) (m := 2) (by norm_num) (by norm_num) (by norm_num) (xs := [3, 1, 4]) (by simp)

end

/-- **A signal without a crossing**: the first genuine histogram value is at index `slow + m - 2 = 3`; it is negative, nothing has crossed, and a sell signal is emitted. -/
theorem C35_first_value_signals :
    output (call (MACD 3 2 2) (series [1, 5, 7, 8]) none) = .ok (.tup [series [0, 0, 13 / 3, 37 / 6], series [0, 3, 17 / 3, 65 / 9],
      series [0, 0, 4 / 3, 19 / 18], series [0, 0, 0, 43 / 36], series [0, 0, 0, -5 / 36]]) ∧
    output (call (MACDSignal 3 2 2) (series [1, 5, 7, 8]) none) = .ok (vIBuf [0, 0, 0, -1]) :=
  ⟨by decide +kernel, by decide +kernel⟩
example := C35_first_value_signals

end TS
