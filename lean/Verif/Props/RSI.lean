import Verif.Props.Moments
/-
C36: relative strength index.
-/
namespace TS
open PyVal
variable {K : Type} [Field K] [LinearOrder K] [IsStrictOrderedRing K] [Transc K] [FloorRing K]

/-- **C36, every arithmetic.** -/
theorem C36_rsi_streams {α : Type} [TFNum α] {p : Nat} (hp : 0 < p) : StreamsAs (RSI (p : Int) : Operator α) vSBuf vSBuf (rsi p) :=
  (rsi_tracks hp).streams nums_ok isSeries_vSBuf fun _ => rfl
example := C36_rsi_streams (α := XR ℚ) (p := 2) (by norm_num)

/-- The differences of consecutive prices up to index `i`. -/
def moves (xs : List K) (i : Nat) : List K := (List.range i).map fun k => xs.getD (k + 1) 0 - xs.getD k 0

/-- Wilder's smoothing: the mean of the first `p` numbers, then `((p - 1) previous + next) / p`. -/
def wilderAvg (p : Nat) (l : List K) : K := (l.drop p).foldl (fun g x => (g * ((p : K) - 1) + x) / p) (avg (l.take p))

/-- Average gain at index `i`. -/
def gainAt (p : Nat) (xs : List K) (i : Nat) : K := wilderAvg p ((moves xs i).map fun d => max 0 d)
/-- Average loss at index `i`. -/
def lossAt (p : Nat) (xs : List K) (i : Nat) : K := wilderAvg p ((moves xs i).map fun d => max 0 (-d))

theorem changes_fin {xs : List K} {i : Nat} (hi : i < xs.length) : changes ((xs.map XR.fin).take (i + 1)) = (moves xs i).map XR.fin := by
  apply List.ext_getElem
  · simp [changes, moves]; omega
  · intro k h1 h2
    simp only [moves, List.length_map, List.length_range] at h2
    have a : k + 1 < xs.length := by omega
    have b : k < xs.length := by omega
    simp only [changes, List.getElem_zipWith, List.getElem_tail, List.getElem_take, List.getElem_map, XR.fin_sub, moves, List.getElem_range,
      List.getD_eq_getElem?_getD, List.getElem?_eq_getElem a, List.getElem?_eq_getElem b, Option.getD_some]

theorem wilder_fold_fin {p : Nat} (hp : 0 < p) {f : XR K → XR K} {g : K → K} (hf : ∀ x, f (XR.fin x) = XR.fin (g x)) (a : K) (l : List K) :
    (l.map XR.fin).foldl (fun g x => (g * Arith.ofInt ((p : Int) - 1) + f x) / Arith.ofInt p) (XR.fin a) =
      XR.fin ((l.map g).foldl (fun g x => (g * ((p : K) - 1) + x) / p) a) := by
  have hp' : (p : K) ≠ 0 := by simpa using hp.ne'
  induction l generalizing a with
  | nil => rfl
  | cons x l ih =>
    simp only [List.map_cons, List.foldl_cons, hf, XR.ofInt_eq, XR.fin_mul, XR.fin_add] at ih ⊢
    rw [XR.fin_div _ _ (by simpa using hp'), ih]
    push_cast
    rfl

theorem avgGain_fin {p : Nat} (hp : 0 < p) {d : List K} (hd : p ≤ d.length) : avgGain p (d.map XR.fin) = XR.fin (wilderAvg p (d.map fun x => max 0 x)) := by
  have e : (((d.map XR.fin).take p).reverse.map fun x : XR K => if TFNum.lt (Arith.ofRat 0) x then x else Arith.ofRat 0) =
      (((d.take p).reverse).map fun x => max 0 x).map XR.fin := by
    simp only [← List.map_take, ← List.map_reverse, List.map_map, Function.comp_def]
    refine List.map_congr_left fun x _ => ?_
    simp only [XR.ofRat_eq, Rat.cast_zero, XR.lt_fin, decide_eq_true_eq]
    by_cases h : 0 < x
    · simp [h, h.le]
    · simp [h, not_lt.1 h]
  rw [avgGain, wilder, e, XR.mean_fin (by rw [← List.length_pos_iff]; simp; omega), ← List.map_drop,
    wilder_fold_fin hp (g := fun x => max 0 x) (by simp), wilderAvg, List.map_reverse, avg_reverse, List.map_take, List.map_drop]

theorem avgLoss_fin {p : Nat} (hp : 0 < p) {d : List K} (hd : p ≤ d.length) : avgLoss p (d.map XR.fin) = XR.fin (wilderAvg p (d.map fun x => max 0 (-x))) := by
  have e : (((d.map XR.fin).take p).reverse.map fun x : XR K => if TFNum.lt x (Arith.ofRat 0) then x else Arith.ofRat 0) =
      (((d.take p).reverse).map fun x => -1 * max 0 (-x)).map XR.fin := by
    simp only [← List.map_take, ← List.map_reverse, List.map_map, Function.comp_def]
    refine List.map_congr_left fun x _ => ?_
    simp only [XR.ofRat_eq, Rat.cast_zero, XR.lt_fin, decide_eq_true_eq]
    by_cases h : x < 0
    · simp [h, h.le]
    · simp [h, not_lt.1 h]
  rw [avgLoss, e, XR.mean_fin (by rw [← List.length_pos_iff]; simp; omega), ← List.map_drop, XR.fin_neg,
    wilder_fold_fin hp (f := fun x => - Arith.min (Arith.ofRat 0) x) (g := fun x => max 0 (-x)) (by
      intro x
      simp only [XR.ofRat_eq, Rat.cast_zero, XR.min_fin, XR.fin_neg]
      rcases le_total 0 x with h | h <;> simp [h]), wilderAvg, avg_map_smul, List.map_reverse, avg_reverse, List.map_take, List.map_drop]
  simp

theorem wilderAvg_nonneg {p : Nat} (hp : 0 < p) {l : List K} (h : ∀ x ∈ l, 0 ≤ x) : 0 ≤ wilderAvg p l := by
  have hp' : (1 : K) ≤ p := by exact_mod_cast hp
  have h0 : 0 ≤ avg (l.take p) := avg_nonneg fun x hx => h x (List.mem_of_mem_take hx)
  have hd : ∀ x ∈ l.drop p, 0 ≤ x := fun x hx => h x (List.mem_of_mem_drop hx)
  rw [wilderAvg]
  generalize avg (l.take p) = a at *
  generalize l.drop p = l at *
  induction l generalizing a with
  | nil => exact h0
  | cons x l ih =>
    refine ih _ ?_ fun y hy => hd y (by simp [hy])
    have := hd x (by simp)
    have : 0 ≤ a * ((p : K) - 1) := mul_nonneg h0 (by linarith)
    positivity

/-- With a period of at least 2 the average remembers every number. -/
theorem wilderAvg_eq_zero {p : Nat} (hp : 2 ≤ p) {l : List K} (h : ∀ x ∈ l, 0 ≤ x) : wilderAvg p l = 0 ↔ ∀ x ∈ l, x = 0 := by
  have hp' : (2 : K) ≤ p := by exact_mod_cast hp
  have key : ∀ (d : List K) (a : K), 0 ≤ a → (∀ x ∈ d, 0 ≤ x) →
      (d.foldl (fun g x => (g * ((p : K) - 1) + x) / p) a = 0 ↔ a = 0 ∧ ∀ x ∈ d, x = 0) := by
    intro d
    induction d with
    | nil => intro a _ _; simp
    | cons x d ih =>
      intro a ha hd
      have hx := hd x (by simp)
      have hm : 0 ≤ a * ((p : K) - 1) := mul_nonneg ha (by linarith)
      rw [List.foldl_cons, ih _ (by positivity) fun y hy => hd y (by simp [hy])]
      have e : (a * ((p : K) - 1) + x) / p = 0 ↔ a = 0 ∧ x = 0 := by
        rw [div_eq_zero_iff, or_iff_left (by linarith : (p : K) ≠ 0) , add_eq_zero_iff_of_nonneg hm hx, mul_eq_zero,
          or_iff_left (by intro h0; linarith)]
      rw [e]
      simp [and_assoc]
  have h1 : ∀ x ∈ l.take p, 0 ≤ x := fun x hx => h x (List.mem_of_mem_take hx)
  rw [wilderAvg, key _ _ (avg_nonneg h1) fun x hx => h x (List.mem_of_mem_drop hx), avg_eq_zero h1]
  conv_rhs => rw [← List.take_append_drop p l]
  simp only [List.mem_append]
  constructor
  · rintro ⟨h1, h2⟩ x (hx | hx)
    · exact h1 x hx
    · exact h2 x hx
  · exact fun h => ⟨fun x hx => h x (.inl hx), fun x hx => h x (.inr hx)⟩

theorem gainAt_nonneg {p : Nat} (hp : 0 < p) (xs : List K) (i : Nat) : 0 ≤ gainAt p xs i :=
  wilderAvg_nonneg hp (by simp only [List.mem_map]; rintro _ ⟨x, -, rfl⟩; exact le_max_left _ _)

theorem lossAt_nonneg {p : Nat} (hp : 0 < p) (xs : List K) (i : Nat) : 0 ≤ lossAt p xs i :=
  wilderAvg_nonneg hp (by simp only [List.mem_map]; rintro _ ⟨x, -, rfl⟩; exact le_max_left _ _)

theorem rsi_fin {p i : Nat} (hp : 0 < p) {xs : List K} (hi : i < xs.length) (hpi : p ≤ i) :
    rsi p ((xs.map XR.fin).take (i + 1)) =
      (XR.fin 100 - XR.fin 100 / (XR.fin 1 + XR.fin (gainAt p xs i) / XR.fin (lossAt p xs i)) : XR K) := by
  have hm : p ≤ (moves xs i).length := by simpa [moves] using hpi
  rw [rsi, List.length_take, List.length_map, if_neg (by omega), changes_fin hi, avgGain_fin hp hm, avgLoss_fin hp hm]
  simp [gainAt, lossAt]

/-- **C36 RSI**, exact arithmetic: zero below index `p`; from there on the formula on the smoothed average gain and loss, between 0 and 100,
with 100 when only the loss is zero and NaN when both are. -/
theorem C36_rsi {p : Nat} (hp : 0 < p) {xs : List K} (hx : xs ≠ []) :
    ∃ os sf s0, call (RSI (p : Int)) (finSeries xs) none = .ok (vSBuf os, sf, s0) ∧ ∃ hl : os.length = xs.length,
      ∀ i (hi : i < xs.length),
        (i < p → os[i] = XR.fin 0) ∧
        (p ≤ i → lossAt p xs i ≠ 0 → ∃ v, os[i] = XR.fin v ∧ v = 100 - 100 / (1 + gainAt p xs i / lossAt p xs i) ∧ 0 ≤ v ∧ v ≤ 100 ∧
          (v = 0 ↔ gainAt p xs i = 0)) ∧
        (p ≤ i → lossAt p xs i = 0 → gainAt p xs i ≠ 0 → os[i] = XR.fin 100) ∧
        (p ≤ i → lossAt p xs i = 0 → gainAt p xs i = 0 → os[i] = XR.nan) := by
  obtain ⟨os, sf, s0, h1, hl, h2⟩ := (C36_rsi_streams (α := XR K) hp).at (xs := xs.map XR.fin) (by simpa using hx)
  rw [List.length_map] at hl
  refine ⟨os, sf, s0, h1, hl, fun i hi => ⟨fun h => ?_, fun h hne => ?_, fun h h0 hg => ?_, fun h h0 hg => ?_⟩⟩
  · rw [h2 i (by simpa using hi), rsi, List.length_take, List.length_map, if_pos (by omega)]; simp
  all_goals rw [h2 i (by simpa using hi), rsi_fin hp hi h]
  · have hL : 0 < lossAt p xs i := lt_of_le_of_ne (lossAt_nonneg hp xs i) (Ne.symm hne)
    have hG := gainAt_nonneg hp xs i
    have hq : 0 ≤ gainAt p xs i / lossAt p xs i := by positivity
    have hd : (1 : K) + gainAt p xs i / lossAt p xs i ≠ 0 := by linarith
    rw [XR.fin_div _ _ hne, XR.fin_add, XR.fin_div _ _ hd, XR.fin_sub]
    refine ⟨_, rfl, rfl, ?_, ?_, ?_⟩
    · rw [sub_nonneg, div_le_iff₀ (by linarith)]; linarith
    · have : 0 ≤ 100 / (1 + gainAt p xs i / lossAt p xs i) := by positivity
      linarith
    · rw [sub_eq_zero, eq_div_iff hd]
      constructor
      · intro e
        have : gainAt p xs i / lossAt p xs i = 0 := by linarith
        exact (div_eq_zero_iff.1 this).resolve_right hne
      · intro e; rw [e]; simp
  · have hG : 0 < gainAt p xs i := lt_of_le_of_ne (gainAt_nonneg hp xs i) (Ne.symm hg)
    rw [h0, show (XR.fin (gainAt p xs i) / XR.fin 0 : XR K) = XR.pinf by
      show XR.div _ _ = _
      simp [XR.div, XR.infOf, hG]]
    show XR.add (XR.fin 100) (XR.neg (XR.div (XR.fin 100) (XR.add (XR.fin 1) XR.pinf))) = _
    simp [XR.add, XR.div, XR.neg]
  · rw [h0, hg, show (XR.fin (0 : K) / XR.fin 0 : XR K) = XR.nan by
      show XR.div _ _ = _
      simp [XR.div, XR.infOf]]
    rfl
example := C36_rsi (K := ℚ) (p := 2) (by norm_num) (xs := [3, 1, 4]) (by simp)

theorem moves_zero {xs : List K} {i : Nat} (hi : i < xs.length) (f : K → K) (P : K → K → Prop)
    (hf : ∀ a b, f (a - b) = 0 ↔ P a b) :
    (∀ x ∈ (moves xs i).map f, x = 0) ↔ ∀ k (h : k < i), P (xs[k + 1]'(by omega)) (xs[k]'(by omega)) := by
  simp only [moves, List.mem_map, List.mem_range]
  constructor
  · intro h k hk
    rw [← hf]
    refine h _ ⟨_, ⟨k, hk, rfl⟩, ?_⟩
    rw [List.getD_eq_getElem?_getD, List.getElem?_eq_getElem (by omega), List.getD_eq_getElem?_getD, List.getElem?_eq_getElem (by omega)]
    rfl
  · rintro h _ ⟨_, ⟨k, hk, rfl⟩, rfl⟩
    rw [List.getD_eq_getElem?_getD, List.getElem?_eq_getElem (by omega), List.getD_eq_getElem?_getD, List.getElem?_eq_getElem (by omega)]
    exact (hf _ _).2 (h k hk)

theorem gainAt_eq_zero {p : Nat} (hp : 2 ≤ p) {xs : List K} {i : Nat} (hi : i < xs.length) :
    gainAt p xs i = 0 ↔ ∀ k (h : k < i), xs[k + 1] ≤ xs[k] := by
  rw [gainAt, wilderAvg_eq_zero hp (by simp only [List.mem_map]; rintro _ ⟨x, -, rfl⟩; exact le_max_left _ _)]
  exact moves_zero hi (fun d => max 0 d) (fun a b => a ≤ b) fun a b => by simp

theorem lossAt_eq_zero {p : Nat} (hp : 2 ≤ p) {xs : List K} {i : Nat} (hi : i < xs.length) :
    lossAt p xs i = 0 ↔ ∀ k (h : k < i), xs[k] ≤ xs[k + 1] := by
  rw [lossAt, wilderAvg_eq_zero hp (by simp only [List.mem_map]; rintro _ ⟨x, -, rfl⟩; exact le_max_left _ _)]
  exact moves_zero hi (fun d => max 0 (-d)) (fun a b => b ≤ a) fun a b => by simp

/-- **C36, in terms of the prices**, for periods of at least 2: NaN exactly when the price has never moved, otherwise a number between 0 and 100,
which is 100 exactly when the price has never fallen and 0 exactly when it has never risen. -/
theorem C36_rsi_prices {p : Nat} (hp : 2 ≤ p) {xs : List K} (hx : xs ≠ []) :
    ∃ os sf s0, call (RSI (p : Int)) (finSeries xs) none = .ok (vSBuf os, sf, s0) ∧ ∃ hl : os.length = xs.length,
      ∀ i (hi : i < xs.length), p ≤ i →
        (os[i] = XR.nan ↔ ∀ k (h : k < i), xs[k + 1] = xs[k]) ∧
        (¬ (∀ k (h : k < i), xs[k + 1] = xs[k]) → ∃ v, os[i] = XR.fin v ∧ 0 ≤ v ∧ v ≤ 100 ∧
          (v = 100 ↔ ∀ k (h : k < i), xs[k] ≤ xs[k + 1]) ∧ (v = 0 ↔ ∀ k (h : k < i), xs[k + 1] ≤ xs[k])) := by
  obtain ⟨os, sf, s0, h1, hl, h2⟩ := C36_rsi (by omega : 0 < p) hx
  refine ⟨os, sf, s0, h1, hl, fun i hi hpi => ?_⟩
  obtain ⟨-, hA, hB, hC⟩ := h2 i hi
  replace hA := hA hpi
  replace hB := hB hpi
  replace hC := hC hpi
  have hG := gainAt_eq_zero hp hi
  have hL := lossAt_eq_zero hp hi
  have hE : (∀ k (h : k < i), xs[k + 1] = xs[k]) ↔ gainAt p xs i = 0 ∧ lossAt p xs i = 0 := by
    rw [hG, hL]
    exact ⟨fun h => ⟨fun k hk => (h k hk).le, fun k hk => (h k hk).ge⟩, fun h k hk => le_antisymm (h.1 k hk) (h.2 k hk)⟩
  rw [hE, ← hG, ← hL]
  have gn := gainAt_nonneg (by omega : 0 < p) xs i
  have ln := lossAt_nonneg (by omega : 0 < p) xs i
  by_cases l0 : lossAt p xs i = 0
  · by_cases g0 : gainAt p xs i = 0
    · exact ⟨⟨fun _ => ⟨g0, l0⟩, fun _ => hC l0 g0⟩, fun h => absurd ⟨g0, l0⟩ h⟩
    · refine ⟨⟨fun h => ?_, fun h => absurd h.1 g0⟩, fun _ => ⟨100, hB l0 g0, by norm_num, le_rfl, by simp [l0], ?_⟩⟩
      · rw [hB l0 g0] at h; simp at h
      · constructor
        · intro h; norm_num at h
        · intro h; exact absurd h g0
  · obtain ⟨v, e, hv, v0, v1, vz⟩ := hA l0
    refine ⟨⟨fun h => ?_, fun h => absurd h.2 l0⟩, fun _ => ⟨v, e, v0, v1, ?_, vz⟩⟩
    · rw [e] at h; simp at h
    · refine ⟨fun h => ?_, fun h => absurd h l0⟩
      exfalso
      have lp : 0 < lossAt p xs i := lt_of_le_of_ne ln (Ne.symm l0)
      have : 0 < 100 / (1 + gainAt p xs i / lossAt p xs i) := by positivity
      linarith
example := C36_rsi_prices (K := ℚ) (p := 2) (by norm_num) (xs := [3, 1, 4]) (by simp)

/-- With period 1 only the last move counts: the price has risen before, the RSI is NaN all the same. -/
theorem C36_period_one : output (call (RSI 1) (series [1, 2, 2]) none) = .ok (vSBuf [XR.fin 0, XR.fin 100, XR.nan]) := by decide +kernel

example : output (call (RSI 2) (series [1, 2, 4, 3, 3]) none) = .ok (series [0, 0, 100, 60, 60]) := by decide +kernel
example : output (call (RSI 2) (series [5, 5, 5, 4]) none) = .ok (vSBuf [XR.fin 0, XR.fin 0, XR.nan, XR.fin 0]) := by decide +kernel

end TS
