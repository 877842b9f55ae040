import Verif.Props.NaN2
import Verif.Spec.Infinities
/-
C88: infinities among the samples.
-/
namespace TS
open PyVal XR
set_option linter.unusedSectionVars false

section
variable {K : Type} [Field K] [LinearOrder K] [IsStrictOrderedRing K] [Transc K] [FloorRing K]

/-- Streaming `op` over numbers, infinities and NaNs gives outputs of the sorts given by the sorts of the samples so far. -/
def SortsAs (op : Operator (XR K)) (y : List Sort4 → Sort4) : Prop :=
  ∀ xs : List (XR K), xs ≠ [] → ∃ (os : List (XR K)) (sf s0 : Val (XR K)), call op (vSBuf xs) none = .ok (vSBuf os, sf, s0) ∧
    ∃ hl : os.length = xs.length, ∀ i (hi : i < xs.length), os[i].sort = y ((xs.take (i + 1)).map XR.sort)

theorem StreamsAs.sortsAs {op : Operator (XR K)} {y : List (XR K) → XR K} (h : StreamsAs op vSBuf vSBuf y) {z : List Sort4 → Sort4}
    (e : ∀ l, l ≠ [] → (y l).sort = z (l.map XR.sort)) : SortsAs op z := by
  intro xs hx
  obtain ⟨sf, s0, h1⟩ := h.at' hx
  refine ⟨_, sf, s0, h1, by simp, fun i hi => ?_⟩
  rw [scan_getElem, List.nil_append, e _ (by simpa using hx)]

/-- the sort of a sum of two -/
def Sort4.add (a b : Sort4) : Sort4 := combined [a, b]

theorem combined_cons (a : Sort4) (l : List Sort4) : combined (a :: l) = a.add (combined l) := by
  simp only [combined, Sort4.add]
  cases a <;> by_cases h1 : Sort4.undefined ∈ l <;> by_cases h2 : Sort4.up ∈ l <;> by_cases h3 : Sort4.down ∈ l <;> simp [h1, h2, h3]

theorem combined_congr {l l' : List Sort4} (h : ∀ a, a ∈ l ↔ a ∈ l') : combined l = combined l' := by simp only [combined, h]

theorem sort_add (a b : XR K) : (a + b).sort = a.sort.add b.sort := by cases a <;> cases b <;> rfl

theorem sort_neg (a : XR K) : (-a).sort = a.sort.neg := by cases a <;> rfl

theorem sort_sub (a b : XR K) : (a - b).sort = a.sort.add b.sort.neg := by cases a <;> cases b <;> rfl

theorem sort_sum (l : List (XR K)) : (Arith.sum l : XR K).sort = combined (l.map XR.sort) := by
  show (l.foldr add (fin 0)).sort = _
  induction l with
  | nil => rfl
  | cons a l ih => rw [List.map_cons, combined_cons, ← ih]; exact sort_add _ _

theorem sort_mul_pos (a : XR K) {c : K} (hc : 0 < c) : (a * fin c : XR K).sort = a.sort := by
  cases a with
  | fin a => rfl
  | pinf => show (infOf c).sort = _; rw [infOf, if_pos hc]
  | ninf => show (infOf (-c)).sort = _; rw [infOf, if_neg (by linarith), if_pos (by linarith)]
  | nan => rfl

theorem sort_div_pos (a : XR K) {c : K} (hc : 0 < c) : (a / fin c : XR K).sort = a.sort := by
  cases a with
  | fin a => rw [fin_div _ _ hc.ne']; rfl
  | pinf => show (if 0 ≤ c then pinf else ninf : XR K).sort = _; rw [if_pos hc.le]
  | ninf => show (if 0 ≤ c then ninf else pinf : XR K).sort = _; rw [if_pos hc.le]
  | nan => rfl

theorem sort_movingAvg {p : Nat} (hp : 0 < p) (l : List (XR K)) :
    (movingAvg p l).sort = if l.length < p then .number else combined (window p (l.map XR.sort)) := by
  rw [movingAvg]
  split
  · rw [zero_eq]; rfl
  · rw [ofInt_eq, sort_div_pos _ (by exact_mod_cast hp), sort_sum, window_of_map]

/-- **C88 Infinite samples**, exact arithmetic: a moving average is NaN while there is a NaN among the last `p` samples, or both infinities; it is infinite while there is one infinity; -/
theorem C88_sma {p : Nat} (hp : 0 < p) : SortsAs (K := K) (SMA (p : Int)) (fun h => if h.length < p then .number else combined (window p h)) :=
  ((C25_sma (α := XR K) hp []).scalar (y' := movingAvg p) fun l _ => movingAvg_pt p l).sortsAs fun l _ => by rw [sort_movingAvg hp, List.length_map]
example := C88_sma (K := ℚ) (p := 2) (by norm_num)

theorem sort_foldl {f : XR K → XR K → XR K} (hf : ∀ e x, (f e x).sort = x.sort.add e.sort) (e : XR K) (l : List (XR K)) :
    (l.foldl f e).sort = combined (e.sort :: l.map XR.sort) := by
  induction l generalizing e with
  | nil => cases e <;> rfl
  | cons a l ih =>
    rw [List.foldl_cons, ih, hf, combined_cons, List.map_cons, combined_cons, combined_cons]
    cases a.sort <;> cases e.sort <;> cases combined (l.map XR.sort) <;> rfl

theorem sort_recursiveAvg {p : Nat} (hp : 0 < p) {f : XR K → XR K → XR K} (hf : ∀ e x, (f e x).sort = x.sort.add e.sort) (l : List (XR K)) :
    (recursiveAvg p f l).sort = if l.length < p then .number else combined (l.map XR.sort) := by
  rw [recursiveAvg, sort_foldl hf, sort_movingAvg hp]
  by_cases h : l.length < p
  · rw [if_pos (by simp; omega), if_pos h, List.drop_eq_nil_of_le (by omega)]; rfl
  · rw [if_neg (by simp; omega), if_neg h, combined_cons]
    have e : l.map XR.sort = (l.take p).map XR.sort ++ (l.drop p).map XR.sort := by rw [← List.map_append, List.take_append_drop]
    have w : window p ((l.take p).map XR.sort) = ((l.take p).map XR.sort).reverse := by rw [window, List.take_of_length_le (by simp)]
    have k : ∀ a b : List Sort4, combined (a ++ b) = (combined a).add (combined b) := by
      intro a b
      induction a with
      | nil => cases h : combined b <;> simp [h] <;> rfl
      | cons x a ih =>
        rw [List.cons_append, combined_cons, ih, combined_cons]
        cases x <;> cases combined a <;> cases combined b <;> rfl
    rw [e, k, w, combined_congr (l' := (l.take p).map XR.sort) (by simp)]

/-- an exponential or rolling average of at least two samples is NaN for ever after a NaN or both infinities, and infinite for ever after one infinity; -/
theorem C88_ema {p : Nat} (hp : 2 ≤ p) : SortsAs (K := K) (EMA (p : Int)) (fun h => if h.length < p then .number else combined h) :=
  ((C26_ema (α := XR K) (by omega) []).scalar (y' := expAvg p) fun l _ => expAvg_pt p l).sortsAs fun l _ => by
    have hp' : (2 : ℚ) ≤ p := by exact_mod_cast hp
    rw [expAvg, sort_recursiveAvg (by omega), List.length_map]
    intro e x
    rw [sort_add, ofRat_eq, ofRat_eq, sort_mul_pos, sort_mul_pos]
    · have : (0 : ℚ) < 1 - 2 / ((p : ℚ) + 1) := by rw [sub_pos, div_lt_one (by linarith)]; linarith
      exact_mod_cast this
    · have : (0 : ℚ) < 2 / ((p : ℚ) + 1) := by positivity
      exact_mod_cast this
example := C88_ema (K := ℚ) (p := 2) (by norm_num)

theorem C88_rma {p : Nat} (hp : 2 ≤ p) : SortsAs (K := K) (RMA (p : Int)) (fun h => if h.length < p then .number else combined h) :=
  ((C27_rma (α := XR K) (by omega) []).scalar (y' := rollAvg p) fun l _ => rollAvg_pt p l).sortsAs fun l _ => by
    rw [rollAvg, sort_recursiveAvg (by omega), List.length_map]
    intro e x
    rw [ofInt_eq, ofInt_eq, sort_div_pos _ (by exact_mod_cast (show (0 : Int) < p by omega)), sort_add, sort_mul_pos _ (by exact_mod_cast (show (0 : Int) < (p : Int) - 1 by omega))]
    cases x.sort <;> cases e.sort <;> rfl
example := C88_rma (K := ℚ) (p := 2) (by norm_num)

/-- a lagged series is infinite when the sample `p` steps ago was; -/
theorem C88_lag {p : Nat} (hp : 0 < p) : SortsAs (K := K) (Lag (p : Int)) (lagged .number p) :=
  ((C17_lag_streams (α := XR K) hp []).scalar (y' := lagged Arith.zero p) fun l _ => lagged_of_map pt Arith.zero p l).sortsAs fun l _ => by
    rw [show Sort4.number = XR.sort (Arith.zero : XR K) by rw [zero_eq]; rfl, lagged_of_map]
example := C88_lag (K := ℚ) (p := 2) (by norm_num)

/-- the momentum is NaN when both of its samples are the same infinity; -/
theorem C88_momentum {p : Nat} (hp : 0 < p) : SortsAs (K := K) (Momentum (p : Int))
    (fun h => if h.length ≤ p then .number else combined [h.getLastD .number, (lagged .number p h).neg]) :=
  ((C19_momentum_streams (α := XR K) hp []).scalar (y' := momentum p) fun l _ => momentum_pt p l).sortsAs fun l _ => by
    have z : Sort4.number = XR.sort (Arith.zero : XR K) := by rw [zero_eq]; rfl
    rw [momentum, List.length_map]
    split
    · exact z.symm
    · rw [sort_sub, z, lagged_of_map, getLastD_of_map]; rfl
example := C88_momentum (K := ℚ) (p := 2) (by norm_num)

theorem sort_number {x : XR K} : x.sort = .number ↔ ∃ a, x = fin a := by cases x <;> simp [XR.sort]

theorem sort_mul_zero (a : XR K) : (a * fin 0 : XR K).sort = if a.sort = .number then .number else .undefined := by
  cases a with
  | fin a => rfl
  | pinf => show (infOf (0 : K)).sort = _; rw [infOf, if_neg (lt_irrefl _), if_neg (lt_irrefl _)]; rfl
  | ninf => show (infOf (-0 : K)).sort = _; rw [neg_zero, infOf, if_neg (lt_irrefl _), if_neg (lt_irrefl _)]; rfl
  | nan => rfl

theorem onlyLast_concat (h : List Sort4) (hh : h ≠ []) (a : Sort4) : onlyLast (h ++ [a]) = a.add (if onlyLast h = .number then .number else .undefined) := by
  obtain ⟨k, b, rfl⟩ : ∃ k b, h = k ++ [b] := ⟨_, _, (List.dropLast_append_getLast hh).symm⟩
  simp only [onlyLast, List.dropLast_concat, List.getLastD_concat, List.forall_mem_append, List.forall_mem_singleton]
  by_cases h1 : ∀ a ∈ k, a = Sort4.number
  · simp only [eq_true h1, true_and, if_true]
    cases a <;> cases b <;> rfl
  · simp only [h1, false_and, if_false]
    cases a <;> rfl

theorem sort_foldl_one {f : XR K → XR K → XR K} (hf : ∀ e x, (f e x).sort = x.sort.add (if e.sort = .number then .number else .undefined)) (h l : List (XR K)) (hh : h ≠ []) (e : XR K)
    (he : e.sort = onlyLast (h.map XR.sort)) : (l.foldl f e).sort = onlyLast ((h ++ l).map XR.sort) := by
  induction l generalizing h e with
  | nil => rw [List.append_nil]; exact he
  | cons a l ih =>
    rw [List.foldl_cons, show h ++ a :: l = (h ++ [a]) ++ l by simp]
    refine ih _ (by simp) _ ?_
    rw [hf, he, List.map_append, List.map_singleton, onlyLast_concat _ (by simpa using hh)]

theorem sort_recursiveAvg_one {f : XR K → XR K → XR K} (hf : ∀ e x, (f e x).sort = x.sort.add (if e.sort = .number then .number else .undefined)) {l : List (XR K)} (hl : l ≠ []) :
    (recursiveAvg 1 f l).sort = onlyLast (l.map XR.sort) := by
  obtain ⟨x, l, rfl⟩ := List.exists_cons_of_ne_nil hl
  refine sort_foldl_one hf [x] l (by simp) _ ?_
  show (movingAvg 1 [x]).sort = _
  rw [sort_movingAvg (by norm_num), if_neg (by simp)]
  cases x <;> rfl

/-- of one sample: so EMA(1) and RMA(1), which repeat numbers, do not repeat infinities: after the first one everything is NaN; -/
theorem C88_ema_one : SortsAs (K := K) (EMA 1) onlyLast :=
  ((C26_ema (α := XR K) (p := 1) (by norm_num) []).scalar (y' := expAvg 1) fun l _ => expAvg_pt 1 l).sortsAs fun l hl => by
    refine sort_recursiveAvg_one (fun e x => ?_) hl
    have e1 : (2 / (((1 : Nat) : ℚ) + 1)) = 1 := by norm_num
    rw [e1, sub_self, ofRat_eq, ofRat_eq, Rat.cast_one, Rat.cast_zero, sort_add, sort_mul_pos _ one_pos, sort_mul_zero]
example := C88_ema_one (K := ℚ)

theorem C88_rma_one : SortsAs (K := K) (RMA 1) onlyLast :=
  ((C27_rma (α := XR K) (p := 1) (by norm_num) []).scalar (y' := rollAvg 1) fun l _ => rollAvg_pt 1 l).sortsAs fun l hl => by
    refine sort_recursiveAvg_one (fun e x => ?_) hl
    rw [show (((1 : Nat) : Int) - 1) = 0 by norm_num, ofInt_eq, ofInt_eq, sort_div_pos _ (by norm_num), sort_add, Int.cast_zero, sort_mul_zero]
    cases x.sort <;> split <;> rfl
example := C88_rma_one (K := ℚ)

/-- the difference of two moving averages: an infinity in both windows gives NaN; one that only the longer window still holds is an infinity of the other sign; -/
theorem C88_crossover {slow fast : Nat} (hs : 0 < slow) (hf : 0 < fast) (h : fast ≤ slow) : SortsAs (K := K) (SMACrossover (slow : Int) fast)
    (fun h => if h.length < slow then .number else combined [combined (window fast h), (combined (window slow h)).neg]) :=
  ((C32_crossover (α := XR K) hs hf []).scalar (y' := smaDiff slow fast) fun l _ => by
    funext c; rw [smaDiff_apply, map_pt_apply]; rfl).sortsAs fun l _ => by
    rw [smaDiff, List.length_map]
    split
    · next hl => rw [sort_sub, sort_movingAvg hs, if_pos hl, zero_eq]; rfl
    · next hl => rw [sort_sub, sort_movingAvg hs, sort_movingAvg hf, if_neg hl, if_neg (by omega)]; rfl
example := C88_crossover (K := ℚ) (slow := 3) (fast := 2) (by norm_num) (by norm_num) (by norm_num)

theorem fins_of_numbers {l : List (XR K)} (h : ∀ x ∈ l, x.sort = .number) : ∃ k : List K, l = k.map fin := by
  induction l with
  | nil => exact ⟨[], rfl⟩
  | cons x l ih =>
    obtain ⟨k, rfl⟩ := ih fun y hy => h y (by simp [hy])
    obtain ⟨a, rfl⟩ := sort_number.1 (h x (by simp))
    exact ⟨a :: k, rfl⟩

theorem combined_undefined {l : List Sort4} (h : Sort4.undefined ∈ l) : combined l = .undefined := if_pos (.inl h)

theorem sort_undefined {x : XR K} (h : x.sort = .undefined) : x = nan := by cases x <;> simp_all [XR.sort]

theorem mean_undefined {l : List (XR K)} (h : nan ∈ l) : Arith.mean l = nan := by
  apply sort_undefined
  rw [Arith.mean, ofInt_eq, sort_div_pos _ (by exact_mod_cast List.length_pos_of_mem h), sort_sum]
  exact combined_undefined (List.mem_map.2 ⟨nan, h, rfl⟩)

/-- An infinity or NaN makes one of the differences from the mean NaN. -/
theorem deviation_undefined {l : List (XR K)} (h : ∃ x ∈ l, x.sort ≠ .number) : ∃ x ∈ l, x - Arith.mean l = nan := by
  obtain ⟨x, hx, hn⟩ := h
  have hm : (Arith.mean l).sort = combined (l.map XR.sort) := by
    rw [Arith.mean, ofInt_eq, sort_div_pos _ (by exact_mod_cast List.length_pos_of_mem hx), sort_sum]
  refine ⟨x, hx, sort_undefined ?_⟩
  rw [sort_sub, hm]
  have hs : x.sort ∈ l.map XR.sort := List.mem_map.2 ⟨x, hx, rfl⟩
  cases e : x.sort with
  | number => exact absurd e hn
  | undefined => rfl
  | up =>
    rw [e] at hs
    simp only [combined, hs]
    split <;> simp [Sort4.neg, Sort4.add, combined]
  | down =>
    rw [e] at hs
    simp only [combined, hs]
    split
    · simp [Sort4.neg, Sort4.add, combined]
    · next h => 
      have : Sort4.up ∉ l.map XR.sort := fun h' => h (.inr ⟨h', trivial⟩)
      simp [Sort4.neg, Sort4.add, combined, this]

theorem variance_undefined {l : List (XR K)} (h : ∃ x ∈ l, x.sort ≠ .number) : (Arith.moments l).2 = nan := by
  obtain ⟨x, hx, e⟩ := deviation_undefined h
  exact mean_undefined (List.mem_map.2 ⟨x, hx, by rw [e]; rfl⟩)

/-- the correlation of the last `p` pairs is NaN while an infinity or NaN is among them; -/
theorem C88_correlation {p : Nat} (hp : 0 < p) {xs : List (XR K × XR K)} (hx : xs ≠ []) :
    ∃ os sf s0, call (Correlation (p : Int)) (vSBuf2 xs) none = .ok (vSBuf os, sf, s0) ∧ ∃ hl : os.length = xs.length, ∀ i (hi : i < xs.length), p ≤ i →
      (∃ z ∈ window p (xs.take (i + 1)), z.1.sort ≠ .number ∨ z.2.sort ≠ .number) → os[i] = nan := by
  obtain ⟨sf, s0, h1⟩ := (C41_correlation_scalar (α := XR K) hp).at' hx
  refine ⟨_, sf, s0, h1, by simp, fun i hi hpi h => ?_⟩
  rw [scan_getElem, List.nil_append, corrOf, if_neg (by simp; omega), window_of_map, window_of_map]
  generalize window p (xs.take (i + 1)) = w at h
  obtain ⟨z, hz, hn⟩ := h
  have key : Arith.mean (List.zipWith (fun a b => (a - Arith.mean (w.map Prod.fst)) * (b - Arith.mean (w.map Prod.snd))) (w.map Prod.fst) (w.map Prod.snd)) = nan := by
    apply mean_undefined
    rw [List.zipWith_map, List.zipWith_self]
    rcases hn with hn | hn
    · obtain ⟨x, hx, e⟩ := deviation_undefined (l := w.map Prod.fst) ⟨z.1, List.mem_map.2 ⟨z, hz, rfl⟩, hn⟩
      obtain ⟨y, hy, rfl⟩ := List.mem_map.1 hx
      exact List.mem_map.2 ⟨y, hy, by rw [e, nan_mul']⟩
    · obtain ⟨x, hx, e⟩ := deviation_undefined (l := w.map Prod.snd) ⟨z.2, List.mem_map.2 ⟨z, hz, rfl⟩, hn⟩
      obtain ⟨y, hy, rfl⟩ := List.mem_map.1 hx
      exact List.mem_map.2 ⟨y, hy, by rw [e, mul_nan']⟩
  rw [pearson, key, nan_div']
example := C88_correlation (K := ℚ) (p := 1) (by norm_num) (xs := [(fin 1, fin 2), (pinf, fin 2)]) (by simp)

/-- **C88 Return**: from a non-zero number to an infinity it is an infinity, from an infinity to a number exactly −1, between infinities NaN. -/
theorem C88_return {p : Nat} (hp : 0 < p) {xs : List (XR K)} (hx : xs ≠ []) :
    ∃ os sf s0, call (Return (p : Int)) (vSBuf xs) none = .ok (vSBuf os, sf, s0) ∧ ∃ hl : os.length = xs.length, ∀ i (hi : i < xs.length), p ≤ i →
      os[i] = returnInf xs[i - p] xs[i] := by
  obtain ⟨sf, s0, h1⟩ := (C37_return_streams (α := XR K) (by simp) hp).at' hx
  refine ⟨_, sf, s0, h1, by simp, fun i hi hpi => ?_⟩
  have e1 : (xs.take (i + 1)).getLastD Arith.zero = xs[i] := by
    rw [List.take_succ_eq_append_getElem hi, List.getLastD_concat]
  have hl : (xs.take (i + 1)).length = i + 1 := by simp; omega
  have e2 : lagged Arith.zero p (xs.take (i + 1)) = xs[i - p] := by
    rw [lagged, List.getElem?_reverse (by omega), hl, List.getElem?_take_of_lt (by omega), show i + 1 - 1 - p = i - p by omega,
      List.getElem?_eq_getElem (by omega), Option.getD_some]
  rw [scan_getElem, List.nil_append, growth, e1, e2, hl]
  simp only [show ¬ i + 1 ≤ p by omega, false_or, ofRat_eq, Rat.cast_zero, Rat.cast_one, zero_eq]
  generalize xs[i - p] = a
  generalize xs[i] = x
  rcases a with a | _ | _ | _
  · simp only [eq_fin, decide_eq_true_eq]
    by_cases h : a = 0
    · subst h; cases x <;> simp [returnInf]
    · rw [if_neg h]
      cases x with
      | fin x => rw [fin_div _ _ h]; show fin (x / a + -1) = _; simp only [returnInf, if_neg h, sub_div, div_self h, ← sub_eq_add_neg]
      | pinf =>
        show add (if 0 ≤ a then pinf else ninf) (neg (fin 1)) = if a = 0 then _ else if 0 < a then _ else _
        rw [if_neg h]
        rcases lt_or_gt_of_ne h with h | h
        · rw [if_neg (by linarith), if_neg (by linarith)]; rfl
        · rw [if_pos h.le, if_pos h]; rfl
      | ninf =>
        show add (if 0 ≤ a then ninf else pinf) (neg (fin 1)) = if a = 0 then _ else if 0 < a then _ else _
        rw [if_neg h]
        rcases lt_or_gt_of_ne h with h | h
        · rw [if_neg (by linarith), if_neg (by linarith)]; rfl
        · rw [if_pos h.le, if_pos h]; rfl
      | nan => simp only [returnInf, if_neg h]; rfl
  all_goals
    rw [if_neg (by rintro h; cases h)]
    cases x with
    | fin x => first | rfl | (show fin (0 + -1) = fin (-1); rw [zero_add])
    | _ => rfl
example := C88_return (K := ℚ) (p := 1) (by norm_num) (xs := [fin 1, pinf, fin 2]) (by simp)

end

theorem sort_std {l : List (XR ℝ)} (hl : l ≠ []) : (Arith.sqrt (Arith.moments l).2).sort = if ∀ a ∈ l.map XR.sort, a = .number then .number else .undefined := by
  split
  · next h =>
    obtain ⟨k, rfl⟩ := fins_of_numbers (l := l) fun x hx => h _ (List.mem_map.2 ⟨x, hx, rfl⟩)
    rw [XR.std_fin (by simpa using hl)]; rfl
  · next h =>
    rw [variance_undefined (by simpa using h)]; rfl

/-- the moving standard deviation (real numbers) is NaN while an infinity or NaN is among the last `p` samples; -/
theorem C88_msd {p : Nat} (hp : 0 < p) : SortsAs (K := ℝ) (MSD (p : Int)) (fun h => if h.length < p ∨ ∀ a ∈ window p h, a = .number then .number else .undefined) :=
  ((C29_msd_streams (α := XR ℝ) hp []).scalar (y' := movingStd p) fun l _ => movingStd_pt p l).sortsAs fun l hl => by
    rw [movingStd, List.length_map]
    split
    · next h => rw [if_pos (.inl h), zero_eq]; rfl
    · next h => rw [sort_std (window_ne_nil hp hl), window_of_map]; simp only [h, false_or]
example := C88_msd (p := 2) (by norm_num)

/-- so is skewness, from the first sample on; -/
theorem C88_skewness {p : Nat} (hp : 0 < p) : SortsAs (K := ℝ) (Skewness (p : Int)) (fun h => if ∀ a ∈ window p h, a = .number then .number else .undefined) :=
  (skewness_streams hp).sortsAs fun l hl => by
    rw [window_of_map]
    split
    · next h =>
      obtain ⟨k, hk⟩ := fins_of_numbers (l := window p l) fun x hx => h _ (List.mem_map.2 ⟨x, hx, rfl⟩)
      rw [hk, skewness_fin (by rintro rfl; exact window_ne_nil hp hl hk)]; rfl
    · next h =>
      have hs : Arith.sqrt (Arith.moments (window p l)).2 = (nan : XR ℝ) := by rw [variance_undefined (by simpa using h)]; rfl
      rw [computeSkewness]
      simp only
      rw [hs, if_neg (by rintro h; cases h), show (Arith.pow nan 3 : XR ℝ) = nan from rfl]
      generalize (_ - _ : XR ℝ) = x
      cases x <;> rfl
example := C88_skewness (p := 2) (by norm_num)

/-- of the Bollinger bands the outer ones are NaN then, and the middle one goes on as the moving average. -/
theorem C88_bollinger {p : Nat} (hp : 0 < p) (k : ℚ) {xs : List (XR ℝ)} (hx : xs ≠ []) :
    ∃ os sf s0, call (BollingerBands (p : Int) k) (vSBuf xs) none = .ok (vSBuf3 os, sf, s0) ∧ ∃ hl : os.length = xs.length, ∀ i (hi : i < xs.length),
      let w := window p ((xs.take (i + 1)).map XR.sort)
      let outer := if i + 1 < p ∨ ∀ a ∈ w, a = .number then Sort4.number else .undefined
      os[i].1.sort = outer ∧ os[i].2.1.sort = (if i + 1 < p then .number else combined w) ∧ os[i].2.2.sort = outer := by
  obtain ⟨sf, s0, h1⟩ := (C30_bollinger_scalar (α := XR ℝ) hp k).at' hx
  refine ⟨_, sf, s0, h1, by simp, fun i hi => ?_⟩
  have hl : (xs.take (i + 1)).length = i + 1 := by simp; omega
  rw [scan_getElem, List.nil_append]
  simp only [bands3]
  generalize xs.take (i + 1) = l at hl
  rw [← hl]
  have h0 : l ≠ [] := by rintro rfl; simp at hl
  have hm := sort_movingAvg hp l
  by_cases hs : l.length < p
  · obtain ⟨a, ha⟩ := sort_number.1 (hm.trans (if_pos hs))
    rw [movingStd, if_pos hs, zero_eq, ha, ofRat_eq, if_pos (.inl hs), if_pos hs, fin_mul]
    exact ⟨rfl, rfl, rfl⟩
  · rw [if_neg hs] at hm
    have hd := sort_std (window_ne_nil hp h0)
    rw [← window_of_map] at hd
    rw [movingStd, if_neg hs, if_neg hs]
    simp only [hs, false_or]
    by_cases hn : ∀ a ∈ window p (l.map XR.sort), a = Sort4.number
    · rw [if_pos hn] at hd ⊢
      have hc : combined (window p (l.map XR.sort)) = .number := by
        have h1 : Sort4.undefined ∉ window p (l.map XR.sort) := fun h => Sort4.noConfusion (hn _ h)
        have h2 : Sort4.up ∉ window p (l.map XR.sort) := fun h => Sort4.noConfusion (hn _ h)
        have h3 : Sort4.down ∉ window p (l.map XR.sort) := fun h => Sort4.noConfusion (hn _ h)
        simp [combined, h1, h2, h3]
      obtain ⟨a, ha⟩ := sort_number.1 (hm.trans hc)
      obtain ⟨b, hb⟩ := sort_number.1 hd
      rw [ha, hb, hc, ofRat_eq, fin_mul]
      exact ⟨rfl, rfl, rfl⟩
    · rw [if_neg hn] at hd ⊢
      rw [sort_undefined hd, nan_mul']
      exact ⟨congrArg XR.sort (strict_sub.2.2 _), hm, congrArg XR.sort (strict_add.2.2 _)⟩
example := C88_bollinger (p := 2) (by norm_num) 2 (xs := [fin 1, pinf, fin 3]) (by simp)

/-- Examples: an infinity leaves the window of a moving average; it stays in a recursive one; EMA(1) turns it into NaN. -/
example : output (call (SMA 2) (vSBuf [fin (1 : ℚ), pinf, fin 3, fin 5, ninf]) none) = .ok (vSBuf [fin 0, pinf, pinf, fin 4, ninf]) := by decide +kernel
example : output (call (EMA 3) (vSBuf [fin (1 : ℚ), pinf, fin 3, fin 5, ninf]) none) = .ok (vSBuf [fin 0, fin 0, pinf, pinf, nan]) := by decide +kernel
example : output (call (EMA 1) (vSBuf [fin (1 : ℚ), pinf, fin 3]) none) = .ok (vSBuf [fin 1, pinf, nan]) := by decide +kernel

end TS
