import Verif.Props.Fading
import Verif.Props.Returns
import Verif.Props.NaN
/-
What operators output on series of numbers, as functions of the history, and on infinite series of samples.
-/
namespace TS
open PyVal XR
set_option linter.unusedSectionVars false

/-! ### The first samples of a sequence -/

section
variable {A : Type}

/-- The samples up to index `n`. -/
abbrev upTo (x : Nat → A) (n : Nat) : List A := (List.range (n + 1)).map x

theorem upTo_succ (x : Nat → A) (n : Nat) : upTo x (n + 1) = upTo x n ++ [x (n + 1)] := by
  simp [upTo, List.range_succ]

theorem window_upTo (x : Nat → A) {p n : Nat} (h : p ≤ n + 1) : window p (upTo x n) = (List.range p).map fun j => x (n - j) := by
  refine List.ext_getElem (by simp [window]; omega) fun j h1 h2 => ?_
  simp at h1 h2
  simp [window]

theorem lagged_upTo (x : Nat → A) (z : A) (p n : Nat) : lagged z p (upTo x n) = if p ≤ n then x (n - p) else z := by
  rw [lagged]
  split
  · rw [List.getElem?_eq_getElem (by simp; omega)]
    simp
  · rw [List.getElem?_eq_none (by simp; omega)]; rfl

theorem getLastD_upTo (x : Nat → A) (z : A) (n : Nat) : (upTo x n).getLastD z = x n := by
  cases n with
  | zero => rfl
  | succ n => rw [upTo_succ]; simp

/-- What the operator outputs over an infinite series. -/
theorem StreamsAs.yields {α B : Type} {op : Operator α} {ser : List A → Val α} {outs : List B → Val α} {y : List A → B} (h : StreamsAs op ser outs y) (x : Nat → A) :
    Yields op ser outs x (fun n => y (upTo x n)) := by
  intro n hn
  obtain ⟨sf, s0, h1⟩ := h.at' (xs := (List.range n).map x) (by simp; omega)
  refine ⟨sf, s0, ?_⟩
  rw [h1]
  congr 3
  refine List.ext_getElem (by simp) fun i h1 h2 => ?_
  simp at h1
  rw [scan_getElem]
  simp [← List.map_take, List.take_range, Nat.min_eq_left (show i + 1 ≤ n by omega)]

theorem Yields.congr {α B : Type} {op : Operator α} {ser : List A → Val α} {outs : List B → Val α} {x : Nat → A} {o o' : Nat → B} (h : Yields op ser outs x o) (e : ∀ n, o n = o' n) :
    Yields op ser outs x o' := by
  rwa [show o' = o from (funext e).symm]

end

section
variable {K : Type} [Field K] [LinearOrder K] [IsStrictOrderedRing K] [Transc K] [FloorRing K]

/-! ### Values as functions of the history -/

theorem lag_reals {p : Nat} (hp : 0 < p) : StreamsAs (Lag (p : Int) : Operator (XR K)) finSeries finSeries (lagged 0 p) :=
  ((C17_lag_streams (α := XR K) hp []).scalar (y' := lagged Arith.zero p) fun l _ => lagged_of_map pt Arith.zero p l).fin fun l _ => by
    rw [XR.zero_eq]; exact lagged_of_map XR.fin 0 p l

theorem getLastD_fin (l : List K) : (l.map XR.fin).getLastD (XR.fin 0) = XR.fin (l.getLastD 0) := by
  induction l using List.reverseRecOn <;> simp

/-- `x` minus the sample `p` steps before -/
def momentumK (p : Nat) (l : List K) : K := if l.length ≤ p then 0 else l.getLastD 0 - lagged 0 p l

theorem momentum_reals {p : Nat} (hp : 0 < p) : StreamsAs (Momentum (p : Int) : Operator (XR K)) finSeries finSeries (momentumK p) :=
  ((C19_momentum_streams (α := XR K) hp []).scalar (y' := momentum p) fun l _ => momentum_pt p l).fin fun l _ => by
    simp only [momentum, momentumK, List.length_map, XR.zero_eq]
    split
    · rfl
    · rw [lagged_of_map XR.fin 0 p l, getLastD_fin, XR.fin_sub]

theorem redMin_least (l : List K) : ∃ m, l ≠ [] → Arith.redMin (l.map XR.fin) = XR.fin m ∧ IsLeastOf m l := by
  by_cases hl : l = []
  · exact ⟨0, fun h => absurd hl h⟩
  · obtain ⟨m, h⟩ := XR.redMin_fin hl; exact ⟨m, fun _ => h⟩

theorem redMax_greatest (l : List K) : ∃ m, l ≠ [] → Arith.redMax (l.map XR.fin) = XR.fin m ∧ IsGreatestOf m l := by
  by_cases hl : l = []
  · exact ⟨0, fun h => absurd hl h⟩
  · obtain ⟨m, h⟩ := XR.redMax_fin hl; exact ⟨m, fun _ => h⟩

/-- the least member of a list -/
noncomputable def leastK (l : List K) : K := (redMin_least l).choose
/-- the greatest member of a list -/
noncomputable def greatestK (l : List K) : K := (redMax_greatest l).choose

theorem leastK_fin {l : List K} (hl : l ≠ []) : Arith.redMin (l.map XR.fin) = XR.fin (leastK l) := ((redMin_least l).choose_spec hl).1
theorem leastK_least {l : List K} (hl : l ≠ []) : IsLeastOf (leastK l) l := ((redMin_least l).choose_spec hl).2
theorem greatestK_fin {l : List K} (hl : l ≠ []) : Arith.redMax (l.map XR.fin) = XR.fin (greatestK l) := ((redMax_greatest l).choose_spec hl).1
theorem greatestK_greatest {l : List K} (hl : l ≠ []) : IsGreatestOf (greatestK l) l := ((redMax_greatest l).choose_spec hl).2

theorem localMin_reals {p : Nat} (hp : 0 < p) : StreamsAs (LocalMinimum (p : Int) : Operator (XR K)) finSeries finSeries (fun l => leastK (window p l)) :=
  (C21_local_min_streams (α := XR K) hp).fin fun l hl => by rw [window_fin, leastK_fin (window_ne_nil hp hl)]

theorem localMax_reals {p : Nat} (hp : 0 < p) : StreamsAs (LocalMaximum (p : Int) : Operator (XR K)) finSeries finSeries (fun l => greatestK (window p l)) :=
  (C21_local_max_streams (α := XR K) hp).fin fun l hl => by rw [window_fin, greatestK_fin (window_ne_nil hp hl)]

/-- growth since the sample `p` steps before, zero where this is zero -/
def returnK (p : Nat) (l : List K) : K := if l.length ≤ p ∨ lagged 0 p l = 0 then 0 else l.getLastD 0 / lagged 0 p l - 1

theorem return_reals {p : Nat} (hp : 0 < p) : StreamsAs (Return (p : Int) : Operator (XR K)) finSeries finSeries (returnK p) :=
  (C37_return_streams XR.zero_eq_zero hp).fin fun l hl => by
    have e : (lagged Arith.zero p (l.map XR.fin) : XR K) = XR.fin (lagged 0 p l) := by rw [XR.zero_eq]; exact lagged_of_map XR.fin 0 p l
    simp only [growth, returnK, List.length_map, e, XR.ofRat_eq, XR.eq_fin, Rat.cast_zero, decide_eq_true_eq]
    split
    · exact XR.zero_eq
    · next h =>
      push Not at h
      rw [XR.zero_eq, getLastD_fin, XR.fin_div _ _ h.2, XR.fin_sub]
      simp

/-- the five outputs of MACD -/
def macdAllK (slow fast m : Nat) (l : List K) : K × K × K × K × K :=
  (recursiveAvgK slow (fun m x => m + 2 / ((slow : K) + 1) * (x - m)) l, recursiveAvgK fast (fun m x => m + 2 / ((fast : K) + 1) * (x - m)) l,
    macdLineK slow fast l, macdSignalK slow fast m l, macdHistK slow fast m l)

abbrev finSeries5 (l : List (K × K × K × K × K)) : Val (XR K) :=
  .tup [finSeries (l.map (·.1)), finSeries (l.map (·.2.1)), finSeries (l.map (·.2.2.1)), finSeries (l.map (·.2.2.2.1)), finSeries (l.map (·.2.2.2.2))]

abbrev finSeries3 (l : List (K × K × K)) : Val (XR K) := .tup [finSeries (l.map (·.1)), finSeries (l.map (·.2.1)), finSeries (l.map (·.2.2))]

theorem macd_reals {slow fast m : Nat} (hs : 0 < slow) (hf : 0 < fast) (hm : 0 < m) :
    StreamsAs (MACD (slow : Int) fast m : Operator (XR K)) finSeries finSeries5 (macdAllK slow fast m) := by
  have := (macd_scalar (β := XR K) hs hf hm).comap XR.fin (fun b : K × K × K × K × K => (fin b.1, fin b.2.1, fin b.2.2.1, fin b.2.2.2.1, fin b.2.2.2.2)) (y' := macdAllK slow fast m) fun l _ => by
    simp only [macdAll, macdAllK, expAvg_fin hs, expAvg_fin hf, macdLine_fin hs hf, macdSignal_fin hs hf hm, macdHist_fin hs hf hm]
  have e : (fun l : List (K × K × K × K × K) => vSBuf5 (l.map fun b => (fin b.1, fin b.2.1, fin b.2.2.1, fin b.2.2.2.1, fin b.2.2.2.2))) = finSeries5 := by
    funext l
    simp only [vSBuf5, finSeries5, finSeries, List.map_map, Function.comp_def]
  rwa [e] at this

end

theorem bollinger_reals {p : Nat} (hp : 0 < p) (k : ℚ) : StreamsAs (BollingerBands (p : Int) k : Operator (XR ℝ)) finSeries finSeries3
    (fun l => (movingAvgK p l - movingStdR p l * k, movingAvgK p l, movingAvgK p l + movingStdR p l * k)) := by
  have := (C30_bollinger_scalar (α := XR ℝ) hp k).comap XR.fin (Prod.map XR.fin (Prod.map XR.fin XR.fin))
    (y' := fun l => (movingAvgK p l - movingStdR p l * k, movingAvgK p l, movingAvgK p l + movingStdR p l * k)) fun l _ => by
    simp [bands3, movingAvg_fin hp, movingStd_fin hp]
  have e : (fun l : List (ℝ × ℝ × ℝ) => vSBuf3 (l.map (Prod.map XR.fin (Prod.map XR.fin XR.fin)))) = finSeries3 := by
    funext l
    simp [vSBuf3, finSeries, Function.comp_def]
  rwa [e] at this

end TS
