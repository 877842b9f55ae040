import Verif.Props.Pipelines
import Verif.Props.Constant
import Verif.Props.FFill
import Verif.Props.Progress
import Verif.Props.Correlation
import Verif.Lemmas.Coupled
/-
C67: equations between operators.
-/
namespace TS
open PyVal
set_option linter.unusedSectionVars false

theorem StreamsAs.same {α A B : Type} {op op' : Operator α} {ser : List A → Val α} {outs : List B → Val α} {y y' : List A → B} (h : StreamsAs op ser outs y)
    (h' : StreamsAs op' ser outs y') (e : ∀ k, k ≠ [] → y k = y' k) : SameStreams op op' ser := by
  obtain ⟨st, h1, h2⟩ := h.congr e
  obtain ⟨st', h1', h2'⟩ := h'
  exact ⟨st, st', fun xs hx => ⟨_, h1 xs hx, h1' xs hx⟩, fun k xs hx => ⟨_, h2 k xs hx, h2' k xs hx⟩⟩

section
variable {α A : Type} [TFNum α]

theorem lagged_lagged (z : A) (a b : Nat) (h : List A) : lagged z a (scan (lagged z b) [] h) = lagged z (a + b) h := by
  simp only [lagged]
  by_cases hl : a < h.length
  · rw [List.getElem?_reverse (by simpa using hl), scan_length]
    rw [List.getElem?_eq_getElem (by simp; omega), scan_getElem]
    simp only [List.nil_append, Option.getD_some, lagged]
    rw [show h.length - 1 - a + 1 = h.length - a by omega, List.reverse_take]
    rw [List.getElem?_drop, show h.length - (h.length - a) + b = a + b by omega]
  · rw [List.getElem?_eq_none (by simp; omega), List.getElem?_eq_none (by simp; omega)]

/-- **C67 Equations between operators.**  Two lags add up; -/
theorem C67_lag_lag {a b : Nat} (ha : 0 < a) (hb : 0 < b) (s : List Nat) :
    SameStreams (Compose [Lag (a : Int), Lag (b : Int)] : Operator α) (Lag ((a + b : Nat) : Int)) (vBuf (s := s)) :=
  (C66_compose (Lib.basic (.lag _)) (Lib.weaken (Lib.basic (.lag _)) (D' := (· = .leaf ())) (by rintro _ rfl; rfl) fun _ h => h)
    (fun xs _ => ⟨by simp, by simp [IsArgs, argSkels]⟩) (C17_lag_streams hb s) (C17_lag_streams ha s)).same (C17_lag_streams (by omega) s)
    fun k _ => lagged_lagged _ a b k
example := C67_lag_lag (α := XR ℚ) (a := 2) (b := 2) (by norm_num) (by norm_num) [2]

/-- auto-correlation is the cross-correlation of a series with itself; -/
theorem C67_autoCorrelation {p lag : Nat} (hp : 0 < p) (hl : 0 < lag) (s : List Nat) :
    SameStreams (AutoCorrelation (p : Int) lag : Operator α) (Compose [CrossCorrelation (p : Int) lag, Fork 2]) (vBuf (s := s)) := by
  have hc := C66_compose (Lib.fork 2) (Lib.weaken (Lib.basic (.crossCorrelation (α := α) (p : Int) lag)) (D' := (· = .tup [.leaf (), .leaf ()])) (by rintro _ rfl; rfl) fun _ h => h)
    (ser := vBuf (s := s)) (fun xs _ => ⟨by simp, by simp [IsArgs, argSkels]⟩)
    (C66_fork 2 (lf := fun l => .f (Tensor.pack s l)) (fun xs => by simp [Leaf.size0]) Arith.zero) (z := fun h => crossOf p lag (h.map fun x => (x, x))) (outs := vBuf) (by
      have := (C42_cross_streams (α := α) hp hl s).comap (fun x => (x, x)) id (y' := fun h => crossOf p lag (h.map fun x => (x, x))) fun _ _ => rfl
      simpa [vBuf2, Function.comp_def, List.replicate] using this)
  exact (C42_auto_streams hp hl s).same hc fun k hk => by
    beta_reduce
    rw [show scan (fun h : List (Idx s → α) => h.getLastD Arith.zero) [] k = k from ?_]
    exact List.ext_getElem (by simp) fun i h1 h2 => by
      rw [scan_getElem, List.nil_append, List.take_add_one, List.getElem?_eq_getElem h2, Option.toList_some, getLastD_snoc]
example := C67_autoCorrelation (α := XR ℚ) (p := 2) (lag := 1) (by norm_num) (by norm_num) [2]

end

section
variable {K : Type} [Field K] [LinearOrder K] [IsStrictOrderedRing K] [Transc K] [FloorRing K]

theorem identity_reals : StreamsAs (Identity : Operator (XR K)) finSeries finSeries (fun h => h.getLastD 0) :=
  streams_pointwise id 0 fun xs hx st hst => by
    obtain ⟨x, xs, rfl⟩ := List.exists_cons_of_ne_nil hx
    rw [List.map_id]
    exact C23_identity (n := xs.length) (by simp [IsTensorSeries, Leaf.size0]) hst

theorem window_one {l : List K} (hl : l ≠ []) : window 1 l = [l.getLastD 0] := by
  induction l using List.reverseRecOn with
  | nil => exact absurd rfl hl
  | append_singleton l x _ => rw [getLastD_snoc, window]; simp

theorem movingAvgK_one {l : List K} (hl : l ≠ []) : movingAvgK 1 l = l.getLastD 0 := by
  rw [movingAvgK, if_neg (by have := List.length_pos_iff.2 hl; omega), window_one hl]
  simp [avg]

theorem recursiveAvgK_one {f : K → K → K} (hf : ∀ m x, f m x = x) {l : List K} (hl : l ≠ []) : recursiveAvgK 1 f l = l.getLastD 0 := by
  obtain ⟨x, l, rfl⟩ := List.exists_cons_of_ne_nil hl
  rw [recursiveAvgK]
  simp only [List.take_succ_cons, List.take_zero, List.drop_succ_cons, List.drop_zero]
  rw [movingAvgK_one (by simp)]
  induction l using List.reverseRecOn with
  | nil => rfl
  | append_singleton l y _ => rw [List.foldl_append, ← List.cons_append, getLastD_snoc]; simp [hf]

/-- averages over one sample are the sample (for finite samples: an infinity would stay in the recursive averages); -/
theorem C67_averages_one :
    SameStreams (SMA 1 : Operator (XR K)) Identity finSeries ∧ SameStreams (EMA 1 : Operator (XR K)) Identity finSeries ∧
    SameStreams (RMA 1 : Operator (XR K)) Identity finSeries := by
  refine ⟨?_, ?_, ?_⟩
  · exact (((C25_sma (α := XR K) (p := 1) (by omega) []).scalar (y' := movingAvg 1) fun l _ => movingAvg_pt 1 l).fin fun l _ => movingAvg_fin (by omega) l).same
      identity_reals fun k hk => movingAvgK_one hk
  · exact (((C26_ema (α := XR K) (p := 1) (by omega) []).scalar (y' := expAvg 1) fun l _ => expAvg_pt 1 l).fin fun l _ => expAvg_fin (by omega) l).same
      identity_reals fun k hk => recursiveAvgK_one (fun m x => by norm_num) hk
  · exact (rma_reals (p := 1) (by omega)).same identity_reals fun k hk => recursiveAvgK_one (fun m x => by norm_num) hk
example := C67_averages_one (K := ℚ)

theorem localMin_reals_one : StreamsAs (LocalMinimum 1 : Operator (XR K)) finSeries finSeries (fun h => h.getLastD 0) :=
  (C21_local_min_streams (α := XR K) (p := 1) (by omega)).fin fun l hl => by rw [window_fin, window_one hl]; rfl

theorem localMax_reals_one : StreamsAs (LocalMaximum 1 : Operator (XR K)) finSeries finSeries (fun h => h.getLastD 0) :=
  (C21_local_max_streams (α := XR K) (p := 1) (by omega)).fin fun l hl => by rw [window_fin, window_one hl]; rfl

/-- so are minima and maxima; -/
theorem C67_extrema_one :
    SameStreams (LocalMinimum 1 : Operator (XR K)) Identity finSeries ∧ SameStreams (LocalMaximum 1 : Operator (XR K)) Identity finSeries :=
  ⟨localMin_reals_one.same identity_reals fun _ _ => rfl, localMax_reals_one.same identity_reals fun _ _ => rfl⟩
example := C67_extrema_one (K := ℚ)

theorem window_all {A : Type} {p : Nat} {l : List A} (h : l.length ≤ p) : window p l = l.reverse := by
  rw [window, List.take_of_length_le (by simpa using h)]

/-- as long as the series is not longer than the window, local and global extrema agree; -/
theorem C67_extrema_short {p : Nat} (hp : 0 < p) {xs : List K} (hx : xs ≠ []) (h : xs.length ≤ p) :
    output (call (LocalMinimum (p : Int)) (finSeries xs) none) = output (call GlobalMinimum (finSeries xs) none) ∧
    output (call (LocalMaximum (p : Int)) (finSeries xs) none) = output (call GlobalMaximum (finSeries xs) none) := by
  constructor
  · obtain ⟨os, sf, s0, h1, hl, h2⟩ := C21_local_min hp hx
    obtain ⟨os', sf', s0', h1', hl', h2'⟩ := C20_global_min hx
    rw [h1, h1', show os = os' from ?_]
    · rfl
    · refine List.ext_getElem (hl.trans hl'.symm) fun i hi _ => ?_
      have a := h2 i (by omega)
      have b := h2' i (by omega)
      rw [show i + 1 - p = 0 by omega, List.drop_zero] at a
      exact le_antisymm (a.2 _ b.1) (b.2 _ a.1)
  · obtain ⟨os, sf, s0, h1, hl, h2⟩ := C21_local_max hp hx
    obtain ⟨os', sf', s0', h1', hl', h2'⟩ := C20_global_max hx
    rw [h1, h1', show os = os' from ?_]
    · rfl
    · refine List.ext_getElem (hl.trans hl'.symm) fun i hi _ => ?_
      have a := h2 i (by omega)
      have b := h2' i (by omega)
      rw [show i + 1 - p = 0 by omega, List.drop_zero] at a
      exact le_antisymm (b.2 _ a.1) (a.2 _ b.1)
example := C67_extrema_short (K := ℚ) (p := 4) (by norm_num) (xs := [3, 1, 4]) (by simp) (by simp)

end

section
variable {α : Type} [TFNum α]

/-- on a series without zeros `FFill` changes nothing: whenever `FFill(op)` goes on from a state, `op` goes on from its part of the state, with the
same outputs and the same part of the final state; -/
theorem C67_ffill_zero_free {op : Operator α} (hop : op.Sane) (hu : op.Uniform) {v p s z sf s0 : Val α}
    (hw : v.WF) (hp : p.WF) (hs : s.WF) (hk : op.KeepsState v.skel s.skel)
    (hO : ∀ x s' o n i, x.skel = v.skel → s'.skel = s.skel → op.forwardStep x (some s') = .ok (o, n, i) → o.skel = p.skel)
    (hz : ∀ i x, sliceAt i v = .ok x → hasZero x = false)
    (h : call (FFill op) v (some (.tup [p, s])) = .ok (z, sf, s0)) : ∃ q sf', call op v (some s) = .ok (z, sf', s) ∧ sf = .tup [q, sf'] := by
  obtain ⟨xs, os, h1, h2, h3, h4, h5, h6⟩ := C15_ffill_streams hop hu hw hp hs hk hO h
  have e1 : zeroFree xs = xs := List.filter_eq_self.2 fun x hx => by
    obtain ⟨i, hi⟩ := h1.mem hx
    simp [hz i x hi]
  have e2 : outputsAtZeroFree xs os = os := by
    rw [outputsAtZeroFree, List.filter_eq_self.2, List.map_snd_zip (by omega)]
    intro e he
    obtain ⟨i, hi⟩ := h1.mem (List.of_mem_zip he).1
    simp [hz i _ hi]
  by_cases hx : xs = []
  · obtain ⟨hne, x, ys, hin, -⟩ := (C01_streaming_eq_stepping (FFill_sane hop) (FFill_uniform hop hu) hw (by rintro _ ⟨⟩; simp [WF_tup, hp, hs]) _ _ _).1 h
    rw [hx] at h1
    exact absurd (IsSeries.det hne h1 hin) (by simp)
  · obtain ⟨w, zw, sfw, g1, g2, g3, g4, g5⟩ := h6 (by rwa [e1])
    rw [e1] at g1
    rw [e2] at g4
    rw [h1.unique hx g1]
    rw [h2.unique (by rintro rfl; exact hx (List.length_eq_zero_iff.1 h3.symm)) g4]
    exact ⟨_, _, g3, g5⟩
example := C67_ffill_zero_free (α := XR ℚ) (op := SMA 2) (Lib.basic (.sma 2)).ok.sane (Lib.basic (.sma 2)).ok.uniform (v := series [5]) (p := vS (.fin 7)) (s := .tup [vI 2, series [3, 1]])
  (z := series [4]) (sf := .tup [vS (.fin 4), .tup [vI 3, series [5, 3]]]) (s0 := .tup [vS (.fin 7), .tup [vI 2, series [3, 1]]]) (nums_ok _).1 (by simp) (by simp [WF_tup])
  (SMA_keepsState 2)
  (by intro x s o n i _ _ h
      simp only [SMA, bufferOp, streamable, bind_eq_ok] at h
      obtain ⟨-, -, t, -, it, -, b, -, r, -, e⟩ := h
      cases e; rfl)
  (by rintro (_ | i) x h
      · obtain rfl := Except.ok.inj ((by decide +kernel : sliceAt 0 (series [5]) = .ok (vS (.fin 5))).symm.trans h); decide +kernel
      · simp [sliceAt, series, vSBuf, Leaf.index, Tensor.index, Tensor.pack] at h) (by decide +kernel)

/-- forward-filling twice is forward-filling once, however the series is cut into chunks; -/
theorem C67_ffill_twice {op : Operator α} {X O S} (h : Typed op X O S) (hX : AllFloat X) (hO : Passable O) (hS : S = PyVal.unit ∨ Passable S)
    {vs : List (Val α)} {ns : List Nat} (hv : List.Forall₂ (SeriesOf X) vs ns) :
    ∃ zs, streamChunks (FFill (FFill op)) none vs = .ok zs ∧ streamChunks (FFill op) none vs = .ok zs := by
  obtain ⟨I, hI, hf, hn⟩ := h.steady
  have hS' : S.map Prod.fst = PyVal.unit ∨ Passable (S.map Prod.fst) := by
    rcases hS with rfl | hS
    · exact .inl rfl
    · exact .inr ((passable_skel (by simp [PyVal.skel_map])).2 hS)
  exact (FFill_twice (fun s h => ⟨(hI s h).1, (hI s h).2.hasType⟩) hf hn hX hO hS').chunks hv (.inl ⟨rfl, rfl⟩)
example := C67_ffill_twice (α := XR ℚ) (.sma [] (p := 2) (by norm_num)) (by simp [AllFloat, flatten]) ⟨by simp [IsEmptySeq], by simp [IsSingleton]⟩
  (.inr ⟨by simp [IsEmptySeq, PyVal.tup], by simp [IsSingleton, PyVal.tup]⟩) (vs := [series [4, 0, 2], series [1]]) (ns := [3, 1])
  (.cons ⟨(nums_ok _).1, (nums_ok _).2.1, _, (nums_ok _).2.2, by simp, rfl, by simp only [List.mem_map]; rintro _ ⟨a, -, rfl⟩; rfl⟩
    (.cons ⟨(nums_ok _).1, (nums_ok _).2.1, _, (nums_ok _).2.2, by simp, rfl, by simp only [List.mem_map]; rintro _ ⟨a, -, rfl⟩; rfl⟩ .nil))

/-- but operators that give the same outputs cannot always be interchanged: inside `FFill`, `AutoCorrelation` fails and the pipeline it equals does not. -/
theorem C67_not_interchangeable :
    SameStreams (AutoCorrelation (2 : Nat) (1 : Nat) : Operator (XR ℚ)) (Compose [CrossCorrelation (2 : Nat) (1 : Nat), Fork 2]) (vBuf (s := [])) ∧
    output (call (FFill (AutoCorrelation 2 1)) (series [1, 2, 4]) none) = .error .stateTypes ∧
    (output (call (FFill (Compose [CrossCorrelation 2 1, Fork 2])) (series [1, 2, 4]) none)).isOk = true :=
  ⟨C67_autoCorrelation (by omega) (by omega) [], by decide +kernel, by decide +kernel⟩

/-! ### Examples -/

example : output (call (Compose [Lag 1, Lag 2]) (series [1, 2, 3, 4, 5]) none) = .ok (series [0, 0, 0, 1, 2]) ∧
    output (call (Lag 3) (series [1, 2, 3, 4, 5]) none) = .ok (series [0, 0, 0, 1, 2]) := ⟨by decide +kernel, by decide +kernel⟩
/-- A lag and an average do not commute: the zeros a lag begins with count as samples. -/
example : output (call (Compose [SMA 2, Lag 1]) (series [2, 4, 6]) none) = .ok (series [0, 1, 3]) ∧
    output (call (Compose [Lag 1, SMA 2]) (series [2, 4, 6]) none) = .ok (series [0, 0, 3]) := ⟨by decide +kernel, by decide +kernel⟩
/-- A single infinity stays in the exponential average over one sample: the equation with `Identity` needs finite samples. -/
example : output (call (EMA 1) (vSBuf [XR.pinf, XR.fin (2 : ℚ)]) none) = .ok (vSBuf [XR.pinf, XR.nan]) := by decide +kernel
example : output (call (EMA 1) (series [3, 1, 2]) none) = .ok (series [3, 1, 2]) ∧ output (call (LocalMinimum 1) (series [3, 1, 2]) none) = .ok (series [3, 1, 2]) :=
  ⟨by decide +kernel, by decide +kernel⟩
example : output (call (LocalMinimum 3) (series [3, 1, 2]) none) = .ok (series [3, 1, 1]) ∧
    output (call (LocalMinimum 3) (series [1, 3, 2, 2]) none) ≠ output (call GlobalMinimum (series [1, 3, 2, 2]) none) := ⟨by decide +kernel, by decide +kernel⟩
example : output (call (FFill (FFill (SMA 2))) (series [1, 3, 0, 5]) none) = .ok (series [0, 2, 2, 4]) ∧
    output (call (FFill (SMA 2)) (series [1, 3, 0, 5]) none) = .ok (series [0, 2, 2, 4]) := ⟨by decide +kernel, by decide +kernel⟩
/-- The hypotheses of the two theorems on `FFill`. -/
example : Typed (SMA (2 : Nat) : Operator (XR ℚ)) (tF []) (tF []) (tBuf 2 []) ∧ AllFloat (tF []) ∧ Passable (tF []) ∧ Passable (tBuf 2 []) :=
  ⟨.sma [] (by omega), by simp [AllFloat, flatten], ⟨by simp [IsEmptySeq], by simp [IsSingleton]⟩,
    ⟨by simp [IsEmptySeq], by simp [IsSingleton]⟩⟩
example : call (FFill (SMA 2)) (series [1, 3]) (some (.tup [vS (.fin 7), .tup [vI 2, series [3, 1]]])) =
      .ok (series [2, 2], .tup [vS (.fin 2), .tup [vI 4, series [3, 1]]], .tup [vS (.fin 7), .tup [vI 2, series [3, 1]]]) ∧
    call (SMA 2) (series [1, 3]) (some (.tup [vI 2, series [3, 1]])) = .ok (series [2, 2], .tup [vI 4, series [3, 1]], .tup [vI 2, series [3, 1]]) :=
  ⟨by decide +kernel, by decide +kernel⟩

end
end TS
