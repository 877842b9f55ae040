import Verif.Lemmas.TrackAutomaton
import Verif.Props.Averages
import Verif.Lemmas.Exact
import Verif.Props.Streaming
/-
C17 - C24: the operators of common/.
-/
namespace TS
open PyVal
variable {α : Type}

/-! ### C17 -/
section
variable [TFNum α] {s : List Nat}

theorem lagged_take {A : Type} {z : A} {p i : Nat} {xs : List A} (hi : i < xs.length) :
    lagged z p (xs.take (i + 1)) = if h : p ≤ i then xs[i - p]'(by omega) else z := by
  unfold lagged
  split
  · rw [List.getElem?_eq_getElem (by simp; omega), Option.getD_some, List.getElem_reverse, List.getElem_take]
    congr 1
    simp; omega
  · rw [List.getElem?_eq_none (by simp; omega), Option.getD_none]

theorem padded_at {A : Type} {z : A} {p : Nat} {xs : List A} {j : Nat} (hj : j < p) :
    (padded z p xs)[j]'(by simpa using hj) = if h : j < xs.length then xs[xs.length - 1 - j]'(by omega) else z := by
  rw [padded_getElem hj]
  split
  · rw [List.getElem?_eq_getElem (by simpa), Option.getD_some, List.getElem_reverse]
  · rw [List.getElem?_eq_none (by simp; omega), Option.getD_none]

theorem getLastD_take {A : Type} {z : A} {i : Nat} {xs : List A} (hi : i < xs.length) : (xs.take (i + 1)).getLastD z = xs[i] := by
  rw [List.take_succ_eq_append_getElem hi, List.getLastD_concat]

/-- **C17 Lag delays by exactly `period` steps**, and its final state holds the last `period` inputs, newest
first.  Float tensors of every shape. -/
theorem C17_lag {p : Nat} (hp : 0 < p) {xs : List (Idx s → α)} (hx : xs ≠ []) :
    ∃ os bf : List (Idx s → α), ∃ s0, call (Lag (p : Int)) (vBuf xs) none = .ok (vBuf os, vBuf bf, s0) ∧
      (∃ hl : os.length = xs.length, ∀ i (hi : i < xs.length), os[i] = if h : p ≤ i then xs[i - p]'(by omega) else Arith.zero) ∧
      (∃ hl : bf.length = p, ∀ j (hj : j < p), bf[j] = if h : j < xs.length then xs[xs.length - 1 - j]'(by omega) else Arith.zero) := by
  refine ⟨_, _, _, (lag_tracks (α := α) hp s).eval hx (fun _ _ _ => trivial) (rows_ok xs).1 (rows_ok xs).2.1 (rows_ok xs).2.2
    (z := vBuf (scan (lagged Arith.zero p) [] xs)) ?_, ⟨by simp, fun i hi => ?_⟩, by simp, fun j hj => ?_⟩
  · have := isSeries_vBuf (scan (lagged (Arith.zero : Idx s → α) p) [] xs)
    rwa [scan_map] at this
  · rw [scan_getElem, List.nil_append, lagged_take hi]
  · exact padded_at hj
example := C17_lag (α := XR ℚ) (s := [2]) (p := 2) (by norm_num) (xs := [fun _ => .fin 3, fun c => if c.1 = 0 then .fin 1 else .pinf]) (by simp)

/-- **C17** for int tensors. -/
theorem C17_lag_int {p : Nat} (hp : 0 < p) {xs : List (Idx s → Int)} (hx : xs ≠ []) :
    ∃ os bf : List (Idx s → Int), ∃ s0, call (Lag (p : Int) : Operator α) (vIsBuf xs) none = .ok (vIsBuf os, vIsBuf bf, s0) ∧
      (∃ hl : os.length = xs.length, ∀ i (hi : i < xs.length), os[i] = if h : p ≤ i then xs[i - p]'(by omega) else fun _ => 0) ∧
      (∃ hl : bf.length = p, ∀ j (hj : j < p), bf[j] = if h : j < xs.length then xs[xs.length - 1 - j]'(by omega) else fun _ => 0) := by
  refine ⟨_, _, _, (lag_tracks_int (α := α) hp s).eval hx (fun _ _ _ => trivial) (intRows_ok xs).1 (intRows_ok xs).2.1 (intRows_ok xs).2.2
    (z := vIsBuf (scan (lagged (fun _ => 0) p) [] xs)) ?_, ⟨by simp, fun i hi => ?_⟩, by simp, fun j hj => ?_⟩
  · have := isSeries_vIsBuf (α := α) (scan (lagged (fun _ : Idx s => (0 : Int)) p) [] xs)
    rwa [scan_map] at this
  · rw [scan_getElem, List.nil_append, lagged_take hi]
  · exact padded_at hj
example := C17_lag_int (α := XR ℚ) (s := [2]) (p := 2) (by norm_num) (xs := [fun _ => 3, fun c => if c.1 = 0 then 1 else -2]) (by simp)

/-- **C17** for bool tensors. -/
theorem C17_lag_bool {p : Nat} (hp : 0 < p) {xs : List (Idx s → Bool)} (hx : xs ≠ []) :
    ∃ os bf : List (Idx s → Bool), ∃ s0, call (Lag (p : Int) : Operator α) (vBsBuf xs) none = .ok (vBsBuf os, vBsBuf bf, s0) ∧
      (∃ hl : os.length = xs.length, ∀ i (hi : i < xs.length), os[i] = if h : p ≤ i then xs[i - p]'(by omega) else fun _ => false) ∧
      (∃ hl : bf.length = p, ∀ j (hj : j < p), bf[j] = if h : j < xs.length then xs[xs.length - 1 - j]'(by omega) else fun _ => false) := by
  refine ⟨_, _, _, (lag_tracks_bool (α := α) hp s).eval hx (fun _ _ _ => trivial) (boolRows_ok xs).1 (boolRows_ok xs).2.1 (boolRows_ok xs).2.2
    (z := vBsBuf (scan (lagged (fun _ => false) p) [] xs)) ?_, ⟨by simp, fun i hi => ?_⟩, by simp, fun j hj => ?_⟩
  · have := (boolRows_ok (α := α) (scan (lagged (fun _ : Idx s => false) p) [] xs)).2.2
    rwa [scan_map] at this
  · rw [scan_getElem, List.nil_append, lagged_take hi]
  · exact padded_at hj
example := C17_lag_bool (α := XR ℚ) (s := [2]) (p := 2) (by norm_num) (xs := [fun _ => true, fun c => decide (c.1 = 0)]) (by simp)

/-- **C17**: streaming on from the final state continues the delay line. -/
theorem C17_lag_streams {p : Nat} (hp : 0 < p) (s : List Nat) :
    StreamsAs (Lag (p : Int) : Operator α) (vBuf (s := s)) vBuf (lagged Arith.zero p) :=
  (lag_tracks hp s).streams rows_ok isSeries_vBuf fun _ => rfl

example : call (Lag 2) (series [1, 3, 5, 9]) none = .ok (series [0, 0, 1, 3], series [9, 5], series [0, 0]) := by decide +kernel
example : call (Lag 3) (series [1, 3]) none = .ok (series [0, 0], series [3, 1, 0], series [0, 0, 0]) := by decide +kernel
example : call (Lag 1 : Operator (XR ℚ)) (vIBuf [4, 5]) none = .ok (vIBuf [0, 4], vIBuf [5], vIBuf [0]) := by decide +kernel

end

/-! ### C18 -/

/-- **C18 SetDuring** with a float value, on every structure of float tensors, from every count `k` (`none` is
`k = 0`): the value at indices below `period - k`, the unchanged input from there on. -/
theorem C18_setDuring (c : α) (period k : Int) {v : Val α} {xs : List (Val α)} (hw : v.WF) (hl : flatten v ≠ []) (hin : IsSeries v xs) (hx : xs ≠ [])
    (hd : ∀ l ∈ flatten v, l.dtype = .ok .float) {st : Option (Val α)} (hst : st = some (.tup [vI k]) ∨ st = none ∧ k = 0) :
    ∃ z, call (SetDuring (.f (Tensor.scalar c)) period) v st = .ok (z, .tup [vI (k + xs.length)], .tup [vI k]) ∧
      IsSeries z (xs.mapIdx fun i x => if k + i < period then x.map (fillF c) else x) :=
  setDuring_call hw hl hin hx (fun x hx b l hl => by
    have := slice_dtype hin hd x hx l hl
    cases l <;> simp [Leaf.dtype] at this
    exact setLeaf_f) (fillF_sig c) (slice_sig hin) period k hst
example := C18_setDuring (α := XR ℚ) (.fin 7) 2 0 (v := series [3, 5, 1]) (nums_ok _).1 (nums_ok _).2.1 (nums_ok _).2.2 (by simp)
  (by simp [flatten, series, vSBuf, Leaf.dtype]) (.inr ⟨rfl, rfl⟩)

/-- **C18** with an int value, on int tensors. -/
theorem C18_setDuring_int (c : Int) (period k : Int) {v : Val α} {xs : List (Val α)} (hw : v.WF) (hl : flatten v ≠ []) (hin : IsSeries v xs) (hx : xs ≠ [])
    (hd : ∀ l ∈ flatten v, l.dtype = .ok .int) {st : Option (Val α)} (hst : st = some (.tup [vI k]) ∨ st = none ∧ k = 0) :
    ∃ z, call (SetDuring (.i (Tensor.scalar c)) period) v st = .ok (z, .tup [vI (k + xs.length)], .tup [vI k]) ∧
      IsSeries z (xs.mapIdx fun i x => if k + i < period then x.map (fillI c) else x) :=
  setDuring_call hw hl hin hx (fun x hx b l hl => by
    have := slice_dtype hin hd x hx l hl
    cases l <;> simp [Leaf.dtype] at this
    exact setLeaf_i) (fillI_sig c) (slice_sig hin) period k hst
example := C18_setDuring_int (α := XR ℚ) 7 2 1 (v := vIBuf [3, 5, 1]) (xs := [vI 3, vI 5, vI 1]) (by simp [vIBuf]) (by simp [vIBuf, flatten])
  (by simpa using isSeries_vIBuf (α := XR ℚ) [3, 5, 1]) (by simp) (by simp [flatten, vIBuf, Leaf.dtype]) (.inl rfl)

/-- **C18, resumption**: cutting the series anywhere gives the same outputs. -/
theorem C18_setDuring_split (c : α) (period : Int) {v v1 v2 : Val α} {a b : List (Val α)} (hw : v.WF) (hw1 : v1.WF) (hw2 : v2.WF)
    (hl : flatten v ≠ []) (hl1 : flatten v1 ≠ []) (hl2 : flatten v2 ≠ []) (hin : IsSeries v (a ++ b)) (hin1 : IsSeries v1 a) (hin2 : IsSeries v2 b)
    (ha : a ≠ []) (hb : b ≠ []) (hd : ∀ l ∈ flatten v, l.dtype = .ok .float) (hd1 : ∀ l ∈ flatten v1, l.dtype = .ok .float)
    (hd2 : ∀ l ∈ flatten v2, l.dtype = .ok .float) :
    ∃ z z1 z2 sf sm s0 os1 os2, call (SetDuring (.f (Tensor.scalar c)) period) v none = .ok (z, sf, s0) ∧
      call (SetDuring (.f (Tensor.scalar c)) period) v1 none = .ok (z1, sm, s0) ∧
      call (SetDuring (.f (Tensor.scalar c)) period) v2 (some sm) = .ok (z2, sf, sm) ∧
      IsSeries z1 os1 ∧ IsSeries z2 os2 ∧ IsSeries z (os1 ++ os2) := by
  obtain ⟨z, h1, h2⟩ := C18_setDuring c period 0 hw hl hin (by simp [ha]) hd (.inr ⟨rfl, rfl⟩)
  obtain ⟨z1, h3, h4⟩ := C18_setDuring c period 0 hw1 hl1 hin1 ha hd1 (.inr ⟨rfl, rfl⟩)
  obtain ⟨z2, h5, h6⟩ := C18_setDuring c period a.length hw2 hl2 hin2 hb hd2 (.inl rfl)
  refine ⟨z, z1, z2, _, _, _, _, _, h1, h3, ?_, h4, h6, ?_⟩
  · simp at h5 ⊢
    rw [h5]
  · rw [List.mapIdx_append] at h2
    convert h2 using 4
    simp [add_comm]

example : call (SetDuring (.f (Tensor.scalar (XR.fin 7))) 2) (series [1, 3, 5, 9]) none = .ok (series [7, 7, 5, 9], .tup [vI 4], .tup [vI 0]) := by
  decide +kernel
example : call (SetDuring (.f (Tensor.scalar (XR.fin 7))) 2) (.tup [series [1, 3], .node .list [series [5, 9]]]) (some (.tup [vI 1])) =
    .ok (.tup [series [7, 3], .node .list [series [7, 9]]], .tup [vI 3], .tup [vI 1]) := by
  decide +kernel

/-! ### C19 -/
section
variable [TFNum α] {s : List Nat}

/-- **C19 Momentum.** -/
theorem C19_momentum_streams {p : Nat} (hp : 0 < p) (s : List Nat) :
    StreamsAs (Momentum (p : Int) : Operator α) (vBuf (s := s)) vBuf (momentum p) :=
  (momentum_tracks hp s).streams rows_ok isSeries_vBuf fun _ => rfl
example := C19_momentum_streams (α := XR ℚ) (p := 2) (by norm_num) [2]

/-- **C19, by index.** -/
theorem C19_momentum {p : Nat} (hp : 0 < p) {xs : List (Idx s → α)} (hx : xs ≠ []) :
    ∃ os sf s0, call (Momentum (p : Int)) (vBuf xs) none = .ok (vBuf os, sf, s0) ∧ ∃ hl : os.length = xs.length,
      ∀ i (hi : i < xs.length), os[i] = if h : p ≤ i then xs[i] - xs[i - p]'(by omega) else Arith.zero := by
  obtain ⟨os, sf, s0, h1, hl, h2⟩ := (C19_momentum_streams (α := α) hp s).at hx
  refine ⟨os, sf, s0, h1, hl, fun i hi => ?_⟩
  rw [h2 i hi, momentum, List.length_take, Nat.min_eq_left (by omega), lagged_take hi, getLastD_take hi]
  by_cases hpi : p ≤ i
  · simp [hpi, show ¬ i + 1 ≤ p by omega]
  · simp [hpi, show i + 1 ≤ p by omega]

example : output (call (Momentum 2) (series [1, 3, 5, 9]) none) = .ok (series [0, 0, 4, 6]) := by decide +kernel
end

/-! ### C20, C21 -/
section
variable [TFNum α]

/-- **C20 Global extrema**, over every arithmetic: the sample found by comparing the samples in turn with the
operator `<` of that arithmetic. -/
theorem C20_global_min_streams : StreamsAs (GlobalMinimum : Operator α) vSBuf vSBuf runMin :=
  globalMin_tracks.streams nums_ok isSeries_vSBuf fun _ => rfl
example := C20_global_min_streams (α := XR ℚ)

theorem C20_global_max_streams : StreamsAs (GlobalMaximum : Operator α) vSBuf vSBuf runMax :=
  globalMax_tracks.streams nums_ok isSeries_vSBuf fun _ => rfl
example := C20_global_max_streams (α := XR ℚ)

/-- **C21 Local extrema**, over every arithmetic. -/
theorem C21_local_min_streams {p : Nat} (hp : 0 < p) :
    StreamsAs (LocalMinimum (p : Int) : Operator α) vSBuf vSBuf (fun h => Arith.redMin (window p h)) :=
  (localExtremum_tracks _ _ hp).streams nums_ok isSeries_vSBuf fun _ => rfl
example := C21_local_min_streams (α := XR ℚ) (p := 2) (by norm_num)

theorem C21_local_max_streams {p : Nat} (hp : 0 < p) :
    StreamsAs (LocalMaximum (p : Int) : Operator α) vSBuf vSBuf (fun h => Arith.redMax (window p h)) :=
  (localExtremum_tracks _ _ hp).streams nums_ok isSeries_vSBuf fun _ => rfl

end
section
variable {K : Type} [Field K] [LinearOrder K] [Transc K] [FloorRing K]

/-- numbers of exact arithmetic as a series -/
abbrev finSeries (l : List K) : Val (XR K) := vSBuf (l.map XR.fin)

/-- From a function of the history on finite numbers to outputs by index. -/
theorem exact_at {op : Operator (XR K)} {y : List (XR K) → XR K} (h : StreamsAs op vSBuf vSBuf y) {P : List K → K → Prop}
    (hy : ∀ l : List K, l ≠ [] → ∃ m, y (l.map XR.fin) = XR.fin m ∧ P l m) {xs : List K} (hx : xs ≠ []) :
    ∃ os sf s0, call op (finSeries xs) none = .ok (finSeries os, sf, s0) ∧ ∃ hl : os.length = xs.length,
      ∀ i (hi : i < xs.length), P (xs.take (i + 1)) os[i] := by
  obtain ⟨os, sf, s0, h1, hl, h2⟩ := h.at (xs := xs.map XR.fin) (by simpa using hx)
  have : ∀ i, ∃ m, ∀ hi : i < xs.length, os[i]'(by simp [hl, hi]) = XR.fin m ∧ P (xs.take (i + 1)) m := by
    intro i
    by_cases hi : i < xs.length
    · obtain ⟨m, e1, e2⟩ := hy (xs.take (i + 1)) (take_ne_nil hi)
      refine ⟨m, fun _ => ⟨?_, e2⟩⟩
      rw [h2 i (by simpa using hi), ← List.map_take, e1]
    · exact ⟨0, fun h => absurd h hi⟩
  choose f hf using this
  refine ⟨(List.range xs.length).map f, sf, s0, ?_, by simp, fun i hi => by simpa using (hf i hi).2⟩
  rw [h1, show os = ((List.range xs.length).map f).map XR.fin from ?_]
  apply List.ext_getElem (by simp [hl])
  intro i hi1 hi2
  rw [(hf i (by simpa using hi2)).1]
  simp

/-- **C20, exact arithmetic**: the minimum of the inputs at indices `0..i`. -/
theorem C20_global_min {xs : List K} (hx : xs ≠ []) :
    ∃ os sf s0, call GlobalMinimum (finSeries xs) none = .ok (finSeries os, sf, s0) ∧ ∃ hl : os.length = xs.length,
      ∀ i (hi : i < xs.length), IsLeastOf os[i] (xs.take (i + 1)) :=
  exact_at C20_global_min_streams (P := fun l m => IsLeastOf m l) (fun _ hl => XR.runMin_fin hl) hx
example := C20_global_min (K := ℚ) (xs := [3, 1, 4]) (by simp)

/-- **C20, exact arithmetic**: the maximum of the inputs at indices `0..i`. -/
theorem C20_global_max {xs : List K} (hx : xs ≠ []) :
    ∃ os sf s0, call GlobalMaximum (finSeries xs) none = .ok (finSeries os, sf, s0) ∧ ∃ hl : os.length = xs.length,
      ∀ i (hi : i < xs.length), IsGreatestOf os[i] (xs.take (i + 1)) :=
  exact_at C20_global_max_streams (P := fun l m => IsGreatestOf m l) (fun _ hl => XR.runMax_fin hl) hx
example := C20_global_max (K := ℚ) (xs := [3, 1, 4]) (by simp)

/-- **C20, resumption**: a run cut in two gives on the second part the minimum over the whole history. -/
theorem C20_global_min_resumed {h xs : List K} (hh : h ≠ []) (hx : xs ≠ []) :
    ∃ z sm s0 os sf, call GlobalMinimum (finSeries h) none = .ok (z, sm, s0) ∧
      call GlobalMinimum (finSeries xs) (some sm) = .ok (vSBuf os, sf, sm) ∧ ∃ hl : os.length = xs.length,
      ∀ i (hi : i < xs.length), ∃ m, os[i] = XR.fin m ∧ IsLeastOf m (h ++ xs.take (i + 1)) := by
  obtain ⟨st, h1, h2⟩ := C20_global_min_streams (α := XR K)
  refine ⟨_, _, _, _, _, h1 (h.map XR.fin) (by simpa using hh), h2 (h.map XR.fin) (xs.map XR.fin) (by simpa using hx), by simp, fun i hi => ?_⟩
  rw [scan_getElem, ← List.map_take, ← List.map_append]
  exact XR.runMin_fin (by simp [hh])
example := C20_global_min_resumed (K := ℚ) (h := [3, 1, 4]) (xs := [3, 1, 4]) (by simp) (by simp)

theorem window_fin {p : Nat} (l : List K) : window p (l.map XR.fin) = (window p l).map XR.fin := by
  simp [window, List.map_take]

theorem window_ne_nil {A : Type} {p : Nat} (hp : 0 < p) {l : List A} (hl : l ≠ []) : window p l ≠ [] := by
  have := List.length_pos_iff.2 hl
  rw [← List.length_pos_iff]; simp [window]; omega

/-- **C21, exact arithmetic**: the minimum of the last `min (i + 1) p` inputs. -/
theorem C21_local_min {p : Nat} (hp : 0 < p) {xs : List K} (hx : xs ≠ []) :
    ∃ os sf s0, call (LocalMinimum (p : Int)) (finSeries xs) none = .ok (finSeries os, sf, s0) ∧ ∃ hl : os.length = xs.length,
      ∀ i (hi : i < xs.length), IsLeastOf os[i] ((xs.take (i + 1)).drop (i + 1 - p)) := by
  refine (exact_at (C21_local_min_streams hp) (P := fun l m => IsLeastOf m (window p l)) (fun l hl => ?_) hx).imp fun os => Exists.imp fun sf =>
    Exists.imp fun s0 => And.imp_right fun ⟨hl, h⟩ => ⟨hl, fun i hi => ?_⟩
  · rw [window_fin]; exact XR.redMin_fin (window_ne_nil hp hl)
  · have := h i hi
    have e : window p (xs.take (i + 1)) = ((xs.take (i + 1)).drop (i + 1 - p)).reverse := by
      rw [window, List.take_reverse, List.length_take, Nat.min_eq_left (by omega)]
    rw [e] at this
    exact ⟨by simpa using this.1, fun x hx => this.2 x (by simpa using hx)⟩
example := C21_local_min (K := ℚ) (p := 2) (by norm_num) (xs := [3, 1, 4]) (by simp)

/-- **C21, exact arithmetic**: the maximum of the last `min (i + 1) p` inputs. -/
theorem C21_local_max {p : Nat} (hp : 0 < p) {xs : List K} (hx : xs ≠ []) :
    ∃ os sf s0, call (LocalMaximum (p : Int)) (finSeries xs) none = .ok (finSeries os, sf, s0) ∧ ∃ hl : os.length = xs.length,
      ∀ i (hi : i < xs.length), IsGreatestOf os[i] ((xs.take (i + 1)).drop (i + 1 - p)) := by
  refine (exact_at (C21_local_max_streams hp) (P := fun l m => IsGreatestOf m (window p l)) (fun l hl => ?_) hx).imp fun os => Exists.imp fun sf =>
    Exists.imp fun s0 => And.imp_right fun ⟨hl, h⟩ => ⟨hl, fun i hi => ?_⟩
  · rw [window_fin]; exact XR.redMax_fin (window_ne_nil hp hl)
  · have := h i hi
    have e : window p (xs.take (i + 1)) = ((xs.take (i + 1)).drop (i + 1 - p)).reverse := by
      rw [window, List.take_reverse, List.length_take, Nat.min_eq_left (by omega)]
    rw [e] at this
    exact ⟨by simpa using this.1, fun x hx => this.2 x (by simpa using hx)⟩

example : output (call GlobalMinimum (series [3, 5, 2, 4]) none) = .ok (series [3, 3, 2, 2]) := by decide +kernel
example : output (call GlobalMaximum (series [-3, -5, -2, -4]) none) = .ok (series [-3, -3, -2, -2]) := by decide +kernel
example : output (call (LocalMinimum 2) (series [3, 5, 2, 4]) none) = .ok (series [3, 3, 2, 2]) := by decide +kernel
example : output (call (LocalMaximum 2) (series [-3, -5, -6, -4]) none) = .ok (series [-3, -3, -5, -4]) := by decide +kernel

end

/-! ### C22 -/

/-- **C22 Automaton takes the first enabled transition.**  One step, from no state (the initial state) or a given
one. -/
theorem C22_automaton_step {ts : List (Transition α)} {q : Int} {d : List (Val α) → Res (Val α)} {x : Val α} (hx : x.WF)
    {st : Option (Val α)} (hst : ∀ s ∈ st, s.WF) {o n i : Val α} (h : call (Automaton ts q d) x st false = .ok (o, n, i)) :
    ∃ args prev, unpackArgs x = args ∧ (∀ s ∈ st, s = vI prev) ∧ (st = none → prev = q) ∧ i = vI prev ∧ Moves ts d args prev o n := by
  obtain ⟨h1, h2⟩ := call_ok_tensors hx hst h
  rw [call_eq false hx h1 (fun s hs => ⟨hst s hs, h2 s hs⟩)] at h
  obtain ⟨args, prev, ha, h3⟩ := automaton_step (by simpa using h)
  refine ⟨args, prev, ?_, h3⟩
  cases x with
  | leaf l => cases ha
  | node k xs => cases k <;> cases ha <;> rfl

/-- **C22**: the automaton never gets stuck: when its functions succeed on the arguments with results of one type, so
does the step. -/
theorem C22_automaton_total {ts : List (Transition α)} (hts : ts ≠ []) {q : Int} {d : List (Val α) → Res (Val α)} {args : List (Val α)}
    (hargs : ∀ x ∈ args, x.WF ∧ Tensors x) {g : Transition α → Bool} {a : Transition α → Val α} {dv : Val α} {ty : PyVal DType}
    (hg : ∀ t ∈ ts, t.guard args = .ok (g t)) (ha : ∀ t ∈ ts, t.action args = .ok (a t) ∧ (a t).WF ∧ HasType (a t) ty)
    (hd : d args = .ok dv ∧ dv.WF ∧ HasType dv ty) (st : Option Int) :
    ∃ o n, call (Automaton ts q d) (.tup args) (st.map vI) false = .ok (o, n, vI (st.getD q)) := by
  have h := automaton_total hts (q := q) (d := d) (x := .tup args) rfl hg ha hd st
  rw [call_eq false (WF_tup.2 fun x hx => (hargs x hx).1) (tensors_tup.2 fun x hx => (hargs x hx).2)]
  · simp only [Bool.false_eq_true, if_false, h]
    cases ts.find? fun t => decide (st.getD q = t.source) && g t
    · exact ⟨_, _, rfl⟩
    · exact ⟨_, _, rfl⟩
  · intro s hs
    cases st with
    | none => cases hs
    | some k => cases hs; exact ⟨by simp, by simp [Tensors, flatten]⟩

/-- **C22, every step of a streamed run**: the outputs and states of the run are those of a sequence of moves starting
in the initial state, and no state outside the initial state and the targets of the table is ever reached. -/
theorem C22_automaton_run {ts : List (Transition α)} {q : Int} {d : List (Val α) → Res (Val α)} (hok : AutomatonOK ts d) {v : Val α} (hw : v.WF)
    {z sf s0 : Val α} (h : call (Automaton ts q d) v none = .ok (z, sf, s0)) :
    ∃ (xs os : List (Val α)) (qs : List Int), IsSeries v xs ∧ IsSeries z os ∧ os.length = xs.length ∧ qs.length = xs.length ∧
      s0 = vI q ∧ some sf = ((q :: qs).map vI).getLast? ∧
      (∀ i (hi : i < xs.length) (ho : i < os.length) (hq : i + 1 < (q :: qs).length), Moves ts d (unpackArgs xs[i]) (q :: qs)[i] os[i] (vI (q :: qs)[i + 1])) ∧
      (∀ p ∈ q :: qs, p = q ∨ ∃ t ∈ ts, p = t.target) := by
  obtain ⟨hl, x, xs, hin, o, n, i, hc, rfl, -, -, tr, htr, -, hz, hlast⟩ :=
    (C01_streaming_eq_stepping (Automaton_sane hok) (Automaton_uniform hok) hw (by simp) z sf s0).1 h
  obtain ⟨args, prev, -, -, hprev, hi, -⟩ := C22_automaton_step (hin.mem_WF hw x (by simp)) (by simp) hc
  rw [hprev rfl] at hi
  subst hi
  have key : ∀ (xs : List (Val α)) (p : Int) (tr : List (Val α × Val α)), (∀ x ∈ xs, x.WF) → stepAll (Automaton ts q d) xs (vI p) = .ok tr →
      ∃ qs : List Int, qs.length = xs.length ∧ tr.map (·.2) = qs.map vI ∧
        (∀ i (hi : i < xs.length) (ho : i < (tr.map (·.1)).length) (hq : i + 1 < (p :: qs).length),
          Moves ts d (unpackArgs xs[i]) (p :: qs)[i] (tr.map (·.1))[i] (vI (p :: qs)[i + 1])) := by
    intro xs
    induction xs with
    | nil =>
      intro p tr _ htr
      cases htr
      exact ⟨[], rfl, rfl, fun i hi => absurd hi (by simp)⟩
    | cons x xs ih =>
      intro p tr hwx htr
      obtain ⟨o, n, i, tr', h1, h2, rfl⟩ := stepAll_cons_ok.1 htr
      obtain ⟨args, prev, rfl, hp, -, -, hm⟩ := C22_automaton_step (hwx x (by simp)) (by rintro _ ⟨⟩; simp) h1
      have hp : prev = p := by
        have := hp _ rfl
        have := congrArg decI this
        simpa using this.symm
      subst hp
      obtain ⟨p', rfl⟩ : ∃ p', n = vI p' := by
        rcases hm with ⟨_, t, _, _, _, _, _, rfl⟩ | ⟨_, _, rfl⟩ <;> exact ⟨_, rfl⟩
      obtain ⟨qs, e1, e2, e3⟩ := ih p' tr' (fun y hy => hwx y (by simp [hy])) h2
      refine ⟨p' :: qs, by simp [e1], by simp [e2], ?_⟩
      intro i hi ho hq
      cases i with
      | zero => simpa using hm
      | succ i =>
        simp only [List.length_cons, Nat.add_lt_add_iff_right] at hi
        exact e3 i hi (by simpa using ho) (by simpa using hq)
  obtain ⟨qs, e1, e2, e3⟩ := key _ q tr (hin.mem_WF hw) htr
  refine ⟨_, _, qs, hin, hz, by simpa using stepAll_length htr, e1, rfl, ?_, e3, ?_⟩
  · rw [e2] at hlast
    have : qs ≠ [] := by rintro rfl; simp at e1
    rw [← hlast]
    obtain ⟨a, qs, rfl⟩ := List.exists_cons_of_ne_nil this
    simp [List.getLast?_cons_cons]
  · have hlen : (tr.map (·.1)).length = (x :: xs).length := by simpa using stepAll_length htr
    have : ∀ k (hk : k < (q :: qs).length), (q :: qs)[k] = q ∨ ∃ t ∈ ts, (q :: qs)[k] = t.target := by
      intro k
      induction k with
      | zero => intro _; exact .inl rfl
      | succ k ih =>
        intro hk
        have hk' : k < (x :: xs).length := by simp only [List.length_cons] at hk ⊢; simp only [List.length_cons] at e1; omega
        rcases e3 k hk' (by rw [hlen]; exact hk') hk with ⟨pre, t, post, e, -, -, -, hn⟩ | ⟨-, -, hn⟩
        · refine .inr ⟨t, by rw [e]; simp, ?_⟩
          have := congrArg decI hn
          simpa using this
        · have h1 := ih (by omega)
          have h2 : (q :: qs)[k + 1] = (q :: qs)[k] := by
            have := congrArg decI hn
            simpa using this
          rwa [h2]
    intro p hp
    obtain ⟨k, hk, rfl⟩ := List.mem_iff_getElem.1 hp
    exact this k hk

/-- The automaton of the examples: leave 0 for 1 on a negative input, return on a positive one; a second row for the
first case is never reached. -/
def flip : List (Transition (XR ℚ)) :=
  [⟨0, 1, fun args => match args with | [.leaf (.i ⟨[], v⟩)] => .ok (decide (v () < 0)) | _ => .error .typeError, fun _ => .ok (vI 10)⟩,
   ⟨0, 7, fun args => match args with | [.leaf (.i ⟨[], v⟩)] => .ok (decide (v () < 0)) | _ => .error .typeError, fun _ => .ok (vI 99)⟩,
   ⟨1, 0, fun args => match args with | [.leaf (.i ⟨[], v⟩)] => .ok (decide (0 < v ())) | _ => .error .typeError, fun _ => .ok (vI 20)⟩]
example := C22_automaton_step (ts := flip) (q := 0) (d := fun _ => .ok (vI 0)) (x := .tup [vI (-1)]) (by simp [WF_tup]) (st := some (vI 0)) (by simp) (o := vI 10) (n := vI 1) (i := vI 0) (by decide +kernel)
example := C22_automaton_total (ts := flip) (by simp [flip]) (q := 0) (d := fun _ => .ok (vI 0)) (args := [vI (-1)]) (by simp [Tensors, flatten]) (g := fun t => decide (t.source = 0)) (a := fun t => if t.source = 1 then vI 20 else if t.target = 1 then vI 10 else vI 99)
  (dv := vI 0) (ty := .leaf .int)
  (by simp only [flip, List.mem_cons, List.not_mem_nil, or_false]; rintro t (rfl | rfl | rfl) <;> rfl)
  (by simp only [flip, List.mem_cons, List.not_mem_nil, or_false]; rintro t (rfl | rfl | rfl) <;> exact ⟨rfl, by simp, HasType_iff.2 rfl⟩)
  ⟨rfl, by simp, HasType_iff.2 rfl⟩

example : call (Automaton flip 0 fun _ => .ok (vI 0)) (.tup [vIBuf [3, -1, -5, 0, 2, -1]]) none = .ok (vIBuf [0, 10, 0, 0, 20, 10], vI 1, vI 0) := by
  decide +kernel

example : AutomatonOK flip fun _ => .ok (vI 0) where
  action := by simp [flip]
  default := by rintro _ _ _ ⟨⟩; simp
  skel := by rintro _ _ _ _ _ ⟨⟩ ⟨⟩; rfl

end TS
