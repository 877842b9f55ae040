import Verif.Props.Equations
import Verif.Props.Trends
/-
C67, minima and maxima of minima and maxima.
-/
namespace TS
open PyVal XR
set_option linter.unusedSectionVars false

theorem mem_window_iff {A : Type} {p : Nat} {l : List A} {y : A} : y ∈ window p l ↔ ∃ i, l.length - p ≤ i ∧ l[i]? = some y := by
  rw [window, List.mem_iff_getElem?]
  constructor
  · rintro ⟨i, h⟩
    rw [List.getElem?_take] at h
    split at h
    · next hi =>
      obtain ⟨h1, h2⟩ := List.getElem?_eq_some_iff.1 h
      rw [List.length_reverse] at h1
      refine ⟨l.length - 1 - i, by omega, ?_⟩
      rw [List.getElem?_reverse h1] at h
      exact h
    · cases h
  · rintro ⟨i, h1, h2⟩
    obtain ⟨hi, -⟩ := List.getElem?_eq_some_iff.1 h2
    refine ⟨l.length - 1 - i, ?_⟩
    rw [List.getElem?_take, if_pos (by omega), List.getElem?_reverse (by omega), ← h2]
    congr 1
    omega

/-- The extremum over the last `p` extrema over `q` samples is the extremum over the last `p + q - 1` samples. -/
theorem ext_windows {K : Type} {le : K → K → Prop} (trans : ∀ {a b c}, le a b → le b c → le a c) (anti : ∀ {a b}, le a b → le b a → a = b) {e : List K → K}
    (he : ∀ l, l ≠ [] → e l ∈ l ∧ ∀ x ∈ l, le x (e l)) {p q : Nat} (hp : 0 < p) (hq : 0 < q) {h : List K} (h0 : h ≠ []) :
    e (window p (scan (fun l => e (window q l)) [] h)) = e (window (p + q - 1) h) := by
  have hlen : 0 < h.length := List.length_pos_iff.2 h0
  have wne : ∀ {p : Nat} {l : List K}, 0 < p → l ≠ [] → window p l ≠ [] := fun hp hl => by
    rw [window]; simp [hl]; omega
  have hS : ∀ i (hi : i < h.length), (scan (fun l => e (window q l)) [] h)[i]? = some (e (window q (h.take (i + 1)))) := fun i hi => by
    rw [List.getElem?_eq_getElem (by simpa using hi), scan_getElem, List.nil_append]
  obtain ⟨a1, a2⟩ := he _ (wne hp (scan_ne_nil (y := fun l => e (window q l)) (h := []) h0))
  obtain ⟨b1, b2⟩ := he _ (wne (show 0 < p + q - 1 by omega) h0)
  refine anti (b2 _ ?_) ?_
  · obtain ⟨i, h1, h2⟩ := mem_window_iff.1 a1
    rw [scan_length] at h1
    have hi : i < h.length := by simpa using (List.getElem?_eq_some_iff.1 h2).1
    rw [hS i hi] at h2
    rw [← Option.some.inj h2]
    obtain ⟨j, h3, h4⟩ := mem_window_iff.1 (he _ (wne hq (l := h.take (i + 1)) (by rw [← List.length_pos_iff, List.length_take]; omega))).1
    rw [List.length_take] at h3
    have hj := (List.getElem?_eq_some_iff.1 h4).1
    rw [List.length_take] at hj
    refine mem_window_iff.2 ⟨j, by omega, ?_⟩
    rw [← h4, List.getElem?_take, if_pos (by omega)]
  · obtain ⟨j, h3, h4⟩ := mem_window_iff.1 b1
    have hj := (List.getElem?_eq_some_iff.1 h4).1
    have hi : max j (h.length - p) < h.length := by omega
    refine trans ((he _ (wne hq (l := h.take (max j (h.length - p) + 1)) (by rw [← List.length_pos_iff, List.length_take]; omega))).2 _ (mem_window_iff.2 ⟨j, ?_, ?_⟩))
      (a2 _ (mem_window_iff.2 ⟨max j (h.length - p), ?_, hS _ hi⟩))
    · rw [List.length_take]; omega
    · rw [← h4, List.getElem?_take, if_pos (by omega)]
    · rw [scan_length]; omega

section
variable {K : Type} [Field K] [LinearOrder K] [IsStrictOrderedRing K] [Transc K] [FloorRing K]

theorem leastK_windows {p q : Nat} (hp : 0 < p) (hq : 0 < q) {h : List K} (h0 : h ≠ []) :
    leastK (window p (scan (fun l => leastK (window q l)) [] h)) = leastK (window (p + q - 1) h) :=
  ext_windows (le := fun a b => b ≤ a) (fun h1 h2 => h2.trans h1) (fun h1 h2 => le_antisymm h2 h1) (fun _ hl => leastK_least hl) hp hq h0

theorem greatestK_windows {p q : Nat} (hp : 0 < p) (hq : 0 < q) {h : List K} (h0 : h ≠ []) :
    greatestK (window p (scan (fun l => greatestK (window q l)) [] h)) = greatestK (window (p + q - 1) h) :=
  ext_windows (le := (· ≤ ·)) (fun h1 h2 => h1.trans h2) (fun h1 h2 => le_antisymm h1 h2) (fun _ hl => greatestK_greatest hl) hp hq h0

theorem leastK_all {p : Nat} {l : List K} (h : l.length ≤ p) (h0 : l ≠ []) : leastK (window p l) = leastK l := by
  rw [window_all h]
  have := leastK_least h0
  exact least_eq ⟨by simpa using this.1, fun x hx => this.2 x (by simpa using hx)⟩

theorem greatestK_all {p : Nat} {l : List K} (h : l.length ≤ p) (h0 : l ≠ []) : greatestK (window p l) = greatestK l := by
  rw [window_all h]
  have := greatestK_greatest h0
  exact greatest_eq ⟨by simpa using this.1, fun x hx => this.2 x (by simpa using hx)⟩

theorem globalMin_reals : StreamsAs (GlobalMinimum : Operator (XR K)) finSeries finSeries leastK :=
  C20_global_min_streams.fin fun l hl => by
    obtain ⟨m, e, h⟩ := XR.runMin_fin hl
    rw [e, least_eq h]

theorem globalMax_reals : StreamsAs (GlobalMaximum : Operator (XR K)) finSeries finSeries greatestK :=
  C20_global_max_streams.fin fun l hl => by
    obtain ⟨m, e, h⟩ := XR.runMax_fin hl
    rw [e, greatest_eq h]

/-- the values of a function of the history that agrees with another one on every beginning -/
theorem scan_congr_take {A B : Type} {y y' : List A → B} {h : List A} (e : ∀ i, i < h.length → y (h.take (i + 1)) = y' (h.take (i + 1))) : scan y [] h = scan y' [] h :=
  List.ext_getElem (by simp) fun i h1 h2 => by rw [scan_getElem, scan_getElem]; exact e i (by simpa using h1)

theorem scan_least {h : List K} : scan leastK [] h = scan (fun l => leastK (window h.length l)) [] h :=
  scan_congr_take fun i hi => (leastK_all (by simp) (by rw [← List.length_pos_iff, List.length_take]; omega)).symm

theorem scan_greatest {h : List K} : scan greatestK [] h = scan (fun l => greatestK (window h.length l)) [] h :=
  scan_congr_take fun i hi => (greatestK_all (by simp) (by rw [← List.length_pos_iff, List.length_take]; omega)).symm

/-- local minima of local minima are local minima over a longer window, and so for maxima; -/
theorem C67_local_local {p q : Nat} (hp : 0 < p) (hq : 0 < q) :
    SameStreams (Compose [LocalMinimum (p : Int), LocalMinimum (q : Int)] : Operator (XR K)) (LocalMinimum ((p + q - 1 : Nat) : Int)) finSeries ∧
    SameStreams (Compose [LocalMaximum (p : Int), LocalMaximum (q : Int)] : Operator (XR K)) (LocalMaximum ((p + q - 1 : Nat) : Int)) finSeries :=
  ⟨(C66_compose (Lib.basic (.localMinimum _)) (Lib.weaken (Lib.basic (.localMinimum _)) (D' := (· = .leaf ())) (by rintro _ rfl; rfl) fun _ h => h)
      (fun xs _ => ⟨by simp, by simp [IsArgs, argSkels]⟩) (localMin_reals hq) (localMin_reals hp)).same (localMin_reals (by omega)) fun h h0 => leastK_windows hp hq h0,
    (C66_compose (Lib.basic (.localMaximum _)) (Lib.weaken (Lib.basic (.localMaximum _)) (D' := (· = .leaf ())) (by rintro _ rfl; rfl) fun _ h => h)
      (fun xs _ => ⟨by simp, by simp [IsArgs, argSkels]⟩) (localMax_reals hq) (localMax_reals hp)).same (localMax_reals (by omega)) fun h h0 => greatestK_windows hp hq h0⟩
example := C67_local_local (K := ℚ) (p := 2) (q := 3) (by norm_num) (by norm_num)

/-- the global minimum absorbs minima before and after it; -/
theorem C67_global_min {p : Nat} (hp : 0 < p) :
    SameStreams (Compose [GlobalMinimum, LocalMinimum (p : Int)] : Operator (XR K)) GlobalMinimum finSeries ∧
    SameStreams (Compose [LocalMinimum (p : Int), GlobalMinimum] : Operator (XR K)) GlobalMinimum finSeries ∧
    SameStreams (Compose [GlobalMinimum, GlobalMinimum] : Operator (XR K)) GlobalMinimum finSeries := by
  refine ⟨(C66_compose (Lib.basic (.localMinimum _)) (Lib.weaken (Lib.basic .globalMinimum) (D' := (· = .leaf ())) (by rintro _ rfl; rfl) fun _ h => h)
      (fun xs _ => ⟨by simp, by simp [IsArgs, argSkels]⟩) (localMin_reals hp) globalMin_reals).same globalMin_reals fun h h0 => ?_,
    (C66_compose (Lib.basic .globalMinimum) (Lib.weaken (Lib.basic (.localMinimum _)) (D' := (· = .leaf ())) (by rintro _ rfl; rfl) fun _ h => h)
      (fun xs _ => ⟨by simp, by simp [IsArgs, argSkels]⟩) globalMin_reals (localMin_reals hp)).same globalMin_reals fun h h0 => ?_,
    (C66_compose (Lib.basic .globalMinimum) (Lib.weaken (Lib.basic .globalMinimum) (D' := (· = .leaf ())) (by rintro _ rfl; rfl) fun _ h => h)
      (fun xs _ => ⟨by simp, by simp [IsArgs, argSkels]⟩) globalMin_reals globalMin_reals).same globalMin_reals fun h h0 => ?_⟩
  all_goals have hl := List.length_pos_iff.2 h0
  · rw [← leastK_all (p := h.length) (by simp) (scan_ne_nil h0), leastK_windows hl hp h0, leastK_all (by omega) h0]
  · rw [scan_least, leastK_windows hp hl h0, leastK_all (by omega) h0]
  · rw [← leastK_all (p := h.length) (by simp) (scan_ne_nil h0), scan_least, leastK_windows hl hl h0, leastK_all (by omega) h0]
example := C67_global_min (K := ℚ) (p := 2) (by norm_num)

/-- likewise the global maximum. -/
theorem C67_global_max {p : Nat} (hp : 0 < p) :
    SameStreams (Compose [GlobalMaximum, LocalMaximum (p : Int)] : Operator (XR K)) GlobalMaximum finSeries ∧
    SameStreams (Compose [LocalMaximum (p : Int), GlobalMaximum] : Operator (XR K)) GlobalMaximum finSeries ∧
    SameStreams (Compose [GlobalMaximum, GlobalMaximum] : Operator (XR K)) GlobalMaximum finSeries := by
  refine ⟨(C66_compose (Lib.basic (.localMaximum _)) (Lib.weaken (Lib.basic .globalMaximum) (D' := (· = .leaf ())) (by rintro _ rfl; rfl) fun _ h => h)
      (fun xs _ => ⟨by simp, by simp [IsArgs, argSkels]⟩) (localMax_reals hp) globalMax_reals).same globalMax_reals fun h h0 => ?_,
    (C66_compose (Lib.basic .globalMaximum) (Lib.weaken (Lib.basic (.localMaximum _)) (D' := (· = .leaf ())) (by rintro _ rfl; rfl) fun _ h => h)
      (fun xs _ => ⟨by simp, by simp [IsArgs, argSkels]⟩) globalMax_reals (localMax_reals hp)).same globalMax_reals fun h h0 => ?_,
    (C66_compose (Lib.basic .globalMaximum) (Lib.weaken (Lib.basic .globalMaximum) (D' := (· = .leaf ())) (by rintro _ rfl; rfl) fun _ h => h)
      (fun xs _ => ⟨by simp, by simp [IsArgs, argSkels]⟩) globalMax_reals globalMax_reals).same globalMax_reals fun h h0 => ?_⟩
  all_goals have hl := List.length_pos_iff.2 h0
  · rw [← greatestK_all (p := h.length) (by simp) (scan_ne_nil h0), greatestK_windows hl hp h0, greatestK_all (by omega) h0]
  · rw [scan_greatest, greatestK_windows hp hl h0, greatestK_all (by omega) h0]
  · rw [← greatestK_all (p := h.length) (by simp) (scan_ne_nil h0), scan_greatest, greatestK_windows hl hl h0, greatestK_all (by omega) h0]
example := C67_global_max (K := ℚ) (p := 2) (by norm_num)

end
end TS
