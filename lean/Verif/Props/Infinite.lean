import Mathlib.Order.WithBot
import Verif.Props.Common
/-
C20, C21: extrema of series with infinite values.
-/
namespace TS
open PyVal
variable {K : Type} [Field K] [LinearOrder K] [Transc K] [FloorRing K]

/-- a number, infinity or minus infinity as a float -/
def ext : WithBot (WithTop K) → XR K
  | ⊥ => .ninf
  | (⊤ : WithTop K) => .pinf
  | ((a : K) : WithTop K) => .fin a

theorem lt_ext (a b : WithBot (WithTop K)) : TFNum.lt (ext a) (ext b) = decide (a < b) := by
  rw [Bool.eq_iff_iff, decide_eq_true_eq]
  show XR.lt _ _ = true ↔ _
  rcases a with _ | _ | a <;> rcases b with _ | _ | b
  · simp [ext, XR.lt]; exact lt_irrefl _
  · simp [ext, XR.lt]; exact WithBot.bot_lt_coe _
  · simp [ext, XR.lt]; exact WithBot.bot_lt_coe _
  · simp [ext, XR.lt]; exact not_lt_bot
  · simp [ext, XR.lt]; exact lt_irrefl _
  · simp [ext, XR.lt]; exact not_lt_of_ge (WithBot.coe_le_coe.2 (le_top (α := WithTop K)))
  · simp [ext, XR.lt]; exact not_lt_bot
  · simp [ext, XR.lt]; exact WithBot.coe_lt_coe.2 (WithTop.coe_lt_top _)
  · simp only [ext, XR.lt, decide_eq_true_eq]; exact (WithTop.coe_lt_coe.symm.trans WithBot.coe_lt_coe.symm)

theorem min_ext (a b : WithBot (WithTop K)) : Arith.min (ext a) (ext b) = ext (Min.min a b) := by
  have : Arith.min (ext a) (ext b) = if TFNum.lt (ext b) (ext a) then ext b else ext a := by
    rcases a with _ | _ | a <;> rcases b with _ | _ | b <;> rfl
  rw [this, lt_ext]
  simp only [decide_eq_true_eq]
  split_ifs with h
  · rw [min_eq_right h.le]
  · rw [min_eq_left (not_lt.1 h)]

theorem max_ext (a b : WithBot (WithTop K)) : Arith.max (ext a) (ext b) = ext (Max.max a b) := by
  have : Arith.max (ext a) (ext b) = if TFNum.lt (ext a) (ext b) then ext b else ext a := by
    rcases a with _ | _ | a <;> rcases b with _ | _ | b <;> rfl
  rw [this, lt_ext]
  simp only [decide_eq_true_eq]
  split_ifs with h
  · rw [max_eq_right h.le]
  · rw [max_eq_left (not_lt.1 h)]

theorem foldl_runMin {L : Type} [LinearOrder L] {f : L → XR K} (hf : ∀ a b, TFNum.lt (f a) (f b) = decide (a < b)) {l : List L} (hl : l ≠ []) :
    ∃ m, runMin (l.map f) = f m ∧ IsLeastOf m l := by
  obtain ⟨x, l, rfl⟩ := List.exists_cons_of_ne_nil hl
  clear hl
  simp only [List.map_cons, runMin]
  induction l using List.reverseRecOn with
  | nil => exact ⟨x, rfl, by simp [IsLeastOf]⟩
  | append_singleton l y ih =>
    obtain ⟨m, h1, h2, h3⟩ := ih
    rw [List.map_append, List.foldl_append, h1]
    simp only [List.map_cons, List.map_nil, List.foldl_cons, List.foldl_nil, hf, decide_eq_true_eq]
    by_cases h : y < m
    · refine ⟨y, by simp [h], by simp, fun z hz => ?_⟩
      simp only [List.mem_cons, List.mem_append, List.not_mem_nil, or_false] at hz
      rcases hz with rfl | hz | rfl
      · exact (h.trans_le (h3 _ (by simp))).le
      · exact (h.trans_le (h3 _ (by simp [hz]))).le
      · exact le_refl _
    · refine ⟨m, by simp [h], ?_, fun z hz => ?_⟩
      · simp only [List.mem_cons] at h2 ⊢
        rcases h2 with h2 | h2 <;> simp [h2]
      · simp only [List.mem_cons, List.mem_append, List.not_mem_nil, or_false] at hz
        rcases hz with rfl | hz | rfl
        · exact h3 _ (by simp)
        · exact h3 _ (by simp [hz])
        · exact not_lt.1 h

theorem foldl_runMax {L : Type} [LinearOrder L] {f : L → XR K} (hf : ∀ a b, TFNum.lt (f a) (f b) = decide (a < b)) {l : List L} (hl : l ≠ []) :
    ∃ m, runMax (l.map f) = f m ∧ IsGreatestOf m l := by
  obtain ⟨x, l, rfl⟩ := List.exists_cons_of_ne_nil hl
  clear hl
  simp only [List.map_cons, runMax]
  induction l using List.reverseRecOn with
  | nil => exact ⟨x, rfl, by simp [IsGreatestOf]⟩
  | append_singleton l y ih =>
    obtain ⟨m, h1, h2, h3⟩ := ih
    rw [List.map_append, List.foldl_append, h1]
    simp only [List.map_cons, List.map_nil, List.foldl_cons, List.foldl_nil, hf, decide_eq_true_eq]
    by_cases h : m < y
    · refine ⟨y, by simp [h], by simp, fun z hz => ?_⟩
      simp only [List.mem_cons, List.mem_append, List.not_mem_nil, or_false] at hz
      rcases hz with rfl | hz | rfl
      · exact ((h3 _ (by simp)).trans_lt h).le
      · exact ((h3 _ (by simp [hz])).trans_lt h).le
      · exact le_refl _
    · refine ⟨m, by simp [h], ?_, fun z hz => ?_⟩
      · simp only [List.mem_cons] at h2 ⊢
        rcases h2 with h2 | h2 <;> simp [h2]
      · simp only [List.mem_cons, List.mem_append, List.not_mem_nil, or_false] at hz
        rcases hz with rfl | hz | rfl
        · exact h3 _ (by simp)
        · exact h3 _ (by simp [hz])
        · exact not_lt.1 h

theorem redMin_ext {l : List (WithBot (WithTop K))} (hl : l ≠ []) : ∃ m, Arith.redMin (l.map ext) = ext m ∧ IsLeastOf m l := by
  obtain ⟨x, l, rfl⟩ := List.exists_cons_of_ne_nil hl
  clear hl
  induction l generalizing x with
  | nil =>
    refine ⟨x, ?_, by simp [IsLeastOf]⟩
    rw [List.map_cons, XR.redMin_cons]
    exact (min_ext x ⊤).trans (by rw [min_eq_left le_top])
  | cons y l ih =>
    obtain ⟨m, h1, h2, h3⟩ := ih y
    rw [List.map_cons, XR.redMin_cons, h1, min_ext]
    refine ⟨_, rfl, ?_, fun z hz => ?_⟩
    · rcases min_choice x m with h | h <;> rw [h]
      · simp
      · exact List.mem_cons_of_mem _ h2
    · rw [List.mem_cons] at hz
      rcases hz with rfl | hz
      · exact min_le_left _ _
      · exact (min_le_right _ _).trans (h3 z hz)

theorem redMax_ext {l : List (WithBot (WithTop K))} (hl : l ≠ []) : ∃ m, Arith.redMax (l.map ext) = ext m ∧ IsGreatestOf m l := by
  obtain ⟨x, l, rfl⟩ := List.exists_cons_of_ne_nil hl
  clear hl
  induction l generalizing x with
  | nil =>
    refine ⟨x, ?_, by simp [IsGreatestOf]⟩
    rw [List.map_cons, XR.redMax_cons]
    exact (max_ext x ⊥).trans (by rw [max_eq_left bot_le])
  | cons y l ih =>
    obtain ⟨m, h1, h2, h3⟩ := ih y
    rw [List.map_cons, XR.redMax_cons, h1, max_ext]
    refine ⟨_, rfl, ?_, fun z hz => ?_⟩
    · rcases max_choice x m with h | h <;> rw [h]
      · simp
      · exact List.mem_cons_of_mem _ h2
    · rw [List.mem_cons] at hz
      rcases hz with rfl | hz
      · exact le_max_left _ _
      · exact (h3 z hz).trans (le_max_right _ _)

/-- numbers and infinities as a series -/
abbrev extSeries (l : List (WithBot (WithTop K))) : Val (XR K) := vSBuf (l.map ext)

omit [Field K] [LinearOrder K] [Transc K] [FloorRing K] in
theorem ext_at {op : Operator (XR K)} {y : List (XR K) → XR K} (h : StreamsAs op vSBuf vSBuf y) {P : List (WithBot (WithTop K)) → WithBot (WithTop K) → Prop}
    (hy : ∀ l, l ≠ [] → ∃ m, y (l.map ext) = ext m ∧ P l m) {xs : List (WithBot (WithTop K))} (hx : xs ≠ []) :
    ∃ os sf s0, call op (extSeries xs) none = .ok (extSeries os, sf, s0) ∧ ∃ hl : os.length = xs.length,
      ∀ i (hi : i < xs.length), P (xs.take (i + 1)) os[i] := by
  obtain ⟨os, sf, s0, h1, hl, h2⟩ := h.at (xs := xs.map ext) (by simpa using hx)
  have : ∀ i, ∃ m, ∀ hi : i < xs.length, os[i]'(by simp [hl, hi]) = ext m ∧ P (xs.take (i + 1)) m := by
    intro i
    by_cases hi : i < xs.length
    · obtain ⟨m, e1, e2⟩ := hy (xs.take (i + 1)) (take_ne_nil hi)
      refine ⟨m, fun _ => ⟨?_, e2⟩⟩
      rw [h2 i (by simpa using hi), ← List.map_take, e1]
    · exact ⟨⊥, fun h => absurd h hi⟩
  choose f hf using this
  refine ⟨(List.range xs.length).map f, sf, s0, ?_, by simp, fun i hi => by simpa using (hf i hi).2⟩
  rw [h1, show os = ((List.range xs.length).map f).map ext from ?_]
  apply List.ext_getElem (by simp [hl])
  intro i hi1 hi2
  rw [(hf i (by simpa using hi2)).1]
  simp

/-- **C20 with infinite samples**: the minimum so far, in the order in which minus infinity is least and infinity greatest, -/
theorem C20_global_min_infinite {xs : List (WithBot (WithTop K))} (hx : xs ≠ []) :
    ∃ os sf s0, call GlobalMinimum (extSeries xs) none = .ok (extSeries os, sf, s0) ∧ ∃ hl : os.length = xs.length,
      ∀ i (hi : i < xs.length), IsLeastOf os[i] (xs.take (i + 1)) :=
  ext_at C20_global_min_streams (P := fun l m => IsLeastOf m l) (fun _ hl => foldl_runMin lt_ext hl) hx
example := C20_global_min_infinite (K := ℚ) (xs := [⊤, ((3 : ℚ) : WithTop ℚ), ⊥]) (by simp)

/-- the maximum so far. -/
theorem C20_global_max_infinite {xs : List (WithBot (WithTop K))} (hx : xs ≠ []) :
    ∃ os sf s0, call GlobalMaximum (extSeries xs) none = .ok (extSeries os, sf, s0) ∧ ∃ hl : os.length = xs.length,
      ∀ i (hi : i < xs.length), IsGreatestOf os[i] (xs.take (i + 1)) :=
  ext_at C20_global_max_streams (P := fun l m => IsGreatestOf m l) (fun _ hl => foldl_runMax lt_ext hl) hx
example := C20_global_max_infinite (K := ℚ) (xs := [⊥, ((3 : ℚ) : WithTop ℚ), ⊤]) (by simp)

/-- **C21 with infinite samples**: the minimum of the last `min (i + 1) p` inputs, -/
theorem C21_local_min_infinite {p : Nat} (hp : 0 < p) {xs : List (WithBot (WithTop K))} (hx : xs ≠ []) :
    ∃ os sf s0, call (LocalMinimum (p : Int)) (extSeries xs) none = .ok (extSeries os, sf, s0) ∧ ∃ hl : os.length = xs.length,
      ∀ i (hi : i < xs.length), IsLeastOf os[i] ((xs.take (i + 1)).drop (i + 1 - p)) := by
  refine (ext_at (C21_local_min_streams hp) (P := fun l m => IsLeastOf m (window p l)) (fun l hl => ?_) hx).imp fun os => Exists.imp fun sf =>
    Exists.imp fun s0 => And.imp_right fun ⟨hl, h⟩ => ⟨hl, fun i hi => ?_⟩
  · rw [window_map]; exact redMin_ext (window_ne_nil hp hl)
  · have := h i hi
    have e : window p (xs.take (i + 1)) = ((xs.take (i + 1)).drop (i + 1 - p)).reverse := by
      rw [window, List.take_reverse, List.length_take, Nat.min_eq_left (by omega)]
    rw [e] at this
    exact ⟨by simpa using this.1, fun x hx => this.2 x (by simpa using hx)⟩
example := C21_local_min_infinite (K := ℚ) (p := 2) (by norm_num) (xs := [⊤, ((3 : ℚ) : WithTop ℚ), ⊥]) (by simp)

/-- the maximum of the last `min (i + 1) p` inputs. -/
theorem C21_local_max_infinite {p : Nat} (hp : 0 < p) {xs : List (WithBot (WithTop K))} (hx : xs ≠ []) :
    ∃ os sf s0, call (LocalMaximum (p : Int)) (extSeries xs) none = .ok (extSeries os, sf, s0) ∧ ∃ hl : os.length = xs.length,
      ∀ i (hi : i < xs.length), IsGreatestOf os[i] ((xs.take (i + 1)).drop (i + 1 - p)) := by
  refine (ext_at (C21_local_max_streams hp) (P := fun l m => IsGreatestOf m (window p l)) (fun l hl => ?_) hx).imp fun os => Exists.imp fun sf =>
    Exists.imp fun s0 => And.imp_right fun ⟨hl, h⟩ => ⟨hl, fun i hi => ?_⟩
  · rw [window_map]; exact redMax_ext (window_ne_nil hp hl)
  · have := h i hi
    have e : window p (xs.take (i + 1)) = ((xs.take (i + 1)).drop (i + 1 - p)).reverse := by
      rw [window, List.take_reverse, List.length_take, Nat.min_eq_left (by omega)]
    rw [e] at this
    exact ⟨by simpa using this.1, fun x hx => this.2 x (by simpa using hx)⟩
example := C21_local_max_infinite (K := ℚ) (p := 2) (by norm_num) (xs := [⊥, ((3 : ℚ) : WithTop ℚ), ⊤]) (by simp)

end TS
