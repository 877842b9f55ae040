import Verif.Props.Common
/-
C20, C21: the extremum operators on series of ints.
-/
namespace TS
open PyVal
variable {α : Type}

section
variable [TFNum α]

theorem ints_ok (l : List Int) : (vIBuf l : Val α).WF ∧ flatten (vIBuf l : Val α) ≠ [] ∧ IsSeries (vIBuf l : Val α) (l.map vI) :=
  ⟨by simp, by simp, isSeries_vIBuf l⟩

theorem redMinInt_least {l : List Int} (hl : l ≠ []) : IsLeastOf (redMinInt l) l := by
  induction l with
  | nil => exact absurd rfl hl
  | cons x l ih =>
    cases l with
    | nil => exact ⟨by simp [redMinInt], by simp [redMinInt]⟩
    | cons y l =>
      obtain ⟨h1, h2⟩ := ih (by simp)
      rw [show redMinInt (x :: y :: l) = min x (redMinInt (y :: l)) from rfl]
      refine ⟨?_, fun z hz => ?_⟩
      · rcases min_choice x (redMinInt (y :: l)) with h | h <;> rw [h]
        · simp
        · exact List.mem_cons_of_mem _ h1
      · rcases List.mem_cons.1 hz with rfl | hz
        · exact min_le_left _ _
        · exact (min_le_right _ _).trans (h2 z hz)

theorem redMaxInt_greatest {l : List Int} (hl : l ≠ []) : IsGreatestOf (redMaxInt l) l := by
  induction l with
  | nil => exact absurd rfl hl
  | cons x l ih =>
    cases l with
    | nil => exact ⟨by simp [redMaxInt], by simp [redMaxInt]⟩
    | cons y l =>
      obtain ⟨h1, h2⟩ := ih (by simp)
      rw [show redMaxInt (x :: y :: l) = max x (redMaxInt (y :: l)) from rfl]
      refine ⟨?_, fun z hz => ?_⟩
      · rcases max_choice x (redMaxInt (y :: l)) with h | h <;> rw [h]
        · simp
        · exact List.mem_cons_of_mem _ h1
      · rcases List.mem_cons.1 hz with rfl | hz
        · exact le_max_left _ _
        · exact (h2 z hz).trans (le_max_right _ _)

/-- smallest int so far, 0 in the beginning -/
def leastInt (l : List Int) : Int := if l = [] then 0 else redMinInt l

/-- largest int so far, 0 in the beginning -/
def greatestInt (l : List Int) : Int := if l = [] then 0 else redMaxInt l

theorem leastOf_unique {l : List Int} {m m' : Int} (h : IsLeastOf m l) (h' : IsLeastOf m' l) : m = m' := le_antisymm (h.2 _ h'.1) (h'.2 _ h.1)
theorem greatestOf_unique {l : List Int} {m m' : Int} (h : IsGreatestOf m l) (h' : IsGreatestOf m' l) : m = m' := le_antisymm (h'.2 _ h.1) (h.2 _ h'.1)

theorem leastInt_snoc (h : List Int) (x : Int) : leastInt (h ++ [x]) = if h.isEmpty || decide (x < leastInt h) then x else leastInt h := by
  refine leastOf_unique (l := h ++ [x]) ?_ ?_
  · rw [leastInt, if_neg (by simp)]; exact redMinInt_least (by simp)
  · by_cases e : h = []
    · subst e; simp [IsLeastOf]
    · have hm := redMinInt_least e
      simp only [leastInt, if_neg e, List.isEmpty_eq_false_iff.2 e, Bool.false_or, decide_eq_true_eq]
      split
      · rename_i hlt
        exact ⟨by simp, fun z hz => by
          rcases List.mem_append.1 hz with hz | hz
          · exact hlt.le.trans (hm.2 z hz)
          · simp at hz; exact hz ▸ le_rfl⟩
      · rename_i hlt
        exact ⟨List.mem_append_left _ hm.1, fun z hz => by
          rcases List.mem_append.1 hz with hz | hz
          · exact hm.2 z hz
          · simp at hz; subst hz; omega⟩

theorem greatestInt_snoc (h : List Int) (x : Int) : greatestInt (h ++ [x]) = if h.isEmpty || decide (greatestInt h < x) then x else greatestInt h := by
  refine greatestOf_unique (l := h ++ [x]) ?_ ?_
  · rw [greatestInt, if_neg (by simp)]; exact redMaxInt_greatest (by simp)
  · by_cases e : h = []
    · subst e; simp [IsGreatestOf]
    · have hm := redMaxInt_greatest e
      simp only [greatestInt, if_neg e, List.isEmpty_eq_false_iff.2 e, Bool.false_or, decide_eq_true_eq]
      split
      · rename_i hlt
        exact ⟨by simp, fun z hz => by
          rcases List.mem_append.1 hz with hz | hz
          · exact (hm.2 z hz).trans hlt.le
          · simp at hz; exact hz ▸ le_rfl⟩
      · rename_i hlt
        exact ⟨List.mem_append_left _ hm.1, fun z hz => by
          rcases List.mem_append.1 hz with hz | hz
          · exact hm.2 z hz
          · simp at hz; subst hz; omega⟩

/-- From a function of the history on ints to outputs by index. -/
theorem ints_at {op : Operator α} {y : List Int → Int} (h : StreamsAs op vIBuf vIBuf y) {P : List Int → Int → Prop}
    (hy : ∀ l, l ≠ [] → P l (y l)) {xs : List Int} (hx : xs ≠ []) :
    ∃ os sf s0, call op (vIBuf xs) none = .ok (vIBuf os, sf, s0) ∧ ∃ hl : os.length = xs.length, ∀ i (hi : i < xs.length), P (xs.take (i + 1)) os[i] := by
  obtain ⟨os, sf, s0, h1, hl, h2⟩ := h.at hx
  exact ⟨os, sf, s0, h1, hl, fun i hi => by rw [h2 i hi]; exact hy _ (take_ne_nil hi)⟩

/-- **C20 Global extrema of ints**: the smallest int so far, -/
theorem C20_global_min_int {xs : List Int} (hx : xs ≠ []) :
    ∃ os sf s0, call (GlobalMinimum : Operator α) (vIBuf xs) none = .ok (vIBuf os, sf, s0) ∧ ∃ hl : os.length = xs.length,
      ∀ i (hi : i < xs.length), IsLeastOf os[i] (xs.take (i + 1)) :=
  ints_at ((globalI_tracks _ _ (y := leastInt) rfl leastInt_snoc).streams ints_ok isSeries_vIBuf fun _ => rfl) (P := fun l m => IsLeastOf m l)
    (fun l hl => by rw [leastInt, if_neg hl]; exact redMinInt_least hl) hx
example := C20_global_min_int (α := XR ℚ) (xs := [3, -1, 4]) (by simp)

/-- the largest int so far. -/
theorem C20_global_max_int {xs : List Int} (hx : xs ≠ []) :
    ∃ os sf s0, call (GlobalMaximum : Operator α) (vIBuf xs) none = .ok (vIBuf os, sf, s0) ∧ ∃ hl : os.length = xs.length,
      ∀ i (hi : i < xs.length), IsGreatestOf os[i] (xs.take (i + 1)) :=
  ints_at ((globalI_tracks _ _ (y := greatestInt) rfl greatestInt_snoc).streams ints_ok isSeries_vIBuf fun _ => rfl) (P := fun l m => IsGreatestOf m l)
    (fun l hl => by rw [greatestInt, if_neg hl]; exact redMaxInt_greatest hl) hx
example := C20_global_max_int (α := XR ℚ) (xs := [3, -1, 4]) (by simp)

theorem window_take_mem {p : Nat} {xs : List Int} {i : Nat} (hi : i < xs.length) : window p (xs.take (i + 1)) = ((xs.take (i + 1)).drop (i + 1 - p)).reverse := by
  rw [window, List.take_reverse, List.length_take, Nat.min_eq_left (by omega)]

/-- **C21 Local extrema of ints**: the smallest of the last `p` ints, -/
theorem C21_local_min_int {p : Nat} (hp : 0 < p) {xs : List Int} (hx : xs ≠ []) :
    ∃ os sf s0, call (LocalMinimum (p : Int) : Operator α) (vIBuf xs) none = .ok (vIBuf os, sf, s0) ∧ ∃ hl : os.length = xs.length,
      ∀ i (hi : i < xs.length), IsLeastOf os[i] ((xs.take (i + 1)).drop (i + 1 - p)) := by
  obtain ⟨os, sf, s0, h1, hl, h2⟩ := ints_at ((localExtremumI_tracks (α := α) Arith.redMin redMinInt hp).streams ints_ok isSeries_vIBuf fun _ => rfl)
    (P := fun l m => IsLeastOf m (window p l)) (fun l hl => redMinInt_least (window_ne_nil hp hl)) hx
  refine ⟨os, sf, s0, h1, hl, fun i hi => ?_⟩
  have := h2 i hi
  rw [window_take_mem hi] at this
  exact ⟨by simpa using this.1, fun x hx => this.2 x (by simpa using hx)⟩
example := C21_local_min_int (α := XR ℚ) (p := 2) (by norm_num) (xs := [3, -1, 4]) (by simp)

/-- the largest of the last `p` ints. -/
theorem C21_local_max_int {p : Nat} (hp : 0 < p) {xs : List Int} (hx : xs ≠ []) :
    ∃ os sf s0, call (LocalMaximum (p : Int) : Operator α) (vIBuf xs) none = .ok (vIBuf os, sf, s0) ∧ ∃ hl : os.length = xs.length,
      ∀ i (hi : i < xs.length), IsGreatestOf os[i] ((xs.take (i + 1)).drop (i + 1 - p)) := by
  obtain ⟨os, sf, s0, h1, hl, h2⟩ := ints_at ((localExtremumI_tracks (α := α) Arith.redMax redMaxInt hp).streams ints_ok isSeries_vIBuf fun _ => rfl)
    (P := fun l m => IsGreatestOf m (window p l)) (fun l hl => redMaxInt_greatest (window_ne_nil hp hl)) hx
  refine ⟨os, sf, s0, h1, hl, fun i hi => ?_⟩
  have := h2 i hi
  rw [window_take_mem hi] at this
  exact ⟨by simpa using this.1, fun x hx => this.2 x (by simpa using hx)⟩

end

example : output (call (GlobalMinimum (α := XR ℚ)) (vIBuf [3, 5, -2, 4]) none) = .ok (vIBuf [3, 3, -2, -2]) := by decide +kernel
example : output (call (GlobalMaximum (α := XR ℚ)) (vIBuf [-3, -5, -2, -4]) none) = .ok (vIBuf [-3, -3, -2, -2]) := by decide +kernel
example : output (call (LocalMinimum (α := XR ℚ) 2) (vIBuf [3, 5, 2, 4, 7]) none) = .ok (vIBuf [3, 3, 2, 2, 4]) := by decide +kernel
example : output (call (LocalMaximum (α := XR ℚ) 2) (vIBuf [-3, -5, -6, -4]) none) = .ok (vIBuf [-3, -3, -5, -4]) := by decide +kernel

end TS
