import Verif.Props.Stateless
import Verif.Spec.Broadcast
/-
C23: broadcasting in Add, Sub, Mul.
-/
namespace TS
open PyVal

theorem axis_padShape (n : Nat) (s : List Nat) (j : Nat) : axis (padShape n s) j = axis s j := by
  simp only [axis, padShape, List.reverse_append, List.reverse_replicate, List.getElem?_append, List.length_reverse]
  split
  · rfl
  · rename_i h
    rw [List.getElem?_eq_none (l := s.reverse) (by simpa using h), List.getElem?_replicate]
    split <;> rfl

theorem padShape_length {n : Nat} {s : List Nat} (h : s.length ≤ n) : (padShape n s).length = n := by simp [padShape]; omega

theorem axis_getElem {s : List Nat} {n i : Nat} (hn : s.length = n) (hi : i < n) : s[i]'(by omega) = axis s (n - 1 - i) := by
  subst hn
  rw [axis, List.getElem?_reverse (by omega), List.getElem?_eq_getElem (by omega), Option.getD_some]
  congr 1
  omega

theorem bcDim_iff {a b d : Nat} : bcDim a b = .ok d ↔ (a = b ∧ d = a) ∨ (a = 1 ∧ d = b) ∨ (b = 1 ∧ d = a) := by
  unfold bcDim
  split_ifs <;> simp <;> omega

theorem bcShape_iff {s t r : List Nat} : bcShape s t = .ok r ↔ Broadcasts s t r := by
  unfold bcShape Broadcasts
  simp only
  generalize hn : max s.length t.length = n
  have h1 : (padShape n s).length = n := padShape_length (by omega)
  have h2 : (padShape n t).length = n := padShape_length (by omega)
  have hz : ((padShape n s).zip (padShape n t)).length = n := by simp [h1, h2]
  rw [mapM_eq_ok_iff_get]
  constructor
  · rintro ⟨hl, h⟩
    refine ⟨by omega, fun j hj => ?_⟩
    have := h (n - 1 - j) (by omega)
    rw [List.getElem_zip, bcDim_iff, axis_getElem h1 (by omega), axis_getElem h2 (by omega), axis_getElem (s := r) (n := n) (by omega) (by omega)] at this
    simpa only [axis_padShape, show n - 1 - (n - 1 - j) = j by omega] using this
  · rintro ⟨hl, h⟩
    refine ⟨by omega, fun i hi => ?_⟩
    rw [List.getElem_zip, bcDim_iff, axis_getElem h1 (by omega), axis_getElem h2 (by omega), axis_getElem (s := r) (n := n) (by omega) (by omega)]
    simp only [axis_padShape]
    exact h _ (by omega)

theorem Idx.toList_length : (s : List Nat) → (c : Idx s) → (Idx.toList s c).length = s.length
  | [], _ => rfl
  | _ :: s, c => by simp [Idx.toList, Idx.toList_length s c.2]

theorem bcIdx_ok {r s : List Nat} (hs : s.length ≤ r.length) (h : ∀ j < s.length, axis s j = axis r j ∨ axis s j = 1) :
    ∃ g, bcIdx r s = .ok g ∧ ∀ c, Idx.toList s (g c) = readAt s (Idx.toList r c) := by
  induction r generalizing s with
  | nil =>
    obtain rfl : s = [] := by simpa using hs
    exact ⟨id, rfl, fun _ => rfl⟩
  | cons n r ih =>
    by_cases hl : s.length ≤ r.length
    · obtain ⟨g, h1, h2⟩ := ih hl fun j hj => by
        have := h j hj
        rwa [show axis (n :: r) j = axis r j by simp [axis, List.getElem?_append, show j < r.length by omega]] at this
      refine ⟨fun c => g c.2, by cases s <;> simp [bcIdx, h1] at hl ⊢; exact fun h => absurd h (by omega), fun c => ?_⟩
      rw [h2, readAt, readAt, Idx.toList, List.length_cons, Idx.toList_length, show r.length + 1 - s.length = r.length - s.length + 1 by omega, List.drop_succ_cons]
    · cases s with
      | nil => simp at hl
      | cons m s =>
        simp only [List.length_cons] at hs hl h
        have hsr : s.length = r.length := by omega
        obtain ⟨g, h1, h2⟩ := ih (s := s) hsr.le fun j hj => by
          have := h j (by omega)
          rwa [show axis (n :: r) j = axis r j by simp [axis, List.getElem?_append, show j < r.length by omega],
            show axis (m :: s) j = axis s j by simp [axis, List.getElem?_append, hj]] at this
        have h3 := h s.length (by omega)
        rw [show axis (m :: s) s.length = m by simp [axis], show axis (n :: r) s.length = n by simp [axis, hsr]] at h3
        rw [bcIdx, if_neg (by simpa using hl)]
        simp only [h1, ok_bind]
        have hr : ∀ i : Nat, ∀ c : Idx r, readAt (m :: s) (i :: Idx.toList r c) = (if m = 1 then 0 else i) :: readAt s (Idx.toList r c) := by
          intro i c
          simp [readAt, Idx.toList_length, hsr]
        by_cases hnm : n = m
        · subst hnm
          refine ⟨_, by rw [dif_pos rfl], fun c => ?_⟩
          simp only [Idx.toList, hr, h2]
          congr 1
          split
          · have := c.1.2
            show (c.1 : Nat) = 0
            omega
          · rfl
        · obtain rfl : m = 1 := by omega
          refine ⟨_, by rw [dif_neg hnm, dif_pos rfl], fun c => ?_⟩
          simp only [Idx.toList, hr, h2, if_true]

theorem broadcast_ok {β γ : Type} (f : β → β → γ) {s t r : List Nat} (h : Broadcasts s t r) :
    ∃ (g : Idx r → Idx s) (g' : Idx r → Idx t), (∀ c, Idx.toList s (g c) = readAt s (Idx.toList r c)) ∧ (∀ c, Idx.toList t (g' c) = readAt t (Idx.toList r c)) ∧
      ∀ x y, broadcast f ⟨s, x⟩ ⟨t, y⟩ = .ok ⟨r, fun c => f (x (g c)) (y (g' c))⟩ := by
  obtain ⟨hl, hd⟩ := h
  obtain ⟨g, h1, h2⟩ := bcIdx_ok (r := r) (s := s) (by omega) fun j hj => by have := hd j (by omega); omega
  obtain ⟨g', h3, h4⟩ := bcIdx_ok (r := r) (s := t) (by omega) fun j hj => by have := hd j (by omega); omega
  refine ⟨g, g', h2, h4, fun x y => ?_⟩
  simp [broadcast, bcShape_iff.2 ⟨hl, hd⟩, h1, h3]

variable {α : Type} {s t : List Nat}

theorem twoShapes_ok (l : List ((Idx s → α) × (Idx t → α))) :
    (.tup [vBuf (l.map Prod.fst), vBuf (l.map Prod.snd)] : Val α).WF ∧ flatten (.tup [vBuf (l.map Prod.fst), vBuf (l.map Prod.snd)] : Val α) ≠ [] ∧
      IsSeries (.tup [vBuf (l.map Prod.fst), vBuf (l.map Prod.snd)] : Val α) (l.map fun x => .tup [vF x.1, vF x.2]) := by
  refine ⟨by simp [WF_tup], by simp [flatten, flattens], ?_⟩
  exact isSeries_tup_map (A := (Idx s → α) × (Idx t → α)) (es := [fun x => vF x.1, fun x => vF x.2]) (.cons (rowSeries_map _ l) (.cons (rowSeries_map _ l) .nil))

theorem twoShapesInt_ok (l : List ((Idx s → Int) × (Idx t → Int))) :
    (.tup [vIsBuf (l.map Prod.fst), vIsBuf (l.map Prod.snd)] : Val α).WF ∧ flatten (.tup [vIsBuf (l.map Prod.fst), vIsBuf (l.map Prod.snd)] : Val α) ≠ [] ∧
      IsSeries (.tup [vIsBuf (l.map Prod.fst), vIsBuf (l.map Prod.snd)] : Val α) (l.map fun x => .tup [vIs x.1, vIs x.2]) := by
  refine ⟨by simp [WF_tup], by simp [flatten, flattens], ?_⟩
  exact isSeries_tup_map (A := (Idx s → Int) × (Idx t → Int)) (es := [fun x => vIs x.1, fun x => vIs x.2]) (.cons (intRowSeries_map _ l) (.cons (intRowSeries_map _ l) .nil))

/-- The operator streams over two series of tensors of the shapes `s` and `t`; at every step element `c` of the result is `f` of the elements at which
the operands are read; otherwise the call fails. -/
def Elementwise (op : Operator α) (β : Type) (enc : {s : List Nat} → List (Idx s → β) → Val α) (f : β → β → β) (s t : List Nat) : Prop :=
  ∀ l : List ((Idx s → β) × (Idx t → β)), l ≠ [] →
    (∀ r, Broadcasts s t r → ∃ os : List (Idx r → β), call op (.tup [enc (l.map Prod.fst), enc (l.map Prod.snd)]) none = .ok (enc os, PyVal.unit, PyVal.unit) ∧
      ∃ hl : os.length = l.length, ∀ j (hj : j < l.length) (c : Idx r), ∃ (i : Idx s) (k : Idx t),
        Idx.toList s i = readAt s (Idx.toList r c) ∧ Idx.toList t k = readAt t (Idx.toList r c) ∧ os[j] c = f (l[j].1 i) (l[j].2 k)) ∧
    ((¬ ∃ r, Broadcasts s t r) → ¬ ∃ z, call op (.tup [enc (l.map Prod.fst), enc (l.map Prod.snd)]) none = .ok z)

theorem lambda2_broadcast (ff : α → α → α) (fi : Int → Int → Int) :
    Elementwise (makeStreamable (lambda2 (arith2 ff fi)) : Operator α) α (fun l => vBuf l) ff s t ∧
    Elementwise (makeStreamable (lambda2 (arith2 ff fi)) : Operator α) Int (fun l => vIsBuf l) fi s t := by
  refine ⟨fun l hl => ⟨fun r hr => ?_, fun hr ⟨z, hz⟩ => hr ?_⟩, fun l hl => ⟨fun r hr => ?_, fun hr ⟨z, hz⟩ => hr ?_⟩⟩
  · obtain ⟨g, g', h1, h2, h3⟩ := broadcast_ok ff hr
    refine ⟨l.map fun x c => ff (x.1 (g c)) (x.2 (g' c)), call_stateless (twoShapes_ok l).1 (twoShapes_ok l).2.1 (twoShapes_ok l).2.2 (by simpa using hl)
      (Forall₂.of_map fun a _ => by simp [unpackArgs, lambda2, arith2, h3]) (rowSeries_map _ l) (by simp) (.inl rfl), by simp, fun j hj c =>
      ⟨g c, g' c, h1 c, h2 c, by simp⟩⟩
  · obtain ⟨x, l, rfl⟩ := List.exists_cons_of_ne_nil hl
    obtain ⟨o, ho⟩ := stateless_first (twoShapes_ok (x :: l)).1 (twoShapes_ok (x :: l)).2.2 hz
    cases hb : bcShape s t with
    | error e => simp [unpackArgs, lambda2, arith2, broadcast, hb] at ho
    | ok r => exact ⟨r, bcShape_iff.1 hb⟩
  · obtain ⟨g, g', h1, h2, h3⟩ := broadcast_ok fi hr
    refine ⟨l.map fun x c => fi (x.1 (g c)) (x.2 (g' c)), call_stateless (twoShapesInt_ok l).1 (twoShapesInt_ok l).2.1 (twoShapesInt_ok l).2.2 (by simpa using hl)
      (Forall₂.of_map fun a _ => by simp [unpackArgs, lambda2, arith2, h3]) (intRowSeries_map _ l) (by simp) (.inl rfl), by simp, fun j hj c =>
      ⟨g c, g' c, h1 c, h2 c, by simp⟩⟩
  · obtain ⟨x, l, rfl⟩ := List.exists_cons_of_ne_nil hl
    obtain ⟨o, ho⟩ := stateless_first (twoShapesInt_ok (x :: l)).1 (twoShapesInt_ok (x :: l)).2.2 hz
    cases hb : bcShape s t with
    | error e => simp [unpackArgs, lambda2, arith2, broadcast, hb] at ho
    | ok r => exact ⟨r, bcShape_iff.1 hb⟩

/-- **C23 Add, Sub, Mul** on operands of different shapes follow NumPy's rules of broadcasting, and fail on shapes that these rules do not combine. -/
theorem C23_broadcasting [TFNum α] (s t : List Nat) :
    (Elementwise (Add : Operator α) α (fun l => vBuf l) (· + ·) s t ∧ Elementwise (Sub : Operator α) α (fun l => vBuf l) (· - ·) s t ∧
      Elementwise (Mul : Operator α) α (fun l => vBuf l) (· * ·) s t) ∧
    (Elementwise (Add : Operator α) Int (fun l => vIsBuf l) (· + ·) s t ∧ Elementwise (Sub : Operator α) Int (fun l => vIsBuf l) (· - ·) s t ∧
      Elementwise (Mul : Operator α) Int (fun l => vIsBuf l) (· * ·) s t) :=
  ⟨⟨(lambda2_broadcast _ _).1, (lambda2_broadcast _ _).1, (lambda2_broadcast _ _).1⟩, (lambda2_broadcast _ _).2, (lambda2_broadcast _ _).2, (lambda2_broadcast _ _).2⟩

/-- matrices of shape (2, 1) and rows of shape (2): the sums have shape (2, 2) -/
example : call Sub (.tup [vBuf (s := [2, 1]) [fun c => XR.fin ([(5 : ℚ), 7].getD c.1 0)], matrix 2 [[1, 2]]]) none =
    .ok (vBuf (s := [2, 2]) [fun c => XR.fin (([[(4 : ℚ), 3], [6, 5]].getD c.1 []).getD c.2.1 0)], PyVal.unit, PyVal.unit) := by decide +kernel
example : (call Sub (.tup [matrix 3 [[1, 2, 3]], matrix 2 [[1, 2]]]) none).isOk = false := by decide +kernel

/-- shapes (2, 1, 3) and (4, 3) -/
example : Broadcasts [2, 1, 3] [4, 3] [2, 4, 3] := ⟨rfl, by decide⟩
example : ¬ ∃ r, Broadcasts [2, 3] [2, 4] r := by
  rintro ⟨r, h1, h2⟩
  have := h2 0 (by simp [h1])
  simp only [axis] at this
  simp at this

end TS
