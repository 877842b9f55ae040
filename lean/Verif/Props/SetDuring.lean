import Verif.Props.Common
import Verif.Lemmas.MetaRegular
/-
C18: which values and series SetDuring accepts.
-/
namespace TS
open PyVal
variable {α : Type}

/-- A bool tensor of the same shape with every element equal to `c`. -/
def fillB (c : Bool) : Leaf α → Leaf α
  | .b t => .b ⟨t.shape, fun _ => c⟩
  | l => l

theorem fillB_sig (c : Bool) (l : Leaf α) : (fillB c l).sig = l.sig := by cases l <;> rfl

theorem setLeaf_b {c : Bool} {b : Bool} {t : Tensor Bool} : setLeaf (.b (Tensor.scalar c) : Leaf α) b (.b t) = .ok (if b then fillB c (.b t) else .b t) := by
  cases b <;> simp [setLeaf, Tensor.asShape, fillB]

/-- **C18** with a bool value, on bool tensors. -/
theorem C18_setDuring_bool (c : Bool) (period k : Int) {v : Val α} {xs : List (Val α)} (hw : v.WF) (hl : flatten v ≠ []) (hin : IsSeries v xs) (hx : xs ≠ [])
    (hd : ∀ l ∈ flatten v, l.dtype = .ok .bool) {st : Option (Val α)} (hst : st = some (.tup [vI k]) ∨ st = none ∧ k = 0) :
    ∃ z, call (SetDuring (.b (Tensor.scalar c)) period) v st = .ok (z, .tup [vI (k + xs.length)], .tup [vI k]) ∧
      IsSeries z (xs.mapIdx fun i x => if k + i < period then x.map (fillB c) else x) :=
  setDuring_call hw hl hin hx (fun x hx b l hl => by
    have := slice_dtype hin hd x hx l hl
    cases l <;> simp [Leaf.dtype] at this
    exact setLeaf_b) (fillB_sig c) (slice_sig hin) period k hst
/-- a series of bools -/
abbrev vBBuf (l : List Bool) : Val α := .leaf (.b (Tensor.pack [] (l.map fun b _ => b)))
theorem isSeries_vBBuf (l : List Bool) : IsSeries (vBBuf l : Val α) (l.map vB) := by
  have := (isSeries_leaf (α := α) (t := .b (Tensor.pack [] (l.map fun n _ => n))) (ls := l.map fun x => .b ⟨[], fun _ => x⟩)).2
    ⟨by simp [Leaf.size0], fun i hi => by
      simp [Leaf.index, Tensor.index_pack [] (l.map fun n _ => n) i (by simpa using hi)]⟩
  simpa [Function.comp_def] using this
example := C18_setDuring_bool (α := XR ℚ) true 2 1 (v := vBBuf [false, true, false]) (xs := [vB false, vB true, vB false]) (by simp [vBBuf]) (by simp [vBBuf, flatten])
  (by simpa using isSeries_vBBuf (α := XR ℚ) [false, true, false]) (by simp) (by simp [flatten, vBBuf, Leaf.dtype]) (.inl rfl)

theorem setLeaf_accepts {value l r : Leaf α} {b : Bool} (h : setLeaf value b l = .ok r) : value.shape = .ok [] ∧ ∃ d, value.dtype = .ok d ∧ l.dtype = .ok d := by
  have key : ∀ {β : Type} {t : Tensor β} {f : (Idx [] → β) → Leaf α}, (do let v ← t.asShape []; Except.ok (f v) : Res (Leaf α)) = .ok r → t.shape = [] := by
    intro β t f h
    simp only [bind_eq_ok, Tensor.asShape] at h
    obtain ⟨v, h, -⟩ := h
    split at h
    · assumption
    · simp at h
  cases value <;> cases l <;> simp only [setLeaf, reduceCtorEq] at h
  all_goals exact ⟨congrArg Except.ok (key h), _, rfl, rfl⟩

/-- **C18, what is accepted**: a fresh `SetDuring(value, period)` streams over a series exactly when the value is a scalar and all tensors of the series have its dtype, whatever the period. -/
theorem C18_setDuring_accepts (value : Leaf α) (period : Int) {v : Val α} {xs : List (Val α)} (hw : v.WF) (hl : flatten v ≠ []) (hin : IsSeries v xs) (hx : xs ≠ []) :
    (∃ r, call (SetDuring value period) v none = .ok r) ↔ value.shape = .ok [] ∧ ∃ d, value.dtype = .ok d ∧ ∀ l ∈ flatten v, l.dtype = .ok d := by
  constructor
  · rintro ⟨r, h⟩
    have ht := (call_ok_tensors hw (by simp) h).1
    rw [call_eq true hw ht (by simp), if_pos rfl, callStreamed_eq hw hl hin hx] at h
    simp only [bind_eq_ok] at h
    obtain ⟨⟨o0, n0, i0⟩, h0, -⟩ := h
    have hm := List.head_mem hx
    obtain ⟨it, -, h2, -, -⟩ := setDuring_ok (hin.mem_WF hw _ hm) h0
    rw [traverse_eq_ok_iff] at h2
    obtain ⟨h3, h4⟩ := mapM_eq_ok_iff_get.1 h2.2
    obtain ⟨i, hi⟩ := hin.mem hm
    obtain ⟨hs, hsl⟩ := sliceAt_ok.1 hi
    obtain ⟨h5, h6⟩ := mapM_eq_ok_iff_get.1 hsl
    have hd : ∀ k (hk : k < (flatten v).length), value.shape = .ok [] ∧ ∃ d, value.dtype = .ok d ∧ (flatten v)[k].dtype = .ok d := fun k hk => by
      obtain ⟨g1, d, g2, g3⟩ := setLeaf_accepts (h4 k (by omega))
      refine ⟨g1, d, g2, ?_⟩
      obtain ⟨d', s', ⟨n, e1⟩, e2⟩ := Leaf.index_sig (h6 k hk)
      generalize (flatten v)[k] = a at e1 ⊢
      generalize (flatten (xs.head hx))[k] = a' at e2 g3
      cases a <;> cases a' <;> simp_all [Leaf.sig, Leaf.dtype]
    have hpos := List.length_pos_iff.2 hl
    obtain ⟨g1, d, g2, -⟩ := hd 0 hpos
    refine ⟨g1, d, g2, fun l hl => ?_⟩
    obtain ⟨k, hk, rfl⟩ := List.getElem_of_mem hl
    obtain ⟨-, d', g3, g4⟩ := hd k hk
    rw [g3] at g2
    rw [g4, g2]
  · rintro ⟨hsh, d, hd, hv⟩
    cases value with
    | f t =>
      obtain ⟨s, t⟩ := t
      cases hsh; cases hd
      obtain ⟨z, h, -⟩ := C18_setDuring (t ()) period 0 hw hl hin hx hv (.inr ⟨rfl, rfl⟩)
      exact ⟨_, h⟩
    | i t =>
      obtain ⟨s, t⟩ := t
      cases hsh; cases hd
      obtain ⟨z, h, -⟩ := C18_setDuring_int (t ()) period 0 hw hl hin hx hv (.inr ⟨rfl, rfl⟩)
      exact ⟨_, h⟩
    | b t =>
      obtain ⟨s, t⟩ := t
      cases hsh; cases hd
      obtain ⟨z, h, -⟩ := C18_setDuring_bool (t ()) period 0 hw hl hin hx hv (.inr ⟨rfl, rfl⟩)
      exact ⟨_, h⟩
    | gen => cases hd
/-- an int value on a series of floats is not accepted, a float value is -/
example : ¬ ∃ r, call (SetDuring (.i (Tensor.scalar 0)) 2 : Operator (XR ℚ)) (series [3, 5, 1]) none = .ok r := by
  rw [C18_setDuring_accepts _ _ (nums_ok _).1 (nums_ok _).2.1 (nums_ok _).2.2 (by simp)]
  rintro ⟨-, d, ⟨⟩, h⟩
  exact absurd (h _ (by simp [series, vSBuf, flatten]; rfl)) (by simp [Leaf.dtype])
example := C18_setDuring_accepts (.f (Tensor.scalar (XR.fin 7))) 2 (v := series [3, 5, 1]) (nums_ok _).1 (nums_ok _).2.1 (nums_ok _).2.2 (by simp)

end TS
