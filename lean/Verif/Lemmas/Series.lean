import Verif.Lemmas.Call
/-
More facts about series: uniqueness, splitting, traces.
-/
namespace TS
open PyVal
variable {α β : Type}

theorem IsSeries.det {v : Val α} {xs ys : List (Val α)} (hl : flatten v ≠ []) (h : IsSeries v xs)
    (h' : IsSeries v ys) : xs = ys := by
  obtain ⟨l, hl⟩ := List.exists_mem_of_ne_nil _ hl
  have e := (h.size l hl).symm.trans (h'.size l hl)
  simp only [Except.ok.injEq] at e
  refine List.ext_getElem e fun i a b => ?_
  have := (h.slice i a).symm.trans (h'.slice i b)
  simpa using this

theorem flatten_ne_of_slice {v w : Val α} {i j : Nat} {x : Val α}
    (hx : sliceAt i v = .ok x) (hy : sliceAt j w = .ok x) (hw : flatten w ≠ []) : flatten v ≠ [] := by
  have e : v.skel = w.skel := by rw [← sliceAt_skel hx, sliceAt_skel hy]
  have := length_flatten_of_skel_eq e
  intro h0
  rw [h0] at this
  exact hw (List.length_eq_zero_iff.1 this.symm)

theorem IsSeries.sameType {v : Val α} {xs : List (Val α)} (h : IsSeries v xs) :
    ∀ x ∈ xs, ∀ y ∈ xs, SameType x y := by
  obtain ⟨ty, hty⟩ := tensors_iff.1 h.tensors
  intro x hx y hy
  obtain ⟨i, hi⟩ := h.mem hx
  obtain ⟨j, hj⟩ := h.mem hy
  exact (((HasType_sliceAt hj ty).2 hty).sameType).1 ((HasType_sliceAt hi ty).2 hty)

/-- `m` slices starting at `k`. -/
def Tensor.sub (k m : Nat) (t : Tensor β) : Res (Tensor β) :=
  match t with
  | ⟨[], _⟩ => .error .valueError
  | ⟨n :: s, v⟩ => if h : k + m ≤ n then .ok ⟨m :: s, fun c => v (⟨k + c.1, by omega⟩, c.2)⟩ else .error .indexError

def Leaf.sub (k m : Nat) : Leaf α → Res (Leaf α)
  | .f t => .f <$> t.sub k m
  | .i t => .i <$> t.sub k m
  | .b t => .b <$> t.sub k m
  | .gen => .error .typeError

theorem Tensor.sub_spec {k m n : Nat} {t : Tensor β} (h : t.size0 = .ok n) (hn : k + m ≤ n) :
    ∃ t', t.sub k m = .ok t' ∧ t'.size0 = .ok m ∧ ∀ i < m, t'.index i = t.index (k + i) := by
  obtain ⟨s, v⟩ := t
  cases s with
  | nil => simp [Tensor.size0] at h
  | cons n' s =>
    simp only [Tensor.size0, Except.ok.injEq] at h
    subst h
    refine ⟨_, dif_pos hn, rfl, fun i hi => ?_⟩
    simp [Tensor.index, hi, show k + i < n' by omega]

theorem Leaf.sub_spec {k m n : Nat} {l : Leaf α} (h : l.size0 = .ok n) (hn : k + m ≤ n) :
    ∃ l', l.sub k m = .ok l' ∧ l'.size0 = .ok m ∧ ∀ i < m, l'.index i = l.index (k + i) := by
  cases l with
  | gen => simp [Leaf.size0] at h
  | f t =>
    obtain ⟨t', h1, h2, h3⟩ := Tensor.sub_spec (t := t) h hn
    exact ⟨.f t', by simp [Leaf.sub, h1], h2, fun i hi => by simp [Leaf.index, h3 i hi]⟩
  | i t =>
    obtain ⟨t', h1, h2, h3⟩ := Tensor.sub_spec (t := t) h hn
    exact ⟨.i t', by simp [Leaf.sub, h1], h2, fun i hi => by simp [Leaf.index, h3 i hi]⟩
  | b t =>
    obtain ⟨t', h1, h2, h3⟩ := Tensor.sub_spec (t := t) h hn
    exact ⟨.b t', by simp [Leaf.sub, h1], h2, fun i hi => by simp [Leaf.index, h3 i hi]⟩

/-- A contiguous part of a series is a series. -/
theorem IsSeries.exists_sub {v : Val α} {a b c : List (Val α)} (h : IsSeries v (a ++ b ++ c)) (hb : b ≠ []) :
    ∃ w, IsSeries w b ∧ w.skel = v.skel := by
  have hsz : ∀ l ∈ flatten v, ∃ l', l.sub a.length b.length = .ok l' ∧ l'.size0 = .ok b.length ∧
      ∀ i < b.length, l'.index i = l.index (a.length + i) := fun l hl =>
    Leaf.sub_spec (h.size l hl) (by simp)
  choose! f hf using hsz
  refine ⟨v.map f, ⟨?_, fun i hi => ?_⟩, by simp⟩
  · intro l hl
    rw [flatten_map] at hl
    obtain ⟨l0, h0, rfl⟩ := List.mem_map.1 hl
    exact (hf l0 h0).2.1
  · have hs := h.slice (a.length + i) (by simp; omega)
    rw [sliceAt_ok] at hs ⊢
    have e : (a ++ b ++ c)[a.length + i]'(by simp; omega) = b[i] := by
      rw [List.getElem_append_left (by simp; omega), List.getElem_append_right (by omega)]
      simp
    rw [e] at hs
    refine ⟨by simpa using hs.1, ?_⟩
    obtain ⟨h1, h2⟩ := mapM_eq_ok_iff_get.1 hs.2
    rw [flatten_map, mapM_eq_ok_iff_get]
    refine ⟨by simpa using h1, fun j hj => ?_⟩
    simp only [List.length_map] at hj
    simp only [List.getElem_map]
    rw [(hf _ (List.getElem_mem hj)).2.2 i hi, h2 j hj]

theorem stepAll_append {op : Operator α} {a b : List (Val α)} {s : Val α} {tr} :
    stepAll op (a ++ b) s = .ok tr ↔ ∃ t1 t2, stepAll op a s = .ok t1 ∧ stepAll op b (lastState s t1) = .ok t2 ∧
      tr = t1 ++ t2 := by
  induction a generalizing s tr with
  | nil =>
    constructor
    · intro h; exact ⟨[], tr, rfl, h, rfl⟩
    · rintro ⟨t1, t2, h1, h2, rfl⟩
      simp only [stepAll, Except.ok.injEq] at h1
      subst h1
      exact h2
  | cons x a ih =>
    rw [List.cons_append, stepAll_cons_ok]
    constructor
    · rintro ⟨o, n, i, tr', h1, h2, rfl⟩
      obtain ⟨t1, t2, h3, h4, rfl⟩ := ih.1 h2
      exact ⟨(o, n) :: t1, t2, stepAll_cons_ok.2 ⟨o, n, i, t1, h1, h3, rfl⟩, by simpa using h4, rfl⟩
    · rintro ⟨t1, t2, h1, h2, rfl⟩
      obtain ⟨o, n, i, t1', h3, h4, rfl⟩ := stepAll_cons_ok.1 h1
      exact ⟨o, n, i, t1' ++ t2, h3, ih.2 ⟨t1', t2, h4, by simpa using h2, rfl⟩, rfl⟩

theorem stepAll_length {op : Operator α} {a : List (Val α)} {s : Val α} {tr} (h : stepAll op a s = .ok tr) :
    tr.length = a.length := by
  induction a generalizing s tr with
  | nil => simp [stepAll] at h; simp [← h]
  | cons x a ih =>
    obtain ⟨o, n, i, t1', h3, h4, rfl⟩ := stepAll_cons_ok.1 h
    simp [ih h4]

theorem lastState_eq_of_getLast? {s sf : Val α} {tr : List (Val α × Val α)}
    (h : (tr.map (·.2)).getLast? = some sf) : lastState s tr = sf := by
  rw [lastState, h]; rfl

theorem getLast?_eq_lastState {s : Val α} {tr : List (Val α × Val α)} (h : tr ≠ []) :
    (tr.map (·.2)).getLast? = some (lastState s tr) := by
  have : tr.map (·.2) ≠ [] := by simpa using h
  rw [lastState, List.getLast?_eq_some_getLast this]; rfl

theorem stepAll_take {op : Operator α} {a b : List (Val α)} {s : Val α} {t1 t2} {k : Nat}
    (h1 : stepAll op a s = .ok t1) (h2 : stepAll op b s = .ok t2) (hab : a.take k = b.take k) :
    t1.take k = t2.take k := by
  induction k generalizing a b s t1 t2 with
  | zero => simp
  | succ k ih =>
    cases a with
    | nil =>
      have : b = [] := by cases b <;> simp_all
      subst this
      simp only [stepAll, Except.ok.injEq] at h1 h2
      simp [← h1, ← h2]
    | cons x a =>
      cases b with
      | nil => simp at hab
      | cons y b =>
        simp only [List.take_succ_cons, List.cons.injEq] at hab
        obtain ⟨rfl, hab⟩ := hab
        obtain ⟨o, n, i, t1', h3, h4, rfl⟩ := stepAll_cons_ok.1 h1
        obtain ⟨o', n', i', t2', h5, h6, rfl⟩ := stepAll_cons_ok.1 h2
        rw [h3] at h5
        simp only [Except.ok.injEq, Prod.mk.injEq] at h5
        obtain ⟨rfl, rfl, rfl⟩ := h5
        simp [ih h4 h6 hab]

end TS
