import Verif.Lemmas.CallStreamed
/-
`__call__` in terms of slices and single steps.
-/
namespace TS
open PyVal
variable {α : Type}

theorem toTensors_eq_ok {v w : Val α} (hv : v.WF) : toTensors v = .ok w ↔ w = v ∧ Tensors v := by
  rw [toTensors, mapFn_fn1_self _ _ hv, traverse_eq_ok_iff, mapM_eq_ok_iff_get]
  have key : ∀ l l' : Leaf α, l.toTensor = .ok l' ↔ l' = l ∧ l ≠ .gen := by
    intro l l'; cases l <;> simp [Leaf.toTensor, eq_comm]
  constructor
  · rintro ⟨h1, h2, h3⟩
    refine ⟨eq_of_skel_of_flatten _ _ h1 (List.ext_getElem (by omega) fun i a b => ((key _ _).1 (h3 i b)).1),
      fun l hl => ?_⟩
    obtain ⟨i, hi, rfl⟩ := List.mem_iff_getElem.1 hl
    exact ((key _ _).1 (h3 i hi)).2
  · rintro ⟨rfl, h⟩
    exact ⟨rfl, rfl, fun i hi => (key _ _).2 ⟨rfl, h _ (List.getElem_mem _)⟩⟩

theorem toTensors_ok {v : Val α} (hv : v.WF) (ht : Tensors v) : toTensors v = .ok v :=
  (toTensors_eq_ok hv).2 ⟨rfl, ht⟩

theorem HasType_iff {v : Val α} {ty : PyVal DType} : HasType v ty ↔ v.map Leaf.dtype = ty.map Except.ok := by
  rw [HasType, mapM_eq_ok_iff_get]
  constructor
  · rintro ⟨h1, h2, h3⟩
    refine eq_of_skel_of_flatten _ _ (by simp [h1]) ?_
    rw [flatten_map, flatten_map]
    refine List.ext_getElem (by simp [h2]) fun i a b => ?_
    simp only [List.getElem_map]
    exact h3 i (by simpa using a)
  · intro h
    have h1 := congrArg PyVal.skel h
    have h2 := congrArg flatten h
    simp only [skel_map] at h1
    rw [flatten_map, flatten_map] at h2
    have hl := congrArg List.length h2
    simp only [List.length_map] at hl
    refine ⟨h1, hl, fun i hi => ?_⟩
    have := congrArg (·[i]?) h2
    simpa [hi, hl ▸ hi] using this

theorem tensors_iff {v : Val α} : Tensors v ↔ ∃ ty, HasType v ty := by
  constructor
  · intro h
    refine ⟨v.map fun l => match l with | .f _ => .float | .i _ => .int | .b _ => .bool | .gen => .float, ?_⟩
    rw [HasType_iff, map_map]
    refine PyVal.map_congr _ fun l hl => ?_
    have := h l hl
    cases l <;> simp_all [Leaf.dtype]
  · rintro ⟨ty, h⟩ l hl rfl
    obtain ⟨i, hi, e⟩ := List.mem_iff_getElem.1 hl
    obtain ⟨_, h2⟩ := mapM_eq_ok_iff_get.1 h.2
    have := h2 i hi
    rw [e] at this
    simp [Leaf.dtype] at this

theorem HasType.sameType {v w : Val α} {ty : PyVal DType} (h : HasType v ty) : HasType w ty ↔ SameType w v := by
  rw [HasType_iff] at h ⊢
  rw [SameType, h]

theorem IsSeries.tensors {v : Val α} {xs : List (Val α)} (h : IsSeries v xs) : Tensors v := by
  rintro l hl rfl
  have := h.size _ hl
  simp [Leaf.size0] at this

theorem sliceAt_tensors {i : Nat} {v w : Val α} (h : sliceAt i v = .ok w) (hv : Tensors v) : Tensors w := by
  obtain ⟨ty, hty⟩ := tensors_iff.1 hv
  exact tensors_iff.2 ⟨ty, (HasType_sliceAt h ty).2 hty⟩

theorem IsSeries.mem {v : Val α} {xs : List (Val α)} (h : IsSeries v xs) {x : Val α} (hx : x ∈ xs) :
    ∃ i, sliceAt i v = .ok x := by
  obtain ⟨i, hi, rfl⟩ := List.mem_iff_getElem.1 hx
  exact ⟨i, h.slice i hi⟩

theorem IsSeries.mem_tensors {v : Val α} {xs : List (Val α)} (h : IsSeries v xs) : ∀ x ∈ xs, Tensors x := by
  intro x hx
  obtain ⟨i, hi⟩ := h.mem hx
  exact sliceAt_tensors hi h.tensors

theorem IsSeries.mem_WF {v : Val α} {xs : List (Val α)} (h : IsSeries v xs) (hv : v.WF) : ∀ x ∈ xs, x.WF := by
  intro x hx
  obtain ⟨i, hi⟩ := h.mem hx
  exact (sliceAt_WF hi).2 hv

theorem call_eq {op : Operator α} {x : Val α} {st : Option (Val α)} (b : Bool) (hx : x.WF) (ht : Tensors x)
    (hs : ∀ s ∈ st, s.WF ∧ Tensors s) :
    call op x st b = if b then callStreamed op x st else op.forwardStep x st := by
  cases st with
  | none => simp [call, toTensors_ok hx ht]
  | some s =>
    obtain ⟨h1, h2⟩ := hs s rfl
    simp [call, toTensors_ok hx ht, toTensors_ok h1 h2]

theorem call_ok_tensors {op : Operator α} {x : Val α} {st : Option (Val α)} {b : Bool} {r : Step α} (hx : x.WF)
    (hs : ∀ s ∈ st, s.WF) (h : call op x st b = .ok r) : Tensors x ∧ ∀ s ∈ st, Tensors s := by
  simp only [call, bind_eq_ok] at h
  obtain ⟨x', h1, h2⟩ := h
  refine ⟨((toTensors_eq_ok hx).1 h1).2, ?_⟩
  cases st with
  | none => simp
  | some s =>
    simp only [bind_eq_ok] at h2
    obtain ⟨s'', h2, _⟩ := h2
    simpa using ((toTensors_eq_ok (hs s rfl)).1 h2).2

/-- The state after the steps of a trace. -/
def lastState (s : Val α) (tr : List (Val α × Val α)) : Val α := ((tr.map (·.2)).getLast?).getD s

@[simp] theorem lastState_nil (s : Val α) : lastState s [] = s := rfl
@[simp] theorem lastState_cons (s : Val α) (e : Val α × Val α) (tr) :
    lastState s (e :: tr) = lastState e.2 tr := by
  cases tr <;> simp [lastState, List.getLast?_cons]

theorem stepAll_cons_ok {op : Operator α} {x : Val α} {xs : List (Val α)} {s : Val α} {tr} :
    stepAll op (x :: xs) s = .ok tr ↔ ∃ o n i tr', call op x (some s) false = .ok (o, n, i) ∧
      stepAll op xs n = .ok tr' ∧ tr = (o, n) :: tr' := by
  simp only [stepAll, bind_eq_ok, Except.ok.injEq]
  constructor
  · rintro ⟨⟨o, n, i⟩, h1, tr', h2, rfl⟩; exact ⟨o, n, i, tr', h1, h2, rfl⟩
  · rintro ⟨o, n, i, tr', h1, h2, rfl⟩; exact ⟨(o, n, i), h1, tr', h2, rfl⟩

theorem stepsTyped_iff {op : Operator α} (hsane : op.Sane) {ty : PyVal DType} {xs : List (Val α)} {s : Val α}
    (hx : ∀ x ∈ xs, x.WF ∧ Tensors x) (hs : s.WF) (hty : HasType s ty) {os : List (Val α)} {sf : Val α} :
    stepsTyped op ty xs s = .ok (os, sf) ↔ ∃ tr, stepAll op xs s = .ok tr ∧ (∀ e ∈ tr, HasType e.2 ty) ∧
      os = tr.map (·.1) ∧ sf = lastState s tr := by
  induction xs generalizing s os with
  | nil =>
    simp only [stepsTyped, stepAll, Except.ok.injEq, Prod.mk.injEq]
    constructor
    · rintro ⟨rfl, rfl⟩; exact ⟨[], by simp⟩
    · rintro ⟨tr, rfl, _, rfl, rfl⟩; simp
  | cons x xs ih =>
    have hst : Tensors s := tensors_iff.2 ⟨ty, hty⟩
    obtain ⟨hxw, hxt⟩ := hx x (by simp)
    have hc : call op x (some s) false = op.forwardStep x (some s) := by
      rw [call_eq false hxw hxt (by simpa using ⟨hs, hst⟩)]; rfl
    rw [stepsTyped_cons_ok]
    constructor
    · rintro ⟨o, n, i, os', h1, h2, h3, rfl⟩
      obtain ⟨_, hn, _⟩ := hsane _ _ _ _ _ hxw (by simpa using hs) h1
      have h2 := (toType_ok hn).1 h2
      obtain ⟨tr, a, b, rfl, rfl⟩ := (ih (fun y hy => hx y (by simp [hy])) hn h2).1 h3
      exact ⟨(o, n) :: tr, stepAll_cons_ok.2 ⟨o, n, i, tr, hc.trans h1, a, rfl⟩,
        by simpa using ⟨h2, fun a b h => by simpa using ‹∀ e ∈ tr, HasType e.2 ty› _ h⟩, by simp, by simp⟩
    · rintro ⟨tr, h1, h2, rfl, rfl⟩
      obtain ⟨o, n, i, tr', a, b, rfl⟩ := stepAll_cons_ok.1 h1
      rw [hc] at a
      obtain ⟨_, hn, _⟩ := hsane _ _ _ _ _ hxw (by simpa using hs) a
      have hnt : HasType n ty := h2 (o, n) (by simp)
      exact ⟨o, n, i, tr'.map (·.1), a, (toType_ok hn).2 hnt,
        (ih (fun y hy => hx y (by simp [hy])) hn hnt).2 ⟨tr', b, fun e he => h2 e (by simp [he]), rfl, by simp⟩, by simp⟩

theorem Leaf.index_ok {l : Leaf α} {n i : Nat} (h : l.size0 = .ok n) (hi : i < n) : ∃ l', l.index i = .ok l' := by
  cases l with
  | gen => simp [Leaf.size0] at h
  | f t =>
    obtain ⟨s, v⟩ := t
    cases s with
    | nil => simp [Leaf.size0, Tensor.size0] at h
    | cons m s => simp [Leaf.size0, Tensor.size0] at h; subst h; simp [Leaf.index, Tensor.index, hi]
  | i t =>
    obtain ⟨s, v⟩ := t
    cases s with
    | nil => simp [Leaf.size0, Tensor.size0] at h
    | cons m s => simp [Leaf.size0, Tensor.size0] at h; subst h; simp [Leaf.index, Tensor.index, hi]
  | b t =>
    obtain ⟨s, v⟩ := t
    cases s with
    | nil => simp [Leaf.size0, Tensor.size0] at h
    | cons m s => simp [Leaf.size0, Tensor.size0] at h; subst h; simp [Leaf.index, Tensor.index, hi]

theorem Tensor.index_lt {β : Type} {t t' : Tensor β} {n i : Nat} (h : t.size0 = .ok n) (h0 : t.index i = .ok t') :
    i < n := by
  obtain ⟨s, v⟩ := t
  cases s with
  | nil => simp [Tensor.size0] at h
  | cons m s =>
    simp only [Tensor.size0, Except.ok.injEq] at h
    subst h
    by_contra hc
    simp [Tensor.index, hc] at h0

theorem Leaf.index_lt {l l' : Leaf α} {n i : Nat} (h : l.size0 = .ok n) (h0 : l.index i = .ok l') : i < n := by
  cases l with
  | gen => simp [Leaf.size0] at h
  | f t =>
    cases ht : t.index i with
    | error e => simp [Leaf.index, ht] at h0
    | ok t' => exact Tensor.index_lt h ht
  | i t =>
    cases ht : t.index i with
    | error e => simp [Leaf.index, ht] at h0
    | ok t' => exact Tensor.index_lt h ht
  | b t =>
    cases ht : t.index i with
    | error e => simp [Leaf.index, ht] at h0
    | ok t' => exact Tensor.index_lt h ht

/-- A value all of whose leaves have leading dimension `n` is a series of length `n`. -/
theorem exists_isSeries {v : Val α} {n : Nat} (h : ∀ l ∈ flatten v, l.size0 = .ok n) :
    ∃ xs, xs.length = n ∧ IsSeries v xs := by
  have : ∀ i : Fin n, ∃ w, sliceAt i.1 v = .ok w := by
    intro i
    have hl : ∃ l, (flatten v).mapM (Leaf.index i.1) = .ok l := by
      refine ⟨(flatten v).map fun l => (match l.index i.1 with | .ok l' => l' | _ => .gen), ?_⟩
      refine mapM_ok_of_forall _ fun l hl => ?_
      obtain ⟨l', h'⟩ := Leaf.index_ok (h l hl) i.2
      rw [h']
    obtain ⟨l, hl⟩ := hl
    obtain ⟨w, h1, h2⟩ := exists_of_skel_flatten v l (length_of_mapM_ok hl)
    exact ⟨w, sliceAt_ok.2 ⟨h1, by rw [h2]; exact hl⟩⟩
  choose f hf using this
  refine ⟨List.ofFn f, by simp, ⟨by simpa using h, fun i hi => ?_⟩⟩
  have hi' : i < n := by simpa using hi
  rw [hf ⟨i, hi'⟩]
  simp

theorem foldl_false {n : Nat} {l : List Nat} : l.foldl (fun acc x => acc && x == n) false = false := by
  induction l <;> simp_all

theorem foldl_same_iff {n : Nat} {l : List Nat} :
    l.foldl (fun acc x => acc && x == n) true = true ↔ ∀ m ∈ l, m = n := by
  induction l with
  | nil => simp
  | cons m l ih =>
    by_cases hm : m = n
    · subst hm; simpa using ih
    · simp only [List.foldl_cons, Bool.true_and, List.forall_mem_cons]
      have : (m == n) = false := by simpa using hm
      rw [this, foldl_false]
      simp [hm]

/-- A successful call had a series of positive length as input. -/
theorem callStreamed_isSeries {op : Operator α} {inputs : Val α} {prov : Option (Val α)} {r : Step α}
    (hw : inputs.WF) (h : callStreamed op inputs prov = .ok r) :
    flatten inputs ≠ [] ∧ ∃ xs, xs ≠ [] ∧ IsSeries inputs xs := by
  simp only [callStreamed, bind_eq_ok] at h
  obtain ⟨sizes, hs, h⟩ := h
  obtain ⟨hlen, hs⟩ := mapM_eq_ok_iff_get.1 hs
  cases sizes with
  | nil => simp at h
  | cons n sizes =>
    have hne : flatten inputs ≠ [] := by intro e; rw [e] at hlen; simp at hlen
    refine ⟨hne, ?_⟩
    simp only at h
    split at h
    · simp at h
    · rename_i hsame
      simp only [ne_eq, not_not] at hsame
      have hall := foldl_same_iff.1 hsame
      have hsz : ∀ l ∈ flatten inputs, l.size0 = .ok n := by
        intro l hl
        obtain ⟨i, hi, rfl⟩ := List.mem_iff_getElem.1 hl
        rw [hs i hi, hall _ (List.getElem_mem _)]
      obtain ⟨xs, hxl, hxs⟩ := exists_isSeries hsz
      refine ⟨xs, ?_, hxs⟩
      rintro rfl
      simp at hxl
      subst hxl
      simp only [bind_eq_ok] at h
      obtain ⟨i0, hi0, _⟩ := h
      rw [mapFn_fn1_self _ _ hw, traverse_eq_ok_iff, mapM_eq_ok_iff_get] at hi0
      obtain ⟨_, _, h3⟩ := hi0
      have hpos := List.length_pos_iff.2 hne
      have := Leaf.index_lt (hsz _ (List.getElem_mem hpos)) (h3 0 hpos)
      omega

end TS
