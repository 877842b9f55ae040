import Verif.Lemmas.Streaming
/-
`call_streamed` succeeds exactly when stepping succeeds.
-/
namespace TS
open PyVal
variable {α : Type}

/-- `forward_step` over the slices with the state-type check of the loop. -/
def stepsTyped (op : Operator α) (ty : PyVal DType) : List (Val α) → Val α → Res (List (Val α) × Val α)
  | [], s => .ok ([], s)
  | x :: xs, s => do
    let (o, n, _) ← op.forwardStep x (some s)
    let ty' ← toType n
    if ty' ≠ ty then .error .stateTypes
    else do
      let (os, sf) ← stepsTyped op ty xs n
      .ok (o :: os, sf)

theorem stepsTyped_cons_ok {op : Operator α} {ty : PyVal DType} {x : Val α} {xs : List (Val α)}
    {s sf : Val α} {os : List (Val α)} : stepsTyped op ty (x :: xs) s = .ok (os, sf) ↔
    ∃ o n i os', op.forwardStep x (some s) = .ok (o, n, i) ∧ toType n = .ok ty ∧
      stepsTyped op ty xs n = .ok (os', sf) ∧ os = o :: os' := by
  simp only [stepsTyped, bind_eq_ok]
  constructor
  · rintro ⟨⟨o, n, i⟩, h1, ty', h2, h3⟩
    by_cases hty : ty' = ty
    · subst hty
      simp only [ne_eq, not_true, if_false, bind_eq_ok] at h3
      obtain ⟨⟨os', sf'⟩, h3, h4⟩ := h3
      simp only [Except.ok.injEq, Prod.mk.injEq] at h4
      obtain ⟨rfl, rfl⟩ := h4
      exact ⟨o, n, i, os', h1, h2, h3, rfl⟩
    · simp [hty] at h3
  · rintro ⟨o, n, i, os', h1, h2, h3, rfl⟩
    exact ⟨(o, n, i), h1, ty, h2, by simp [h3]⟩

theorem stepsTyped_length {op : Operator α} {ty : PyVal DType} {xs : List (Val α)} {s sf : Val α}
    {os : List (Val α)} (h : stepsTyped op ty xs s = .ok (os, sf)) : os.length = xs.length := by
  induction xs generalizing s os with
  | nil => simp [stepsTyped] at h; simp [← h.1]
  | cons x xs ih =>
    obtain ⟨o, n, i, os', h1, h2, h3, rfl⟩ := stepsTyped_cons_ok.1 h
    simp [ih h3]

/-- The writes of the loop, one output after the other. -/
def writeAll : Nat → List (Val α) → PyVal (TArr α) → Res (PyVal (TArr α))
  | _, [], outs => .ok outs
  | i, o :: os, outs => do
    let outs' ← mapFn (writeFn i) o [o.map .inl, outs.map .inr]
    if outs'.skel ≠ outs.skel then .error .structure
    else writeAll (i + 1) os outs'

theorem streamBody_ok {op : Operator α} {inputs x : Val α} {i : Nat} {st : Val α} {ty : PyVal DType}
    {outs : PyVal (TArr α)} (hw : inputs.WF) (hx : sliceAt i inputs = .ok x) (hty : toType st = .ok ty)
    {n : Val α} {outs' : PyVal (TArr α)} :
    streamBody op inputs i st outs = .ok (n, outs') ↔
    ∃ o i0, op.forwardStep x (some st) = .ok (o, n, i0) ∧ toType n = .ok ty ∧
      mapFn (writeFn i) o [o.map .inl, outs.map .inr] = .ok outs' ∧ outs'.skel = outs.skel := by
  have hx' : mapFn (fn1 (Leaf.index i)) inputs [inputs] = .ok x := by
    rw [mapFn_fn1_self _ _ hw]; exact hx
  simp only [streamBody, hx', ok_bind, bind_eq_ok, hty]
  constructor
  · rintro ⟨⟨o, n', i0⟩, h1, ty', h2, _, h3, outs'', h4, h5⟩
    by_cases e : ty = ty'
    · subst e
      by_cases e' : outs''.skel = outs.skel
      · simp only [e', ne_eq, not_true, if_false, Except.ok.injEq, Prod.mk.injEq] at h5
        obtain ⟨rfl, rfl⟩ := h5
        exact ⟨o, i0, h1, h2, h4, e'⟩
      · simp [e'] at h5
    · simp [checkTypesEquality, e] at h3
  · rintro ⟨o, i0, h1, h2, h3, h4⟩
    exact ⟨(o, n, i0), h1, ty, h2, (), by simp [checkTypesEquality], outs', h3, by simp [h4]⟩

theorem streamLoop_ok {op : Operator α} {inputs : Val α} (hw : inputs.WF) {ty : PyVal DType}
    (xs : List (Val α)) (i : Nat) (hx : ∀ j (h : j < xs.length), sliceAt (i + j) inputs = .ok xs[j])
    (st : Val α) (hty : toType st = .ok ty) (outs : PyVal (TArr α)) (sf : Val α) (outs' : PyVal (TArr α)) :
    streamLoop op inputs xs.length i st outs = .ok (sf, outs') ↔
    ∃ os, stepsTyped op ty xs st = .ok (os, sf) ∧ writeAll i os outs = .ok outs' := by
  induction xs generalizing i st outs with
  | nil =>
    simp only [List.length_nil, streamLoop, stepsTyped, Except.ok.injEq, Prod.mk.injEq]
    constructor
    · rintro ⟨rfl, rfl⟩; exact ⟨[], ⟨rfl, rfl⟩, rfl⟩
    · rintro ⟨os, ⟨rfl, rfl⟩, h⟩
      simp only [writeAll, Except.ok.injEq] at h
      exact ⟨rfl, h⟩
  | cons x xs ih =>
    have hx0 : sliceAt i inputs = .ok x := hx 0 (by simp)
    have hx1 : ∀ j (h : j < xs.length), sliceAt (i + 1 + j) inputs = .ok xs[j] := by
      intro j h
      have := hx (j + 1) (by simpa using h)
      rw [show i + 1 + j = i + (j + 1) by omega]
      simpa using this
    simp only [List.length_cons, streamLoop, bind_eq_ok]
    constructor
    · rintro ⟨⟨n, outs1⟩, h1, h2⟩
      obtain ⟨o, i0, a1, a2, a3, a4⟩ := (streamBody_ok hw hx0 hty).1 h1
      obtain ⟨os, b1, b2⟩ := (ih (i+1) hx1 n a2 outs1).1 h2
      refine ⟨o :: os, stepsTyped_cons_ok.2 ⟨o, n, i0, os, a1, a2, b1, rfl⟩, ?_⟩
      simp [writeAll, a3, a4, b2]
    · rintro ⟨os, h1, h2⟩
      obtain ⟨o, n, i0, os', a1, a2, a3, rfl⟩ := stepsTyped_cons_ok.1 h1
      simp only [writeAll, bind_eq_ok] at h2
      obtain ⟨outs1, h2, h3⟩ := h2
      by_cases e : outs1.skel = outs.skel
      · simp only [e, ne_eq, not_true, if_false] at h3
        exact ⟨(n, outs1), (streamBody_ok hw hx0 hty).2 ⟨o, i0, a1, a2, h2, e⟩,
          (ih (i+1) hx1 n a2 outs1).2 ⟨os', a3, h3⟩⟩
      · simp [e] at h3

/-! ### tensor arrays -/

theorem TArr.write_ok {i : Nat} {x : Leaf α} {y y' : TArr α} :
    y.write i x = .ok y' ↔ x.dtype = .ok y.dtype ∧ y.slots[i]? = some none ∧
      y' = { y with slots := y.slots.set i (some x) } := by
  cases hdt : x.dtype with
  | error e => simp [TArr.write, hdt]
  | ok dt =>
    by_cases e : dt = y.dtype
    · subst e
      rcases hs : y.slots[i]? with _ | (_ | _) <;> simp [TArr.write, hdt, hs, eq_comm]
    · simp [TArr.write, hdt, e]

/-- `arr` is a tensor array of size `n` in which exactly the leaves `ls` have been written. -/
def TArr.Holds (n : Nat) (dt : DType) (ls : List (Leaf α)) (y : TArr α) : Prop :=
  y.dtype = dt ∧ ls.length ≤ n ∧ y.slots = ls.map some ++ List.replicate (n - ls.length) none

theorem TArr.Holds.write {n : Nat} {dt : DType} {ls : List (Leaf α)} {y : TArr α} (h : y.Holds n dt ls)
    (x : Leaf α) (y' : TArr α) (hlt : ls.length < n) :
    y.write ls.length x = .ok y' ↔ x.dtype = .ok dt ∧ y'.Holds n dt (ls ++ [x]) := by
  obtain ⟨h1, h2, h3⟩ := h
  subst h1
  have hget : y.slots[ls.length]? = some none := by
    rw [h3, List.getElem?_append_right (by simp)]
    simp [List.getElem?_replicate]; omega
  have hset : y.slots.set ls.length (some x) = (ls ++ [x]).map some ++ List.replicate (n - (ls ++ [x]).length) none := by
    rw [h3, List.set_append_right _ _ (by simp)]
    have : n - ls.length = (n - (ls.length + 1)) + 1 := by omega
    simp [this, List.replicate_succ]
  rw [TArr.write_ok]
  constructor
  · rintro ⟨a, b, rfl⟩
    exact ⟨a, rfl, by simp; omega, hset⟩
  · rintro ⟨a, b, c, d⟩
    refine ⟨a, hget, ?_⟩
    cases y'
    simp only at b d
    subst b; subst d
    simp only [hset]

theorem TArr.stack_holds {n : Nat} {dt : DType} {ls : List (Leaf α)} {y : TArr α} (h : y.Holds n dt ls)
    (hn : ls.length = n) : y.stack = Leaf.stack ls := by
  obtain ⟨h1, h2, h3⟩ := h
  have : y.slots = ls.map some := by simp [h3, hn]
  have key : ∀ ls : List (Leaf α), (ls.map some).mapM TArr.read = .ok ls := by
    intro ls
    induction ls with
    | nil => simp
    | cons l ls ih => simp [ih, TArr.read]
  simp only [TArr.stack, this, key, ok_bind]

/-- Leaf `j` of every output. -/
def leafCol (os : List (Val α)) (j : Nat) : List (Leaf α) := os.filterMap fun o => (flatten o)[j]?

/-- The arrays `outs` hold the outputs `os`. -/
def HoldsAll (n : Nat) (ty : PyVal DType) (os : List (Val α)) (outs : PyVal (TArr α)) : Prop :=
  outs.skel = ty.skel ∧ ∀ j (h : j < (flatten outs).length) (h' : j < (flatten ty).length),
    (flatten outs)[j].Holds n (flatten ty)[j] (leafCol os j)

theorem leafCol_length {os : List (Val α)} {m j : Nat} (h : ∀ o ∈ os, (flatten o).length = m) (hj : j < m) :
    (leafCol os j).length = os.length := by
  induction os with
  | nil => rfl
  | cons o os ih =>
    have hm := h o (by simp)
    simp only [leafCol, List.filterMap_cons]
    rw [List.getElem?_eq_getElem (by omega)]
    exact congrArg (· + 1) (ih (fun o ho => h o (by simp [ho])))

theorem leafCol_getElem {os : List (Val α)} {m j : Nat} (h : ∀ o ∈ os, (flatten o).length = m) (hj : j < m)
    (i : Nat) (hi : i < os.length) :
    (leafCol os j)[i]'(by rw [leafCol_length h hj]; exact hi) =
      (flatten os[i])[j]'(by rw [h _ (List.getElem_mem _)]; exact hj) := by
  induction os generalizing i with
  | nil => simp at hi
  | cons o os ih =>
    have hm := h o (by simp)
    have e : leafCol (o :: os) j = (flatten o)[j]'(by omega) :: leafCol os j := by
      simp only [leafCol, List.filterMap_cons]
      rw [List.getElem?_eq_getElem (by omega)]
    cases i with
    | zero => simp [e]
    | succ i =>
      simp only [e, List.getElem_cons_succ]
      exact ih (fun o ho => h o (by simp [ho])) i (by simpa using hi)

/-- A value has the given nested dtypes. -/
def HasType (v : Val α) (ty : PyVal DType) : Prop := v.skel = ty.skel ∧ (flatten v).mapM Leaf.dtype = .ok (flatten ty)

theorem toType_ok {v : Val α} (hv : v.WF) {ty : PyVal DType} : toType v = .ok ty ↔ HasType v ty := by
  have hd : (fun l : Leaf α => (do (← l.toTensor).dtype : Res DType)) = fun l =>
      (match l with | .gen => .error .typeError | l => l.dtype) := by
    funext l; cases l <;> rfl
  rw [toType, mapFn_fn1_self _ _ hv, traverse_eq_ok_iff, HasType, eq_comm (a := ty.skel)]
  refine and_congr Iff.rfl ?_
  rw [mapM_eq_ok_iff, mapM_eq_ok_iff]
  have : (fun (x : Leaf α) y => (do (← x.toTensor).dtype : Res DType) = .ok y) = fun x y => x.dtype = .ok y := by
    funext x y; cases x <;> simp [Leaf.toTensor, Leaf.dtype]
  rw [this]

theorem write_step {n : Nat} {ty : PyVal DType} {os : List (Val α)} {outs outs' : PyVal (TArr α)} {o : Val α}
    (ho : o.WF) (hos : ∀ o ∈ os, o.skel = ty.skel) (hsk : o.skel = ty.skel) (hl : os.length < n)
    (h : HoldsAll n ty os outs) :
    (mapFn (writeFn os.length) o [o.map .inl, outs.map .inr] = .ok outs' ∧ outs'.skel = outs.skel) ↔
      HasType o ty ∧ HoldsAll n ty (os ++ [o]) outs' := by
  obtain ⟨h1, h2⟩ := h
  have lty : ∀ o ∈ os, (flatten o).length = (flatten ty).length := fun o h => length_flatten_of_skel_eq (hos o h)
  have lo : (flatten o).length = (flatten ty).length := length_flatten_of_skel_eq hsk
  have louts : (flatten outs).length = (flatten ty).length := length_flatten_of_skel_eq h1
  rw [mapFn_map_zip _ _ _ _ ho outs (hsk.trans h1.symm), zipM_eq_ok_iff _ _ _ _ (hsk.trans h1.symm)]
  simp only [writeFn]
  have hcol : ∀ j (hj : j < (flatten ty).length), leafCol (os ++ [o]) j = leafCol os j ++ [(flatten o)[j]] := by
    intro j hj
    simp only [leafCol, List.filterMap_append, List.filterMap_cons, List.filterMap_nil]
    rw [List.getElem?_eq_getElem (by omega)]
  rw [mapM_eq_ok_iff_get]
  constructor
  · rintro ⟨⟨h3, h4, h5⟩, h6⟩
    have lz : ((flatten o).zip (flatten outs)).length = (flatten ty).length := by simp [lo, louts]
    have key : ∀ j (hj : j < (flatten ty).length), (flatten o)[j].dtype = .ok (flatten ty)[j] ∧
        ((flatten outs')[j]'(by omega)).Holds n (flatten ty)[j] (leafCol os j ++ [(flatten o)[j]]) := by
      intro j hj
      have := h5 j (by omega)
      simp only [List.getElem_zip] at this
      have hh := h2 j (by omega) hj
      have hlc := leafCol_length lty hj
      rw [← hlc] at this
      exact (hh.write _ _ (by omega)).1 this
    refine ⟨⟨hsk, ?_⟩, h3.trans hsk, ?_⟩
    · rw [mapM_eq_ok_iff_get]
      exact ⟨lo, fun i hi => (key i (by omega)).1⟩
    · intro j hj hj'
      rw [hcol j hj']
      exact (key j hj').2
  · rintro ⟨⟨_, h3⟩, h4, h5⟩
    have louts' : (flatten outs').length = (flatten ty).length := length_flatten_of_skel_eq h4
    obtain ⟨_, h3⟩ := mapM_eq_ok_iff_get.1 h3
    refine ⟨⟨h4.trans hsk.symm, by simp [lo, louts, louts'], ?_⟩, h4.trans h1.symm⟩
    intro j hj
    have hj' : j < (flatten ty).length := by simp [lo, louts] at hj; exact hj
    simp only [List.getElem_zip]
    have hh := h2 j (by omega) hj'
    have hlc := leafCol_length lty hj'
    rw [← hlc]
    refine (hh.write _ _ (by omega)).2 ⟨h3 j (by omega), ?_⟩
    rw [← hcol j hj']
    exact h5 j (by omega) hj'

theorem writeAll_ok {n : Nat} {ty : PyVal DType} (os os' : List (Val α)) (outs outs' : PyVal (TArr α))
    (hos : ∀ o ∈ os, o.skel = ty.skel) (hos' : ∀ o ∈ os', o.WF ∧ o.skel = ty.skel)
    (hl : os.length + os'.length ≤ n) (h : HoldsAll n ty os outs) :
    writeAll os.length os' outs = .ok outs' ↔ (∀ o ∈ os', HasType o ty) ∧
      (if os' = [] then outs = outs' else HoldsAll n ty (os ++ os') outs') := by
  induction os' generalizing os outs with
  | nil => simp [writeAll]
  | cons o os' ih =>
    simp only [List.length_cons] at hl
    have ho := hos' o (by simp)
    have step := fun outs1 => write_step (outs' := outs1) ho.1 hos ho.2 (by omega) h
    have ih' := fun outs1 (h : HoldsAll n ty (os ++ [o]) outs1) => ih (os ++ [o]) outs1
      (by intro x hx; rcases List.mem_append.1 hx with hx | hx; exact hos x hx; simp at hx; exact hx ▸ ho.2)
      (fun x hx => hos' x (by simp [hx])) (by simp; omega) h
    simp only [List.length_append, List.length_singleton, List.append_assoc, List.singleton_append] at ih'
    constructor
    · intro hw
      simp only [writeAll, bind_eq_ok] at hw
      obtain ⟨outs1, hw1, hw2⟩ := hw
      by_cases e : outs1.skel = outs.skel
      · simp only [e, ne_eq, not_true, if_false] at hw2
        obtain ⟨a, b⟩ := (step outs1).1 ⟨hw1, e⟩
        obtain ⟨c, d⟩ := (ih' outs1 b).1 hw2
        refine ⟨by simpa using ⟨a, c⟩, ?_⟩
        simp only [reduceCtorEq, if_false]
        by_cases e' : os' = []
        · subst e'; simp at d; exact d ▸ b
        · simpa [e'] using d
      · simp [e] at hw2
    · rintro ⟨hty, hh⟩
      simp only [reduceCtorEq, if_false] at hh
      -- the intermediate arrays
      have hex : ∃ outs1, HoldsAll n ty (os ++ [o]) outs1 := by
        have louts : (flatten outs).length = (flatten ty).length := length_flatten_of_skel_eq h.1
        have lty : ∀ o ∈ os, (flatten o).length = (flatten ty).length := fun o h => length_flatten_of_skel_eq (hos o h)
        have lo : (flatten o).length = (flatten ty).length := length_flatten_of_skel_eq ho.2
        obtain ⟨_, hdt⟩ := mapM_eq_ok_iff_get.1 (hty o (by simp)).2
        have hz : ∃ l, ((flatten o).zip (flatten outs)).mapM (fun p => TArr.write os.length p.1 p.2) = .ok l := by
          refine ⟨((flatten o).zip (flatten outs)).map fun p => { p.2 with slots := p.2.slots.set os.length (some p.1) }, ?_⟩
          rw [mapM_eq_ok_iff_get]
          refine ⟨by simp, fun j hj => ?_⟩
          simp only [List.length_zip] at hj
          have hj' : j < (flatten ty).length := by omega
          simp only [List.getElem_zip, List.getElem_map]
          obtain ⟨x1, x2, x3⟩ := h.2 j (by omega) hj'
          rw [TArr.write_ok]
          refine ⟨by rw [hdt j (by omega), x1], ?_, rfl⟩
          rw [x3, List.getElem?_append_right (by simp [leafCol_length lty hj'])]
          simp [List.getElem?_replicate, leafCol_length lty hj']; omega
        obtain ⟨l, hl'⟩ := hz
        obtain ⟨u, hu1, hu2⟩ := exists_of_skel_flatten outs l (by rw [length_of_mapM_ok hl']; simp [lo, louts])
        refine ⟨u, ((step u).1 ⟨?_, hu1⟩).2⟩
        rw [mapFn_map_zip _ _ _ _ ho.1 outs (ho.2.trans h.1.symm), zipM_eq_ok_iff _ _ _ _ (ho.2.trans h.1.symm)]
        refine ⟨hu1.trans (h.1.trans ho.2.symm), ?_⟩
        rw [hu2]; exact hl'
      obtain ⟨outs1, hh1⟩ := hex
      obtain ⟨c1, c2⟩ := (step outs1).2 ⟨hty o (by simp), hh1⟩
      simp only [writeAll, c1, ok_bind, c2, ne_eq, not_true, if_false]
      refine (ih' outs1 hh1).2 ⟨fun x hx => hty x (by simp [hx]), ?_⟩
      by_cases e' : os' = []
      · subst e'
        simp only [if_true]
        -- both hold the same contents
        have l1 : (flatten outs1).length = (flatten ty).length := length_flatten_of_skel_eq hh1.1
        have l2 : (flatten outs').length = (flatten ty).length := length_flatten_of_skel_eq hh.1
        refine eq_of_skel_of_flatten _ _ (hh1.1.trans hh.1.symm) (List.ext_getElem (by omega) fun j hj hj' => ?_)
        obtain ⟨a1, _, a3⟩ := hh1.2 j hj (by omega)
        obtain ⟨b1, _, b3⟩ := hh.2 j hj' (by omega)
        cases hu : (flatten outs1)[j]
        cases hu' : (flatten outs')[j]
        rw [hu] at a1 a3
        rw [hu'] at b1 b3
        simp only at a1 a3 b1 b3
        rw [a1, b1, a3, b3]
      · simpa [e'] using hh

end TS
