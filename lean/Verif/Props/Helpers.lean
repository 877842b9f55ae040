import Verif.Lemmas.Streaming
/-
C07-C09: helpers/map_fn.py, helpers/flatten.py, helpers/any_value.py, helpers/any_nan.py
-/
namespace TS
open PyVal
variable {A B C : Type}

/-- **C07 map_fn preserves structure (total leaf functions).**  `map_fn(x, [x], f)` is `x` with `f`
applied to every leaf in place; its structure is that of `x`. -/
theorem C07_map_fn_total (f : A → B) (x : PyVal A) (hx : x.WF) :
    mapFn (fn1 fun a => .ok (f a)) x [x] = .ok (x.map f) ∧ (x.map f).skel = x.skel :=
  ⟨by rw [mapFn_fn1_self _ _ hx, traverse_ok _ f _ fun _ _ => rfl], by simp⟩
example := C07_map_fn_total (A := ℚ) (B := ℚ) (fun x => x + 1) (.tup [.leaf 3, .leaf 4]) (by simp [PyVal.tup, PyVal.WF_node])

/-- **C07 (partial leaf functions).**  `map_fn(x, [x], f)` returns `y` exactly when `y` has the
structure of `x` and the leaves of `y` are, position by position, the results of `f`. -/
theorem C07_map_fn_exact (f : A → Res B) (x : PyVal A) (hx : x.WF) (y : PyVal B) :
    mapFn (fn1 f) x [x] = .ok y ↔
    y.skel = x.skel ∧ (flatten x).length = (flatten y).length ∧
      ∀ i (h : i < (flatten x).length) (h' : i < (flatten y).length), f (flatten x)[i] = .ok (flatten y)[i] := by
  rw [mapFn_fn1_self _ _ hx, traverse_eq_ok_iff, mapM_eq_ok_iff_get]
  constructor
  · rintro ⟨h1, h2, h3⟩; exact ⟨h1, by omega, fun i h _ => h3 i h⟩
  · rintro ⟨h1, h2, h3⟩; exact ⟨h1, by omega, fun i h => h3 i h (by omega)⟩
example := C07_map_fn_exact (A := ℚ) (B := ℚ) (fun x => if x = 0 then .error .valueError else .ok (1 / x)) (.tup [.leaf 3, .leaf 4]) (by simp [PyVal.tup, PyVal.WF_node])

/-- **C07 (identity).** -/
theorem C07_map_fn_id (x : PyVal A) (hx : x.WF) : mapFn (fn1 Except.ok) x [x] = .ok x := by
  rw [mapFn_fn1_self _ _ hx, traverse_ok Except.ok id x fun _ _ => rfl, map_id]
example := C07_map_fn_id (A := ℚ) (.tup [.leaf 3, .tup [.leaf 4, .leaf 5]]) (by simp [PyVal.tup, PyVal.WF_node])

/-- **C07 (composition).**  Mapping `f` and then `g` succeeds with `z` exactly when mapping "`f` then
`g`" does. -/
theorem C07_map_fn_comp (f : A → Res B) (g : B → Res C) (x : PyVal A) (hx : x.WF) (z : PyVal C) :
    (∃ y, mapFn (fn1 f) x [x] = .ok y ∧ mapFn (fn1 g) y [y] = .ok z) ↔
      mapFn (fn1 fun a => do g (← f a)) x [x] = .ok z := by
  constructor
  · rintro ⟨y, h1, h2⟩
    obtain ⟨a1, a2, a3⟩ := (C07_map_fn_exact f x hx y).1 h1
    have hy : y.WF := (WF_of_skel_eq a1).2 hx
    obtain ⟨b1, b2, b3⟩ := (C07_map_fn_exact g y hy z).1 h2
    refine (C07_map_fn_exact _ x hx z).2 ⟨b1.trans a1, by omega, fun i h h' => ?_⟩
    rw [a3 i h (by omega)]
    exact b3 i (by omega) h'
  · intro h
    obtain ⟨a1, a2, a3⟩ := (C07_map_fn_exact _ x hx z).1 h
    have hf : ∀ a ∈ flatten x, ∃ b, f a = .ok b := by
      intro a ha
      obtain ⟨i, hi, rfl⟩ := List.mem_iff_getElem.1 ha
      have := a3 i hi (by omega)
      simp only [bind_eq_ok] at this
      obtain ⟨b, hb, _⟩ := this
      exact ⟨b, hb⟩
    have hl : ∃ l, (flatten x).mapM f = .ok l := by
      clear a1 a2 a3 h
      generalize flatten x = l at hf
      induction l with
      | nil => exact ⟨[], rfl⟩
      | cons a l ih =>
        obtain ⟨b, hb⟩ := hf a (by simp)
        obtain ⟨bs, hbs⟩ := ih fun a ha => hf a (by simp [ha])
        exact ⟨b :: bs, by simp [hb, hbs]⟩
    obtain ⟨l, hl⟩ := hl
    obtain ⟨y, hy1, hy2⟩ := exists_of_skel_flatten x l (length_of_mapM_ok hl)
    have hyw : y.WF := (WF_of_skel_eq hy1).2 hx
    have h1 : mapFn (fn1 f) x [x] = .ok y := by
      rw [mapFn_fn1_self _ _ hx, traverse_eq_ok_iff]; exact ⟨hy1, by rw [hy2]; exact hl⟩
    obtain ⟨c1, c2, c3⟩ := (C07_map_fn_exact f x hx y).1 h1
    refine ⟨y, h1, (C07_map_fn_exact g y hyw z).2 ⟨a1.trans hy1.symm, by omega, fun i h h' => ?_⟩⟩
    have := a3 i (by omega) h'
    rw [c3 i (by omega) h] at this
    exact this
example := C07_map_fn_comp (A := ℚ) (B := ℚ) (C := ℚ) (fun x => if x = 0 then .error .valueError else .ok (1 / x)) (fun x => .ok (x + 1)) (.tup [.leaf 3, .leaf 4]) (by simp [PyVal.tup, PyVal.WF_node])

/-- **C07 (two arguments).**  `map_fn(x, [x, y], f)` on two values of the same structure combines the
leaves position by position. -/
theorem C07_map_fn_zip (f : A → A → Res C) (x y : PyVal A) (hx : x.WF) (hs : x.skel = y.skel) (z : PyVal C) :
    mapFn (fun l => match l with | [.leaf a, .leaf b] => f a b | _ => .error .typeError) x [x, y] = .ok z ↔
      z.skel = x.skel ∧ ((flatten x).zip (flatten y)).mapM (fun p => f p.1 p.2) = .ok (flatten z) := by
  have := mapFn_map_zip (D := A) (fun l => match l with | [.leaf a, .leaf b] => f a b | _ => .error .typeError)
    id id x hx y hs
  rw [map_id, map_id] at this
  rw [this]
  exact zipM_eq_ok_iff _ _ _ _ hs

/-- A nested value used in the examples. -/
def exampleNested : PyVal Nat :=
  .tup [.leaf 1, .node .list [.leaf 2, .leaf 3], .node (.dict ["a", "b"]) [.leaf 4, .tup [.leaf 5]]]

example : exampleNested.WF := by simp [exampleNested, WF, WFs]
example : mapFn (fn1 fun n : Nat => (if n = 0 then .error .valueError else .ok (10 / n) : Res Nat)) exampleNested [exampleNested] =
    .ok (.tup [.leaf 10, .node .list [.leaf 5, .leaf 3], .node (.dict ["a", "b"]) [.leaf 2, .tup [.leaf 2]]]) := by
  decide +kernel

/-- The number of elements `zip` yields. -/
def zipLength (xs : List (PyVal A)) (rows : List (List (PyVal B))) : Nat := (rows.map List.length).foldr min xs.length

theorem zipRow_eq_none {rows : List (List B)} (h : zipRow rows = none) : ∃ r ∈ rows, r = [] := by
  induction rows with
  | nil => simp [zipRow] at h
  | cons r rows ih =>
    cases r with
    | nil => exact ⟨[], by simp, rfl⟩
    | cons x xs =>
      simp only [zipRow, Option.map_eq_none_iff] at h
      obtain ⟨r, hr, e⟩ := ih h
      exact ⟨r, by simp [hr], e⟩

theorem zipRow_eq_some {rows : List (List B)} {hs : List B} {ts : List (List B)} (h : zipRow rows = some (hs, ts)) : rows = hs.zipWith List.cons ts ∧ hs.length = ts.length := by
  induction rows generalizing hs ts with
  | nil => simp [zipRow] at h; simp [h.1, h.2]
  | cons r rows ih =>
    cases r with
    | nil => simp [zipRow] at h
    | cons x xs =>
      simp only [zipRow, Option.map_eq_some_iff, Prod.exists, Prod.mk.injEq] at h
      obtain ⟨a, b, h1, rfl, rfl⟩ := h
      obtain ⟨e1, e2⟩ := ih h1
      exact ⟨by rw [e1]; rfl, by simp [e2]⟩

theorem zipLength_nil_mem {xs : List (PyVal A)} {rows : List (List (PyVal B))} (h : [] ∈ rows) : zipLength xs rows = 0 := by
  unfold zipLength
  induction rows with
  | nil => simp at h
  | cons r rows ih =>
    rcases List.mem_cons.1 h with rfl | h
    · simp
    · simp [ih h]

theorem zipLength_cons {x : PyVal A} {xs : List (PyVal A)} {hs : List (PyVal B)} {ts : List (List (PyVal B))} (h : hs.length = ts.length) :
    zipLength (x :: xs) (hs.zipWith List.cons ts) = zipLength xs ts + 1 := by
  unfold zipLength
  induction hs generalizing ts with
  | nil => cases ts <;> simp_all
  | cons a hs ih =>
    cases ts with
    | nil => simp at h
    | cons t ts =>
      have := ih (ts := ts) (by simpa using h)
      simp only [List.zipWith_cons_cons, List.map_cons, List.foldr_cons, List.length_cons] at this ⊢
      omega

theorem mapFnSeq_ok_iff (f : List (PyVal B) → Res C) (xs : List (PyVal A)) (rows : List (List (PyVal B))) (ys : List (PyVal C)) :
    mapFnSeq f xs rows = .ok ys ↔ ys.length = zipLength xs rows ∧
      ∀ i x y, i < ys.length → xs[i]? = some x → ys[i]? = some y → mapFn f x (rows.filterMap (·[i]?)) = .ok y := by
  induction xs generalizing rows ys with
  | nil =>
    have h0 : zipLength ([] : List (PyVal A)) rows = 0 := by
      unfold zipLength
      induction rows with
      | nil => rfl
      | cons r rows ih => simp only [List.map_cons, List.foldr_cons, ih]; omega
    rw [h0]
    cases ys <;> simp [mapFnSeq]
  | cons x xs ih =>
    rw [mapFnSeq]
    split
    · next h =>
      obtain ⟨r, hr, rfl⟩ := zipRow_eq_none h
      rw [zipLength_nil_mem hr]
      cases ys <;> simp
    · next hs ts h =>
      obtain ⟨rfl, e⟩ := zipRow_eq_some h
      rw [zipLength_cons e]
      have h0 : (hs.zipWith List.cons ts).filterMap (·[0]?) = hs := by
        clear h ih
        induction hs generalizing ts with
        | nil => rfl
        | cons a hs ihh => cases ts with
          | nil => simp at e
          | cons t ts => simpa using ihh _ (by simpa using e)
      have hS : ∀ i, (hs.zipWith List.cons ts).filterMap (·[i + 1]?) = ts.filterMap (·[i]?) := by
        clear h ih h0
        intro i
        induction hs generalizing ts with
        | nil => cases ts <;> simp_all
        | cons a hs ihh => cases ts with
          | nil => simp at e
          | cons t ts =>
            simp only [List.zipWith_cons_cons, List.filterMap_cons, List.getElem?_cons_succ]
            rw [ihh _ (by simpa using e)]
      constructor
      · intro hk
        cases h1 : mapFn f x hs with
        | error er => rw [h1] at hk; simp [bind, Except.bind] at hk
        | ok y =>
          cases h2 : mapFnSeq f xs ts with
          | error er => rw [h1, h2] at hk; simp [bind, Except.bind] at hk
          | ok zs =>
            rw [h1, h2] at hk
            simp only [bind, Except.bind, Except.ok.injEq] at hk
            subst hk
            obtain ⟨g1, g2⟩ := (ih ts zs).1 h2
            refine ⟨by simp [g1], fun i x' y' hi hx hy => ?_⟩
            cases i with
            | zero => simp at hx hy; subst hx hy; rw [h0]; exact h1
            | succ i => rw [hS]; exact g2 i x' y' (by simpa using hi) (by simpa using hx) (by simpa using hy)
      · rintro ⟨g1, g2⟩
        cases ys with
        | nil => simp at g1
        | cons y ys =>
          have h1 := g2 0 x y (by simp) (by simp) (by simp)
          rw [h0] at h1
          have h2 := (ih ts ys).2 ⟨by simpa using g1, fun i x' y' hi hx hy => by
            rw [← hS]; exact g2 (i + 1) x' y' (by simpa using hi) (by simpa using hx) (by simpa using hy)⟩
          rw [h1, h2]; rfl

/-- **C07 (sequences of different lengths).**  `map_fn` on a list or tuple with any number of arguments, lists or tuples of any lengths, is cut to the shortest
of them, without an error (`zip`); every element comes from the elements at its index. -/
theorem C07_map_fn_cut (f : List (PyVal B) → Res C) {k : Kind} (hk : k = .list ∨ k = .tuple) {ks : List Kind} {rows : List (List (PyVal B))} (hl : ks.length = rows.length)
    (hks : ∀ k' ∈ ks, k' = .list ∨ k' = .tuple) (xs : List (PyVal A)) (z : PyVal C) :
    mapFn f (.node k xs) (List.zipWith .node ks rows) = .ok z ↔
      ∃ ys, z = .node k ys ∧ ys.length = (rows.map List.length).foldr min xs.length ∧
        ∀ i x y, i < ys.length → xs[i]? = some x → ys[i]? = some y → mapFn f x (rows.filterMap (·[i]?)) = .ok y := by
  have hd : ∀ {k : Kind}, k = .list ∨ k = .tuple → ∀ keys, k ≠ .dict keys := by rintro _ (rfl | rfl) _ <;> simp
  rw [mapFn_seq f k (hd hk)]
  have hr : (List.zipWith PyVal.node ks rows).mapM asSeq = .ok rows := by
    induction ks generalizing rows with
    | nil => cases rows <;> simp_all
    | cons k' ks ih => cases rows with
      | nil => simp at hl
      | cons r rows =>
        rw [List.zipWith_cons_cons, List.mapM_cons, asSeq_node k' (hd (hks k' (by simp))), ih (by simpa using hl) fun k'' h => hks k'' (by simp [h])]
        rfl
  rw [hr]
  cases h : mapFnSeq f xs rows with
  | error e =>
    refine ⟨fun h' => by simp [bind, Except.bind, h] at h', fun ⟨ys, _, h1⟩ => ?_⟩
    have := (mapFnSeq_ok_iff f xs rows ys).2 h1
    rw [h] at this; cases this
  | ok ys =>
    have h1 := (mapFnSeq_ok_iff f xs rows ys).1 h
    constructor
    · intro hz
      simp only [bind, Except.bind, h, Except.ok.injEq] at hz
      exact ⟨ys, hz.symm, h1⟩
    · rintro ⟨ys', rfl, h2⟩
      have := (mapFnSeq_ok_iff f xs rows ys').2 h2
      rw [h] at this
      cases this
      simp [bind, Except.bind, h]

example : mapFn (fun l => match l with | [.leaf a, .leaf b] => .ok (a + b : Nat) | _ => .error .typeError) (.tup [.leaf 0, .leaf 0, .leaf 0] : PyVal Nat)
    [.tup [.leaf 1, .leaf 2, .leaf 3], .node .list [.leaf 10, .leaf 20]] = .ok (.tup [.leaf 11, .leaf 22]) := by decide +kernel

/-- **C08 flatten is depth-first.** -/
theorem C08_flatten_order (t : A) (k : Kind) (xs : List (PyVal A)) :
    flatten (.leaf t : PyVal A) = [t] ∧ flatten (.node k xs) = (xs.map flatten).flatten := by
  simp [List.flatMap]
example := C08_flatten_order (A := ℚ) 3 .tuple [.leaf 3, .tup [.leaf 4, .leaf 5]]

/-- **C08 flatten and map_fn commute.** -/
theorem C08_flatten_map_fn (f : A → B) (x : PyVal A) (hx : x.WF) :
    ∃ y, mapFn (fn1 fun a => .ok (f a)) x [x] = .ok y ∧ flatten y = (flatten x).map f :=
  ⟨_, (C07_map_fn_total f x hx).1, flatten_map _ _⟩
example := C08_flatten_map_fn (A := ℚ) (B := ℚ) (fun x => x + 1) (.tup [.leaf 3, .leaf 4]) (by simp [PyVal.tup, PyVal.WF_node])

/-- **C08 (injectivity).**  Structure and flattened leaves determine a value. -/
theorem C08_flatten_inj (x y : PyVal A) (hs : x.skel = y.skel) (hf : flatten x = flatten y) : x = y :=
  eq_of_skel_of_flatten x y hs hf

example : flatten exampleNested = [1, 2, 3, 4, 5] := by decide +kernel

section
variable {α : Type} [TFNum α]

/-- An element of a value: one coordinate of one float leaf. -/
def HasElem (inputs : Val α) (P : α → Prop) : Prop :=
  ∃ t : Tensor α, .f t ∈ flatten inputs ∧ ∃ c : Idx t.shape, P (t.val c)

theorem any_aux (p : α → Bool) (q : Leaf α → Res Bool)
    (hq : ∀ l, q l = (do let t ← l.asF; .ok (t.elems.any p)))
    {inputs : Val α} (hw : inputs.WF) (hf : ∀ l ∈ flatten inputs, ∃ t, l = .f t) :
    ∃ b : Bool, (do let has ← mapFn (fn1 q) inputs [inputs]
                    .ok ((flatten has).foldl (fun acc x => acc || x) false) : Res Bool) = .ok b ∧
      (b = true ↔ HasElem inputs fun x => p x = true) := by
  have key : ∀ l ∈ flatten inputs, q l = .ok (match l with | .f t => t.elems.any p | _ => false) := by
    intro l hl
    obtain ⟨t, rfl⟩ := hf l hl
    simp [hq, Leaf.asF]
  rw [mapFn_fn1_self _ _ hw, traverse_ok _ _ _ key]
  refine ⟨_, rfl, ?_⟩
  have fold : ∀ (l : List Bool) (a : Bool), l.foldl (fun acc x => acc || x) a = true ↔ a = true ∨ true ∈ l := by
    intro l
    induction l with
    | nil => simp
    | cons x l ih => intro a; rw [List.foldl_cons, ih]; cases a <;> cases x <;> simp
  rw [fold, flatten_map]
  simp only [Bool.false_eq_true, false_or, List.mem_map]
  constructor
  · rintro ⟨l, hl, h⟩
    obtain ⟨t, rfl⟩ := hf l hl
    simp only [List.any_eq_true, Tensor.elems, List.mem_map] at h
    obtain ⟨x, ⟨c, _, rfl⟩, hx⟩ := h
    exact ⟨t, hl, c, hx⟩
  · rintro ⟨t, ht, c, hx⟩
    refine ⟨_, ht, ?_⟩
    simp only [List.any_eq_true, Tensor.elems, List.mem_map]
    exact ⟨_, ⟨c, Idx.mem_all c, rfl⟩, hx⟩

/-- **C09 any_value is exact.** -/
theorem C09_any_value (v : α) {inputs : Val α} (hw : inputs.WF) (hf : ∀ l ∈ flatten inputs, ∃ t, l = .f t) :
    ∃ b, anyValue inputs v = .ok b ∧ (b = true ↔ HasElem inputs fun x => TFNum.eq x v = true) :=
  any_aux (fun x => TFNum.eq x v) _ (fun _ => rfl) hw hf

/-- **C09 any_nan is exact.** -/
theorem C09_any_nan {inputs : Val α} (hw : inputs.WF) (hf : ∀ l ∈ flatten inputs, ∃ t, l = .f t) :
    ∃ b, anyNan inputs = .ok b ∧ (b = true ↔ HasElem inputs fun x => TFNum.isNaN x = true) :=
  any_aux TFNum.isNaN _ (fun _ => rfl) hw hf

end
end TS
