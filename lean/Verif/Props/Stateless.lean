import Verif.Props.Common
/-
C23, C24: stateless operators.
-/
namespace TS
open PyVal
variable {α : Type}

/-! ### C23 -/

/-- a pair of series of int tensors -/
abbrev vIsBuf2 {s : List Nat} (l : List ((Idx s → Int) × (Idx s → Int))) : Val α := .tup [vIsBuf (l.map Prod.fst), vIsBuf (l.map Prod.snd)]

/-- What a stateless operator may be given as state: nothing, or the state it returned. -/
def NoState (st : Option (Val α)) : Prop := st = none ∨ st = some PyVal.unit

theorem intRowSeries_map {A : Type} {s : List Nat} (f : A → Idx s → Int) (l : List A) : IsSeries (vIsBuf (l.map f) : Val α) (l.map fun x => vIs (f x)) := by
  simpa [Function.comp_def] using isSeries_vIsBuf (α := α) (l.map f)

theorem intPairs_ok {s : List Nat} (l : List ((Idx s → Int) × (Idx s → Int))) :
    (vIsBuf2 l : Val α).WF ∧ flatten (vIsBuf2 l : Val α) ≠ [] ∧ IsSeries (vIsBuf2 l : Val α) (l.map fun x => .tup [vIs x.1, vIs x.2]) := by
  refine ⟨by simp [WF_tup], by simp [flatten, flattens], ?_⟩
  exact isSeries_tup_map (A := (Idx s → Int) × (Idx s → Int)) (es := [fun x => vIs x.1, fun x => vIs x.2])
    (.cons (intRowSeries_map _ l) (.cons (intRowSeries_map _ l) .nil))

theorem lambda2_float {s : List Nat} (ff : α → α → α) (fi : Int → Int → Int) {l : List ((Idx s → α) × (Idx s → α))} (hl : l ≠ [])
    {st : Option (Val α)} (hst : NoState st) : call (makeStreamable (lambda2 (arith2 ff fi))) (vBuf2 l) st =
      .ok (vBuf (l.map fun x c => ff (x.1 c) (x.2 c)), PyVal.unit, PyVal.unit) :=
  call_stateless (pairs_ok l).1 (pairs_ok l).2.1 (pairs_ok l).2.2 (by simpa using hl)
    (Forall₂.of_map fun a _ => by simp [unpackArgs, lambda2, arith2, broadcast_same])
    (rowSeries_map _ l) (by simp) hst

theorem lambda2_int {s : List Nat} (ff : α → α → α) (fi : Int → Int → Int) {l : List ((Idx s → Int) × (Idx s → Int))} (hl : l ≠ [])
    {st : Option (Val α)} (hst : NoState st) : call (makeStreamable (lambda2 (arith2 ff fi))) (vIsBuf2 l) st =
      .ok (vIsBuf (l.map fun x c => fi (x.1 c) (x.2 c)), PyVal.unit, PyVal.unit) :=
  call_stateless (intPairs_ok l).1 (intPairs_ok l).2.1 (intPairs_ok l).2.2 (by simpa using hl)
    (Forall₂.of_map fun a _ => by simp [unpackArgs, lambda2, arith2, broadcast_same])
    (intRowSeries_map _ l) (by simp) hst

theorem mixed_ok {A B : Type} {s : List Nat} (l : List (A × B)) (f : A × B → α) (g : A × B → Idx s → α) :
    (.tup [vSBuf (l.map f), vBuf (l.map g)] : Val α).WF ∧ flatten (.tup [vSBuf (l.map f), vBuf (l.map g)] : Val α) ≠ [] ∧
      IsSeries (.tup [vSBuf (l.map f), vBuf (l.map g)] : Val α) (l.map fun x => .tup [vS (f x), vF (g x)]) ∧
    (.tup [vBuf (l.map g), vSBuf (l.map f)] : Val α).WF ∧ flatten (.tup [vBuf (l.map g), vSBuf (l.map f)] : Val α) ≠ [] ∧
      IsSeries (.tup [vBuf (l.map g), vSBuf (l.map f)] : Val α) (l.map fun x => .tup [vF (g x), vS (f x)]) := by
  refine ⟨by simp [WF_tup], by simp [flatten, flattens], ?_, by simp [WF_tup], by simp [flatten, flattens], ?_⟩
  · exact isSeries_tup_map (es := [fun x => vS (f x), fun x => vF (g x)]) (.cons (numSeries_map _ l) (.cons (rowSeries_map _ l) .nil))
  · exact isSeries_tup_map (es := [fun x => vF (g x), fun x => vS (f x)]) (.cons (rowSeries_map _ l) (.cons (numSeries_map _ l) .nil))

theorem bcIdx_nil : (s : List Nat) → bcIdx s [] = .ok fun _ => ()
  | [] => rfl
  | n :: s => by simp [bcIdx, bcIdx_nil s]

theorem zip_ones {n : Nat} {s : List Nat} (hn : s.length = n) : ((List.replicate n 1).zip s).mapM (fun d => bcDim d.1 d.2) = .ok s ∧
    (s.zip (List.replicate n 1)).mapM (fun d => bcDim d.1 d.2) = .ok s := by
  subst hn
  have hd : ∀ n, bcDim 1 n = .ok n ∧ bcDim n 1 = .ok n := fun n => by unfold bcDim; constructor <;> split_ifs <;> simp_all
  induction s with
  | nil => exact ⟨rfl, rfl⟩
  | cons n s ih =>
    simp only [List.length_cons, List.replicate_succ, List.zip_cons_cons, List.mapM_cons, ih.1, ih.2, hd]
    exact ⟨rfl, rfl⟩

theorem bcShape_nil (s : List Nat) : bcShape [] s = .ok s := by
  have := (zip_ones (s := s) rfl).1
  simpa [bcShape, padShape] using this

theorem bcShape_nil' (s : List Nat) : bcShape s [] = .ok s := by
  have := (zip_ones (s := s) rfl).2
  simpa [bcShape, padShape] using this

theorem lambda2_scalar {s : List Nat} (ff : α → α → α) (fi : Int → Int → Int) {l : List (α × (Idx s → α))} (hl : l ≠ [])
    {st : Option (Val α)} (hst : NoState st) :
    call (makeStreamable (lambda2 (arith2 ff fi))) (.tup [vSBuf (l.map Prod.fst), vBuf (l.map Prod.snd)]) st =
      .ok (vBuf (l.map fun x c => ff x.1 (x.2 c)), PyVal.unit, PyVal.unit) ∧
    call (makeStreamable (lambda2 (arith2 ff fi))) (.tup [vBuf (l.map Prod.snd), vSBuf (l.map Prod.fst)]) st =
      .ok (vBuf (l.map fun x c => ff (x.2 c) x.1), PyVal.unit, PyVal.unit) := by
  obtain ⟨a, b, c, a', b', c'⟩ := mixed_ok l Prod.fst Prod.snd
  exact ⟨call_stateless a b c (by simpa using hl) (Forall₂.of_map fun x _ => by simp [unpackArgs, lambda2, arith2, broadcast, bcShape_nil, bcIdx_nil, bcIdx_same])
      (rowSeries_map _ l) (by simp) hst,
    call_stateless a' b' c' (by simpa using hl) (Forall₂.of_map fun x _ => by simp [unpackArgs, lambda2, arith2, broadcast, bcShape_nil', bcIdx_nil, bcIdx_same])
      (rowSeries_map _ l) (by simp) hst⟩

section
variable [TFNum α] {s : List Nat}

/-- **C23 Add, Sub, Mul** with one operand a number: it is combined with every element of the other operand, on its side of the operation. -/
theorem C23_arithmetic_scalar {l : List (α × (Idx s → α))} (hl : l ≠ []) {st : Option (Val α)} (hst : NoState st) :
    call Add (.tup [vSBuf (l.map Prod.fst), vBuf (l.map Prod.snd)]) st = .ok (vBuf (l.map fun x c => x.1 + x.2 c), PyVal.unit, PyVal.unit) ∧
    call Add (.tup [vBuf (l.map Prod.snd), vSBuf (l.map Prod.fst)]) st = .ok (vBuf (l.map fun x c => x.2 c + x.1), PyVal.unit, PyVal.unit) ∧
    call Sub (.tup [vSBuf (l.map Prod.fst), vBuf (l.map Prod.snd)]) st = .ok (vBuf (l.map fun x c => x.1 - x.2 c), PyVal.unit, PyVal.unit) ∧
    call Sub (.tup [vBuf (l.map Prod.snd), vSBuf (l.map Prod.fst)]) st = .ok (vBuf (l.map fun x c => x.2 c - x.1), PyVal.unit, PyVal.unit) ∧
    call Mul (.tup [vSBuf (l.map Prod.fst), vBuf (l.map Prod.snd)]) st = .ok (vBuf (l.map fun x c => x.1 * x.2 c), PyVal.unit, PyVal.unit) ∧
    call Mul (.tup [vBuf (l.map Prod.snd), vSBuf (l.map Prod.fst)]) st = .ok (vBuf (l.map fun x c => x.2 c * x.1), PyVal.unit, PyVal.unit) := by
  have h := fun ff fi => lambda2_scalar (s := s) ff fi hl hst
  exact ⟨(h _ _).1, (h _ _).2, (h _ _).1, (h _ _).2, (h _ _).1, (h _ _).2⟩

example : call Sub (.tup [series [5, 7], matrix 2 [[1, 2], [3, 4]]]) none = .ok (matrix 2 [[4, 3], [4, 3]], PyVal.unit, PyVal.unit) := by decide +kernel
example : call Sub (.tup [matrix 2 [[1, 2], [3, 4]], series [5, 7]]) none = .ok (matrix 2 [[-4, -3], [-4, -3]], PyVal.unit, PyVal.unit) := by decide +kernel

/-- **C23 Add, Sub, Mul** work element by element on float tensors ... -/
theorem C23_arithmetic {l : List ((Idx s → α) × (Idx s → α))} (hl : l ≠ []) {st : Option (Val α)} (hst : NoState st) :
    call Add (vBuf2 l) st = .ok (vBuf (l.map fun x => x.1 + x.2), PyVal.unit, PyVal.unit) ∧
    call Sub (vBuf2 l) st = .ok (vBuf (l.map fun x => x.1 - x.2), PyVal.unit, PyVal.unit) ∧
    call Mul (vBuf2 l) st = .ok (vBuf (l.map fun x => x.1 * x.2), PyVal.unit, PyVal.unit) :=
  ⟨lambda2_float _ _ hl hst, lambda2_float _ _ hl hst, lambda2_float _ _ hl hst⟩
example := C23_arithmetic (α := XR ℚ) (s := [2]) (l := [(fun _ => .fin 3, fun _ => .fin 4), (fun c => if c.1 = 0 then .fin 1 else .pinf, fun _ => .fin 5)]) (by simp) (st := none) (.inl rfl)

/-- ... and on int tensors. -/
theorem C23_arithmetic_int {l : List ((Idx s → Int) × (Idx s → Int))} (hl : l ≠ []) {st : Option (Val α)} (hst : NoState st) :
    call Add (vIsBuf2 l) st = .ok (vIsBuf (l.map fun x => x.1 + x.2), PyVal.unit, PyVal.unit) ∧
    call Sub (vIsBuf2 l) st = .ok (vIsBuf (l.map fun x => x.1 - x.2), PyVal.unit, PyVal.unit) ∧
    call Mul (vIsBuf2 l) st = .ok (vIsBuf (l.map fun x => x.1 * x.2), PyVal.unit, PyVal.unit) :=
  ⟨lambda2_int _ _ hl hst, lambda2_int _ _ hl hst, lambda2_int _ _ hl hst⟩

example : call Sub (.tup [series [5, 7, 9], series [1, 2, 4]]) none = .ok (series [4, 5, 5], PyVal.unit, PyVal.unit) := by decide +kernel
example : call Mul (.tup [matrix 2 [[1, 2]], matrix 2 [[3, 4]]]) (some PyVal.unit) = .ok (matrix 2 [[3, 8]], PyVal.unit, PyVal.unit) := by decide +kernel

/-- **C23 Positive and Negative** are 0/1 indicators, element by element. -/
theorem C23_indicators {l : List (Idx s → α)} (hl : l ≠ []) {st : Option (Val α)} (hst : NoState st) :
    call Positive (vBuf l) st = .ok (vBuf (l.map fun x c => if TFNum.lt Arith.zero (x c) then Arith.ofRat 1 else Arith.zero), PyVal.unit, PyVal.unit) ∧
    call Negative (vBuf l) st = .ok (vBuf (l.map fun x c => if TFNum.lt (x c) Arith.zero then Arith.ofRat 1 else Arith.zero), PyVal.unit, PyVal.unit) := by
  constructor
  all_goals
    exact call_stateless (rows_ok l).1 (rows_ok l).2.1 (rows_ok l).2.2 (by simpa using hl)
      (Forall₂.of_map fun a _ => by simp [unpackArgs, indicator, Tensor.map]) (rowSeries_map _ l) (by simp) hst
example := C23_indicators (α := XR ℚ) (s := [2]) (l := [fun _ => .fin 3, fun c => if c.1 = 0 then .fin 1 else .pinf]) (by simp) (st := none) (.inl rfl)

/-- **C23 Positive and Negative** on int tensors. -/
theorem C23_indicators_int {l : List (Idx s → Int)} (hl : l ≠ []) {st : Option (Val α)} (hst : NoState st) :
    call Positive (vIsBuf l) st = .ok (vIsBuf (l.map fun x c => if 0 < x c then 1 else 0), PyVal.unit, PyVal.unit) ∧
    call Negative (vIsBuf l) st = .ok (vIsBuf (l.map fun x c => if x c < 0 then 1 else 0), PyVal.unit, PyVal.unit) := by
  constructor
  all_goals
    refine call_stateless (intRows_ok l).1 (intRows_ok l).2.1 (intRows_ok l).2.2 (by simpa using hl)
      (Forall₂.of_map fun a _ => ?_) (intRowSeries_map _ l) (by simp) hst
    simp [unpackArgs, indicator, Tensor.map]
example := C23_indicators_int (α := XR ℚ) (s := [2]) (l := [fun _ => 3, fun c => if c.1 = 0 then 1 else -2]) (by simp) (st := none) (.inl rfl)

end

/-- **C23**: on exact numbers (including infinities and NaN) the two indicators are never both 1, and are both 0
only on 0 and NaN. -/
theorem C23_exclusive {K : Type} [Field K] [LinearOrder K] [IsStrictOrderedRing K] [Transc K] [FloorRing K] {s : List Nat} {l : List (Idx s → XR K)} (hl : l ≠ []) :
    ∃ ps ns : List (Idx s → XR K), call Positive (vBuf l) none = .ok (vBuf ps, PyVal.unit, PyVal.unit) ∧
      call Negative (vBuf l) none = .ok (vBuf ns, PyVal.unit, PyVal.unit) ∧
      ∃ (h1 : ps.length = l.length) (h2 : ns.length = l.length), ∀ i (hi : i < l.length) c,
        (ps[i] c = .fin 1 ∨ ps[i] c = .fin 0) ∧ (ns[i] c = .fin 1 ∨ ns[i] c = .fin 0) ∧ ¬ (ps[i] c = .fin 1 ∧ ns[i] c = .fin 1) ∧
        (ps[i] c = .fin 0 ∧ ns[i] c = .fin 0 ↔ l[i] c = .fin 0 ∨ l[i] c = .nan) := by
  obtain ⟨h1, h2⟩ := C23_indicators hl (.inl rfl)
  refine ⟨_, _, h1, h2, by simp, by simp, fun i hi c => ?_⟩
  simp only [List.getElem_map]
  generalize l[i] c = a
  cases a with
  | fin a =>
    simp only [XR.zero_eq, XR.lt_fin, XR.ofRat_eq, Rat.cast_one, decide_eq_true_eq]
    rcases lt_trichotomy a 0 with h | h | h
    · simp [h, h.le, h.ne, not_lt.2 h.le]
    · simp [h]
    · simp [h, h.le, h.ne', not_lt.2 h.le]
  | pinf => simp [XR.zero_eq, TFNum.lt, XR.lt]
  | ninf => simp [XR.zero_eq, TFNum.lt, XR.lt]
  | nan => simp [XR.zero_eq, TFNum.lt, XR.lt]

example : output (call Positive (series [5, 0, -9]) none) = .ok (series [1, 0, 0]) := by decide +kernel
example : output (call Negative (series [5, 0, -9]) none) = .ok (series [0, 0, 1]) := by decide +kernel

/-- A series of tensors, of any dtype and shape. -/
def IsTensorSeries (n : Nat) (l : Leaf α) : Prop := l.size0 = .ok n

theorem leafSeries {n : Nat} {l : Leaf α} (h : IsTensorSeries n l) : ∃ xs, xs.length = n ∧ IsSeries (.leaf l) xs :=
  exists_isSeries (by simpa [flatten, IsTensorSeries] using h)

/-- **C23 Identity** returns its input. -/
theorem C23_identity {n : Nat} {l : Leaf α} (h : IsTensorSeries (n + 1) l) {st : Option (Val α)} (hst : NoState st) :
    call Identity (.leaf l) st = .ok (.leaf l, PyVal.unit, PyVal.unit) := by
  obtain ⟨xs, hn, hin⟩ := leafSeries h
  refine call_stateless (by simp) (by simp [flatten]) hin (by rintro rfl; simp at hn) (os := xs) ?_ hin (by simp) hst
  rw [List.forall₂_same]
  intro x hx
  obtain ⟨l', rfl⟩ := slice_leaf hin x hx
  rfl
example := C23_identity (α := XR ℚ) (n := 1) (l := .i (Tensor.pack [] [fun _ => 3, fun _ => 4])) rfl (st := none) (.inl rfl)

/-- **C23 Fork** returns `k` copies of its input. -/
theorem C23_fork (k : Nat) {n : Nat} {l : Leaf α} (h : IsTensorSeries (n + 1) l) {st : Option (Val α)} (hst : NoState st) :
    call (Fork k) (.leaf l) st = .ok (.tup (List.replicate k (.leaf l)), PyVal.unit, PyVal.unit) := by
  obtain ⟨xs, hn, hin⟩ := leafSeries h
  refine call_stateless (by simp) (by simp [flatten]) hin (by rintro rfl; simp at hn) (os := xs.map fun x => .tup (List.replicate k x)) ?_ ?_
    (by simp [WF_tup]) hst
  · rw [List.forall₂_map_right_iff, List.forall₂_same]
    intro x hx
    obtain ⟨l', rfl⟩ := slice_leaf hin x hx
    rfl
  · have := isSeries_tup_map (α := α) (l := xs) (vs := List.replicate k (.leaf l)) (es := List.replicate k id) (by
      rw [List.forall₂_iff_get]
      refine ⟨by simp, fun i h1 h2 => ?_⟩
      simpa using hin)
    simpa using this

example : call (Fork 3) (vIBuf [1, 2] : Val (XR ℚ)) none = .ok (.tup [vIBuf [1, 2], vIBuf [1, 2], vIBuf [1, 2]], PyVal.unit, PyVal.unit) := by decide +kernel
example : IsTensorSeries 2 (.b (Tensor.pack [] [fun _ => true, fun _ => false]) : Leaf (XR ℚ)) := rfl

theorem pyIndex_of_atIndex {A : Type} {vs : List A} {k : Int} {v : A} (h : AtIndex vs k v) : pyIndex vs k = .ok v := by
  rcases h with ⟨h1, h2⟩ | ⟨h1, h2, h3⟩
  · simp [pyIndex, show ¬ k < 0 by omega, h2]
  · simp [pyIndex, h1, show ¬ (vs.length : Int) + k < 0 by omega, h3]

theorem atIndex_map {A B : Type} {f : A → B} {vs : List A} {k : Int} {v : A} (h : AtIndex vs k v) : AtIndex (vs.map f) k (f v) := by
  rcases h with ⟨h1, h2⟩ | ⟨h1, h2, h3⟩
  · exact .inl ⟨h1, by simp [h2]⟩
  · exact .inr ⟨h1, by simpa using h2, by simp [h3]⟩

theorem atIndex_mem {A : Type} {vs : List A} {k : Int} {v : A} (h : AtIndex vs k v) : v ∈ vs := by
  rcases h with ⟨_, h2⟩ | ⟨_, _, h3⟩
  · exact List.mem_of_getElem? h2
  · exact List.mem_of_getElem? h3

/-- series of the members of a tuple -/
theorem members {n : Nat} {ls : List (Leaf α)} (h : ∀ l ∈ ls, IsTensorSeries n l) :
    ∃ e : Leaf α → Nat → Val α, ∀ l ∈ ls, IsSeries (.leaf l) ((List.range n).map (e l)) := by
  have : ∀ l : Leaf α, ∃ f : Nat → Val α, l ∈ ls → IsSeries (.leaf l) ((List.range n).map f) := by
    intro l
    by_cases hl : l ∈ ls
    · obtain ⟨xs, hn, hin⟩ := leafSeries (h l hl)
      refine ⟨fun i => xs[i]?.getD PyVal.unit, fun _ => ?_⟩
      rw [show (List.range n).map (fun i => xs[i]?.getD PyVal.unit) = xs from ?_]
      · exact hin
      · subst hn
        exact List.ext_getElem (by simp) fun i h1 h2 => by simp [List.getElem?_eq_getElem h2]
    · exact ⟨fun _ => PyVal.unit, fun h => absurd h hl⟩
  choose e he using this
  exact ⟨e, he⟩

theorem members_tup {n : Nat} {ls : List (Leaf α)} {e : Leaf α → Nat → Val α} (h : ∀ l ∈ ls, IsSeries (.leaf l) ((List.range n).map (e l))) :
    IsSeries (.tup (ls.map .leaf)) ((List.range n).map fun i => .tup (ls.map fun l => e l i)) := by
  have := isSeries_tup_map (l := List.range n) (vs := ls.map PyVal.leaf) (es := ls.map e) (Forall₂.of_map h)
  simpa [List.map_map, Function.comp_def] using this

theorem isSeries_list {A : Type} {l : List A} {vs : List (Val α)} {f : A → List (Val α)} (h : IsSeries (.tup vs) (l.map fun a => .tup (f a))) :
    IsSeries (.node .list vs) (l.map fun a => .node .list (f a)) := by
  refine ⟨?_, fun i hi => ?_⟩
  · simpa [PyVal.tup, flatten] using h.size
  · have := h.slice i (by simpa using hi)
    simp only [List.getElem_map] at this ⊢
    obtain ⟨xs, h1, h2⟩ := sliceAt_tup.1 this
    rw [sliceAt, traverse_node]
    simp only [PyVal.tup, PyVal.node.injEq, true_and] at h2
    rw [h2]
    have h1' : List.mapM (PyVal.traverse (Leaf.index i)) vs = .ok xs := h1
    rw [h1']
    rfl

theorem range_ne {n : Nat} : List.range (n + 1) ≠ [] := by simp [List.range_succ]

theorem flatten_tup_leaf {ls : List (Leaf α)} : flatten (.tup (ls.map .leaf)) = ls := by
  rw [PyVal.tup, flatten]
  induction ls with
  | nil => rfl
  | cons a ls ih => rw [List.map_cons, flattens, ih]; rfl

/-- **C23 Select with an int** returns that member. -/
theorem C23_select {k : Int} {n : Nat} {ls : List (Leaf α)} (h : ∀ l ∈ ls, IsTensorSeries (n + 1) l) {l : Leaf α} (hk : AtIndex ls k l)
    {st : Option (Val α)} (hst : NoState st) :
    call (Select (.int k)) (.tup (ls.map .leaf)) st = .ok (.leaf l, PyVal.unit, PyVal.unit) := by
  obtain ⟨e, he⟩ := members h
  have hm := atIndex_mem hk
  refine call_stateless (by simp [WF_tup]) ?_ (members_tup he) (by simp) (Forall₂.of_map fun i _ => ?_) (he l hm) (by simp) hst
  · rw [flatten_tup_leaf]; rintro rfl; cases hm
  · exact pyIndex_of_atIndex (atIndex_map (f := fun l => e l i) hk)

example : call (Select (.int (-1))) (.tup [series [5, 7], series [1, 2], vIBuf [8, 9]]) none = .ok (vIBuf [8, 9], PyVal.unit, PyVal.unit) := by decide +kernel

/-! ### C24 -/

/-- **C24**: with a tuple of indices, `Select` fails on every input and state. -/
theorem C24_select_tuple_fails (ks : List Int) (v : Val α) (st : Option (Val α)) : ∃ e, call (Select (.tuple ks)) v st = .error e := by
  cases hc : call (Select (.tuple ks)) v st with
  | error e => exact ⟨e, rfl⟩
  | ok r =>
    exfalso
    have key : ∀ (v : Val α) (st : Option (Val α)), callStreamed (Select (.tuple ks)) v st ≠ .ok r := by
      intro v st h
      simp only [callStreamed, bind_eq_ok] at h
      obtain ⟨sizes, -, h⟩ := h
      cases sizes with
      | nil => cases h
      | cons n sizes =>
        simp only at h
        split at h
        · cases h
        · simp only [bind_eq_ok] at h
          obtain ⟨x0, -, ⟨o, n0, i0⟩, h1, arr, h2, -⟩ := h
          have : o = .leaf .gen := by
            simp only [Select, makeStreamable, streamable, ok_bind, Except.ok.injEq, Prod.mk.injEq] at h1
            exact h1.1.symm
          subst this
          simp [mapFn, fn1, TArr.new, Leaf.dtype] at h2
    simp only [call, bind_eq_ok] at hc
    obtain ⟨v', -, hc⟩ := hc
    cases st with
    | none => exact key v' none (by simpa using hc)
    | some s =>
      simp only [bind_eq_ok] at hc
      obtain ⟨s', -, hc⟩ := hc
      exact key v' (some s') (by simpa using hc)
example := C24_select_tuple_fails (α := XR ℚ) [1, 0] (.tup [series [1], series [2]]) none

/-- **C24**: a single step returns the generator, and every operator rejects it, streaming or not. -/
theorem C24_downstream_rejects (op : Operator α) (st : Option (Val α)) (b : Bool) : ∃ e, call op (.leaf .gen) st b = .error e := by
  cases hc : call op (.leaf .gen) st b with
  | error e => exact ⟨e, rfl⟩
  | ok r =>
    exfalso
    simp only [call, bind_eq_ok] at hc
    obtain ⟨v', h, -⟩ := hc
    have := ((toTensors_eq_ok (v := .leaf .gen) (by simp)).1 h).2
    exact this .gen (by simp [flatten]) rfl
example := C24_downstream_rejects (α := XR ℚ) (SMA 2) none false

/-- **C24**: `Select` with a list of indices returns the list of the members.  (With an int it returns that member, `C23_select`.) -/
theorem C24_select_list {ks : List Int} {n : Nat} {ls : List (Leaf α)} (hne : ls ≠ []) (h : ∀ l ∈ ls, IsTensorSeries (n + 1) l) {sel : List (Leaf α)}
    (hk : List.Forall₂ (AtIndex ls) ks sel) {st : Option (Val α)} (hst : NoState st) :
    call (Select (.list ks)) (.tup (ls.map .leaf)) st = .ok (.node .list (sel.map .leaf), PyVal.unit, PyVal.unit) := by
  obtain ⟨e, he⟩ := members h
  have hm : ∀ l ∈ sel, l ∈ ls := by
    intro l hl
    clear * - hk hl
    induction hk with
    | nil => cases hl
    | cons h _ ih =>
      rcases List.mem_cons.1 hl with rfl | hl
      · exact atIndex_mem h
      · exact ih hl
  refine call_stateless (by simp [WF_tup]) (by rw [flatten_tup_leaf]; exact hne) (members_tup he) (by simp) (Forall₂.of_map fun i _ => ?_)
    (isSeries_list (members_tup fun l hl => he l (hm l hl))) (by simp [PyVal.WF_node]) hst
  have : ks.mapM (pyIndex (ls.map fun l => e l i)) = .ok (sel.map fun l => e l i) := by
    clear * - hk
    induction hk with
    | nil => rfl
    | cons h _ ih => simp [List.mapM_cons, pyIndex_of_atIndex (atIndex_map (f := fun l => e l i) h), ih]
  simp [unpackArgs, this]
example := C24_select_list (α := XR ℚ) (ks := [1, -1, 0]) (n := 1) (ls := [.i (Tensor.pack [] [fun _ => 3, fun _ => 4]), .f (Tensor.pack [] [fun _ => .fin 5, fun _ => .nan])]) (by simp)
  (by simp only [List.mem_cons, List.not_mem_nil, or_false]; rintro l (rfl | rfl) <;> rfl)
  (.cons (by simp [AtIndex]; rfl) (.cons (by simp [AtIndex]; rfl) (.cons (by simp [AtIndex]; rfl) .nil))) (st := none) (.inl rfl)

/-- an index of a sequence of `n` members, Python style -/
def InRange (n : Nat) (k : Int) : Prop := -(n : Int) ≤ k ∧ k < n

instance (n : Nat) (k : Int) : Decidable (InRange n k) := inferInstanceAs (Decidable (_ ∧ _))

theorem inRange_iff {A : Type} {vs : List A} {k : Int} : InRange vs.length k ↔ ∃ v, AtIndex vs k v := by
  constructor
  · rintro ⟨h1, h2⟩
    by_cases hk : 0 ≤ k
    · exact ⟨vs[k.toNat]'(by omega), .inl ⟨hk, List.getElem?_eq_getElem _⟩⟩
    · exact ⟨vs[(vs.length + k).toNat]'(by omega), .inr ⟨by omega, h1, List.getElem?_eq_getElem _⟩⟩
  · rintro ⟨v, ⟨h1, h2⟩ | ⟨h1, h2, h3⟩⟩
    · have := (List.getElem?_eq_some_iff.1 h2).1
      exact ⟨by omega, by omega⟩
    · exact ⟨h2, by omega⟩

theorem inRange_of_pyIndex {A : Type} {vs : List A} {k : Int} {v : A} (h : pyIndex vs k = .ok v) : InRange vs.length k := by
  unfold pyIndex at h
  dsimp only at h
  have key : ∀ j : Int, ¬ j < 0 → (match vs[j.toNat]? with | some x => Except.ok x | none => Except.error Err.indexError) = .ok v → j < vs.length := by
    intro j hj h
    split at h
    · rename_i hx
      have := (List.getElem?_eq_some_iff.1 hx).1
      omega
    · cases h
  by_cases hk : k < 0
  · rw [if_pos hk] at h
    by_cases hj : (vs.length : Int) + k < 0
    · rw [if_pos hj] at h; cases h
    · exact ⟨by omega, by omega⟩
  · rw [if_neg hk, if_neg hk] at h
    exact ⟨by omega, key k hk h⟩

/-- A stateless operator that streams accepts the first sample. -/
theorem stateless_first {fn : List (Val α) → Res (Val α)} {v x : Val α} {xs : List (Val α)} {r : Step α} (hw : v.WF) (hin : IsSeries v (x :: xs))
    (h : call (makeStreamable fn) v none = .ok r) : ∃ o, fn (unpackArgs x) = .ok o := by
  rw [call_eq _ hw (call_ok_tensors hw (by simp) h).1 (by simp), if_pos rfl] at h
  simp only [callStreamed, bind_eq_ok] at h
  obtain ⟨sizes, -, h⟩ := h
  cases sizes with
  | nil => cases h
  | cons n sizes =>
    simp only at h
    split at h
    · cases h
    · simp only [bind_eq_ok] at h
      obtain ⟨x0, h0, ⟨o, n0, i0⟩, h1, -⟩ := h
      have e : x0 = x := by
        have := hin.slice 0 (by simp)
        rw [List.getElem_cons_zero] at this
        rw [mapFn_fn1_self _ _ hw] at h0
        exact Except.ok.inj (h0.symm.trans this)
      subst e
      simp only [makeStreamable, streamable, bind_eq_ok, Except.ok.injEq, Prod.mk.injEq] at h1
      obtain ⟨o', h1, -⟩ := h1
      exact ⟨_, by simpa using h1⟩

/-- **C24 Which indices Select accepts**: on a tuple of series, `Select` streams exactly when it is given an int or a list of ints, all of them within the range of the tuple. -/
theorem C24_select_iff {ix : Indices} {n : Nat} {ls : List (Leaf α)} (hne : ls ≠ []) (h : ∀ l ∈ ls, IsTensorSeries (n + 1) l) :
    (∃ r, call (Select ix) (.tup (ls.map .leaf)) none = .ok r) ↔
      (∃ k, ix = .int k ∧ InRange ls.length k) ∨ ∃ ks, ix = .list ks ∧ ∀ k ∈ ks, InRange ls.length k := by
  constructor
  · rintro ⟨r, hr⟩
    obtain ⟨e, he⟩ := members h
    have hs := members_tup he
    rw [List.range_succ_eq_map, List.map_cons] at hs
    cases ix with
    | tuple ks =>
      obtain ⟨e, he⟩ := C24_select_tuple_fails ks (.tup (ls.map .leaf)) none
      rw [hr] at he
      cases he
    | int k =>
      obtain ⟨o, ho⟩ := stateless_first (by simp [WF_tup]) hs hr
      exact .inl ⟨k, rfl, by simpa [unpackArgs] using inRange_of_pyIndex ho⟩
    | list ks =>
      obtain ⟨o, ho⟩ := stateless_first (by simp [WF_tup]) hs hr
      refine .inr ⟨ks, rfl, fun k hk => ?_⟩
      simp only [bind_eq_ok] at ho
      obtain ⟨os, ho, -⟩ := ho
      obtain ⟨i, hi, rfl⟩ := List.mem_iff_getElem.1 hk
      have ho := (mapM_eq_ok_iff_get.1 ho).2 i hi
      simpa [unpackArgs] using inRange_of_pyIndex ho
  · rintro (⟨k, rfl, hk⟩ | ⟨ks, rfl, hk⟩)
    · obtain ⟨l, hl⟩ := inRange_iff.1 hk
      exact ⟨_, C23_select h hl (.inl rfl)⟩
    · have : ∃ sel, List.Forall₂ (AtIndex ls) ks sel := by
        clear * - hk
        induction ks with
        | nil => exact ⟨[], .nil⟩
        | cons k ks ih =>
          obtain ⟨l, hl⟩ := inRange_iff.1 (hk k (by simp))
          obtain ⟨sel, h⟩ := ih fun k h => hk k (by simp [h])
          exact ⟨l :: sel, .cons hl h⟩
      obtain ⟨sel, hs⟩ := this
      exact ⟨_, C24_select_list hne h hs (.inl rfl)⟩

example : call (Select (.list [2, 0])) (.tup [series [5, 7], series [1, 2], vIBuf [8, 9]]) none =
    .ok (.node .list [vIBuf [8, 9], series [5, 7]], PyVal.unit, PyVal.unit) := by decide +kernel
/-- An index out of range fails, as does a tuple. -/
example : (call (Select (.list [2, -4])) (.tup [series [5, 7], series [1, 2], vIBuf [8, 9]]) none).isOk = false := by decide +kernel
example : (∃ k, Indices.int (-3) = .int k ∧ InRange 3 k) := ⟨-3, rfl, by decide⟩
example : call (Select (.tuple [2, 0])) (.tup [series [5, 7], series [1, 2], vIBuf [8, 9]]) none = .error .attributeError := by decide +kernel

end TS
