import Verif.Lemmas.TrackAverages
import Verif.Spec.Common
/-
The operators of common/ as functions of the history.
-/
namespace TS
open PyVal
variable {α : Type}

/-- The buffers allocated have the shape `concat([period], tf.shape(value))`. -/
theorem zerosBufLike_shape [TFNum α] {period : Int} (hp : 0 ≤ period) {v : Leaf α} {s : List Nat} (hs : v.shape = .ok s) :
    ∃ b, zerosBufLike period v = .ok b ∧ b.shape = .ok (concat [period.toNat] s) ∧ b.dtype = v.dtype := by
  have e : ∀ t : List Nat, concat [period.toNat] t = period.toNat :: t := fun t => by cases t <;> simp [concat]
  have hp' : ¬ period < 0 := by omega
  cases v <;> simp only [Leaf.shape, Except.ok.injEq, reduceCtorEq] at hs <;> subst hs <;>
    simp [zerosBufLike, hp', e, Leaf.shape, Leaf.dtype, Tensor.pack]

theorem lagged_eq {A : Type} {z : A} {p : Nat} (hp : 0 < p) (h : List A) (x : A) :
    lagged z p (h ++ [x]) = (padded z p h)[p - 1]'(by simp; omega) := by
  rw [padded_getElem (by omega), lagged]
  obtain ⟨q, rfl⟩ : ∃ q, p = q + 1 := ⟨p - 1, by omega⟩
  simp

section
variable {β : Type} (mk : Tensor β → Leaf α)

theorem lastLeaf_pack (hmk : ∀ (t : Tensor β) i, (mk t).size0 = t.size0 ∧ (mk t).index i = mk <$> t.index i)
    {s : List Nat} {l : List (Idx s → β)} (hl : 0 < l.length) :
    lastLeaf (mk (Tensor.pack s l)) = .ok (mk ⟨s, l[l.length - 1]'(by omega)⟩) := by
  obtain ⟨n, hn⟩ : ∃ n, l.length = n + 1 := ⟨l.length - 1, by omega⟩
  have h1 : (mk (Tensor.pack s l)).size0 = .ok (n + 1) := by rw [(hmk _ 0).1, Tensor.size0_pack, hn]
  have h2 : (mk (Tensor.pack s l)).index n = .ok (mk ⟨s, l[n]⟩) := by
    rw [(hmk _ n).2, Tensor.index_pack s l n (by omega)]; rfl
  simp only [lastLeaf, h1, ok_bind, h2]
  simp [hn]

variable [TFNum α]

theorem lag_tracks_aux (hmk : ∀ (t : Tensor β) i, (mk t).size0 = t.size0 ∧ (mk t).index i = mk <$> t.index i)
    {s : List Nat} (z : Idx s → β) {p : Nat} (hp : 0 < p)
    (hz : ∀ v : Idx s → β, zerosBufLike (p : Int) (mk ⟨s, v⟩) = .ok (mk (Tensor.pack s (List.replicate p z))))
    (hr : ∀ (v : Idx s → β) l, rollLeaf (mk ⟨s, v⟩) (mk (Tensor.pack s l)) = .ok (mk (Tensor.pack s (roll v l)))) {d : DType}
    (hd : ∀ t, (mk t).sig = some (d, t.shape)) (hdt : ∀ t, (mk t).dtype = .ok d) (hgen : ∀ t, mk t ≠ .gen) :
    Tracks (Lag (p : Int) : Operator α) Any (fun x : Idx s → β => .leaf (mk ⟨s, x⟩)) (fun h => .leaf (mk ⟨s, lagged z p h⟩))
      (fun h => .leaf (mk (Tensor.pack s (padded z p h)))) := by
  have e : ∀ (h : List (Idx s → β)) x, lastLeaf (mk (Tensor.pack s (padded z p h))) = .ok (mk ⟨s, lagged z p (h ++ [x])⟩) := by
    intro h x
    rw [lastLeaf_pack mk hmk (by simpa using hp), lagged_eq hp]
    simp
  constructor
  · intro x _
    have := e [] x
    rw [padded_nil] at this
    simp [Lag, streamable, unpackArgs, arity, lagStep, hz, this, hr]
    rw [show padded z p [x] = roll x (padded z p []) from (roll_padded hp [] x).symm, padded_nil]
    exact ⟨rfl, rfl⟩
  · intro h x _
    simp [Lag, streamable, unpackArgs, arity, lagStep, e h x, hr, roll_padded hp]
  · intro x
    exact ⟨by simp, by simpa [Tensors, flatten] using hgen ⟨s, x⟩⟩
  · exact ⟨.leaf (d, s), fun h _ => ⟨by simp, by simp [HasSig, PyVal.map, hd]⟩⟩
  · exact ⟨.leaf d, fun h => ⟨by simp, by simp [HasType_iff, PyVal.map, hdt]⟩⟩
end

section
variable [TFNum α]

theorem lag_tracks {p : Nat} (hp : 0 < p) (s : List Nat) :
    Tracks (Lag (p : Int) : Operator α) Any (fun x : Idx s → α => vF x) (fun h => vF (lagged Arith.zero p h))
      (fun h => vBuf (padded Arith.zero p h)) :=
  lag_tracks_aux (mk := Leaf.f) (fun t i => ⟨rfl, rfl⟩) (d := .float) _ hp (fun v => by simp [zerosBufLike]; rfl)
    (fun v l => by simp [rollLeaf]) (fun _ => rfl) (fun _ => rfl) (fun _ => by simp)

theorem lag_tracks_int {p : Nat} (hp : 0 < p) (s : List Nat) :
    Tracks (Lag (p : Int) : Operator α) Any (fun x : Idx s → Int => vIs x) (fun h => vIs (lagged (fun _ => 0) p h))
      (fun h => .leaf (.i (Tensor.pack s (padded (fun _ => 0) p h)))) :=
  lag_tracks_aux (mk := Leaf.i) (fun t i => ⟨rfl, rfl⟩) (d := .int) _ hp (fun v => by simp [zerosBufLike])
    (fun v l => by simp [rollLeaf]) (fun _ => rfl) (fun _ => rfl) (fun _ => by simp)

theorem lag_tracks_bool {p : Nat} (hp : 0 < p) (s : List Nat) :
    Tracks (Lag (p : Int) : Operator α) Any (fun x : Idx s → Bool => .leaf (.b ⟨s, x⟩)) (fun h => .leaf (.b ⟨s, lagged (fun _ => false) p h⟩))
      (fun h => .leaf (.b (Tensor.pack s (padded (fun _ => false) p h)))) :=
  lag_tracks_aux (mk := Leaf.b) (fun t i => ⟨rfl, rfl⟩) (d := .bool) _ hp (fun v => by simp [zerosBufLike])
    (fun v l => by simp [rollLeaf]) (fun _ => rfl) (fun _ => rfl) (fun _ => by simp)

end

/-! ### SetDuring -/

theorem setLeaf_f {c : α} {b : Bool} {t : Tensor α} : setLeaf (.f (Tensor.scalar c)) b (.f t) = .ok (if b then fillF c (.f t) else .f t) := by
  cases b <;> simp [setLeaf, Tensor.asShape, fillF]

theorem setLeaf_i {c : Int} {b : Bool} {t : Tensor Int} :
    setLeaf (.i (Tensor.scalar c) : Leaf α) b (.i t) = .ok (if b then fillI c (.i t) else .i t) := by
  cases b <;> simp [setLeaf, Tensor.asShape, fillI]

/-- all leaves are float tensors -/
def Floats (v : Val α) : Prop := ∀ l ∈ flatten v, ∃ t, l = .f t
/-- all leaves are int tensors -/
def Ints (v : Val α) : Prop := ∀ l ∈ flatten v, ∃ t, l = .i t

theorem fillF_sig (c : α) (l : Leaf α) : (fillF c l).sig = l.sig := by cases l <;> rfl
theorem fillI_sig (c : Int) (l : Leaf α) : (fillI c l).sig = l.sig := by cases l <;> rfl

theorem HasSig.map_same {v : Val α} {ty} (h : HasSig v ty) {f : Leaf α → Leaf α} (hf : ∀ l, (f l).sig = l.sig) : HasSig (v.map f) ty := by
  unfold HasSig at *
  rw [← h, PyVal.map_map]
  exact PyVal.map_congr _ fun l _ => hf l

theorem HasSig.tensors {v : Val α} {ty} (h : HasSig v ty) : Tensors v := tensors_iff.2 ⟨_, h.hasType⟩

theorem mapFn_self_ok {v : Val α} (hv : v.WF) {f : Leaf α → Res (Leaf α)} {g : Leaf α → Leaf α} (h : ∀ l ∈ flatten v, f l = .ok (g l)) :
    mapFn (fn1 f) v [v] = .ok (v.map g) := by
  rw [mapFn_fn1_self _ _ hv]; exact traverse_ok f g v h

theorem map_self {v : Val α} {f : Leaf α → Leaf α} (h : ∀ l, f l = l) : v.map f = v := by
  rw [show f = id from funext h, PyVal.map_id]

theorem setDuring_follows_aux {A : Type} {V : List A → Prop} {x : List A → Val α} {ty} (hx : ∀ h, h ≠ [] → (x h).WF ∧ HasSig (x h) ty)
    {value : Leaf α} {f : Leaf α → Leaf α} (hf : ∀ l, (f l).sig = l.sig)
    (hset : ∀ h, h ≠ [] → ∀ b, ∀ l ∈ flatten (x h), setLeaf value b l = .ok (if b then f l else l)) (period : Int) :
    Follows (SetDuring value period) V x (fun h => if (h.length : Int) ≤ period then (x h).map f else x h) (fun h => .tup [vI h.length]) := by
  have e : ∀ h, h ≠ [] → ∀ n : Int, n + 1 = h.length → mapFn (fn1 (setLeaf value (decide (n < period)))) (x h) [x h] =
      .ok (if (h.length : Int) ≤ period then (x h).map f else x h) := by
    intro h hh n hn
    rw [mapFn_self_ok (hx h hh).1 (g := fun l => if decide (n < period) then f l else l) (fun l hl => hset h hh _ l hl)]
    congr 1
    by_cases hp : n < period
    · rw [show decide (n < period) = true by simpa using hp, if_pos (by omega)]; rfl
    · rw [show decide (n < period) = false by simpa using hp, if_neg (by omega)]
      exact map_self fun _ => rfl
  refine ⟨fun a _ => ?_, fun h a _ => ?_, ⟨ty, fun h hh => ?_⟩, .tup [.leaf .int], fun h => ⟨by simp [WF_tup], HasType_iff.2 rfl⟩⟩
  · rw [call_eq false (hx [a] (by simp)).1 (hx [a] (by simp)).2.tensors (by simp)]
    simp [SetDuring, metaStreamable, setDuringStep, getItem, asSeq, e [a] (by simp) 0 rfl]
  · rw [call_eq false (hx (h ++ [a]) (by simp)).1 (hx (h ++ [a]) (by simp)).2.tensors
      (by rintro _ ⟨⟩; exact ⟨by simp [WF_tup], by simp [Tensors, PyVal.tup, flatten, flattens]⟩)]
    simp [SetDuring, metaStreamable, setDuringStep, getItem, asSeq, e (h ++ [a]) (by simp) h.length (by simp)]
  · split
    · exact ⟨(PyVal.WF_map _ _).2 (hx h hh).1, (hx h hh).2.map_same hf⟩
    · exact hx h hh

theorem setDuring_follows {A : Type} {V : List A → Prop} {x : List A → Val α} {ty} (hx : ∀ h, h ≠ [] → (x h).WF ∧ HasSig (x h) ty)
    (hfl : ∀ h, h ≠ [] → Floats (x h)) (c : α) (period : Int) :
    Follows (SetDuring (.f (Tensor.scalar c)) period) V x (fun h => if (h.length : Int) ≤ period then (x h).map (fillF c) else x h)
      (fun h => .tup [vI h.length]) :=
  setDuring_follows_aux hx (fillF_sig c) (fun h hh b l hl => by obtain ⟨t, rfl⟩ := hfl h hh l hl; exact setLeaf_f) period

theorem setDuring_follows_int {A : Type} {V : List A → Prop} {x : List A → Val α} {ty} (hx : ∀ h, h ≠ [] → (x h).WF ∧ HasSig (x h) ty)
    (hfl : ∀ h, h ≠ [] → Ints (x h)) (c : Int) (period : Int) :
    Follows (SetDuring (.i (Tensor.scalar c)) period) V x (fun h => if (h.length : Int) ≤ period then (x h).map (fillI c) else x h)
      (fun h => .tup [vI h.length]) :=
  setDuring_follows_aux hx (fillI_sig c) (fun h hh b l hl => by obtain ⟨t, rfl⟩ := hfl h hh l hl; exact setLeaf_i) period

/-! ### Stateless operators -/

theorem unit_ok : (PyVal.unit : Val α).WF ∧ HasType (PyVal.unit : Val α) PyVal.unit := ⟨by simp [PyVal.unit, PyVal.WF_node], HasType_iff.2 rfl⟩

theorem call_makeStreamable {fn : List (Val α) → Res (Val α)} {x o : Val α} (hw : x.WF) (ht : Tensors x) (h : fn (unpackArgs x) = .ok o)
    {st : Option (Val α)} (hst : st = none ∨ st = some PyVal.unit) :
    call (makeStreamable fn) x st false = .ok (o, PyVal.unit, PyVal.unit) := by
  have hu : Tensors (PyVal.unit : Val α) := tensors_iff.2 ⟨_, unit_ok.2⟩
  rcases hst with rfl | rfl
  · rw [call_eq false hw ht (by simp)]
    simp [makeStreamable, streamable, h]
  · rw [call_eq false hw ht (by rintro _ ⟨⟩; exact ⟨unit_ok.1, hu⟩)]
    have : unpackArgs (PyVal.unit : Val α) = [] := rfl
    simp [makeStreamable, streamable, h, this]

theorem stateless_follows {A : Type} {V : List A → Prop} {fn : List (Val α) → Res (Val α)} {x out : List A → Val α}
    (hx : ∀ h, h ≠ [] → (x h).WF ∧ Tensors (x h)) (hf : ∀ h, h ≠ [] → fn (unpackArgs (x h)) = .ok (out h))
    {ty} (ho : ∀ h, h ≠ [] → (out h).WF ∧ HasSig (out h) ty) : Follows (makeStreamable fn) V x out (fun _ => PyVal.unit) :=
  ⟨fun a _ => call_makeStreamable (hx _ (by simp)).1 (hx _ (by simp)).2 (hf _ (by simp)) (.inl rfl),
   fun h a _ => call_makeStreamable (hx _ (by simp)).1 (hx _ (by simp)).2 (hf _ (by simp)) (.inr rfl),
   ⟨ty, ho⟩, _, fun _ => unit_ok⟩

/-- `x h` is the float tensor `u h` -/
theorem float_ok {A : Type} {s : List Nat} (u : List A → Idx s → α) : ∀ h : List A, h ≠ [] → (vF (u h)).WF ∧ HasSig (vF (u h)) (.leaf (.float, s)) :=
  fun _ _ => ⟨by simp, rfl⟩

theorem fork2_follows {A : Type} {V : List A → Prop} {s : List Nat} (u : List A → Idx s → α) :
    Follows (Fork 2) V (fun h => vF (u h)) (fun h => .tup [vF (u h), vF (u h)]) (fun _ => PyVal.unit) :=
  stateless_follows (fun h hh => ⟨(float_ok u h hh).1, (float_ok u h hh).2.tensors⟩) (fun h _ => by simp [unpackArgs, List.replicate])
    (ty := .tup [.leaf (.float, s), .leaf (.float, s)]) (fun h _ => ⟨by simp [WF_tup], rfl⟩)

theorem identity_follows {A : Type} {V : List A → Prop} {s : List Nat} (u : List A → Idx s → α) :
    Follows Identity V (fun h => vF (u h)) (fun h => vF (u h)) (fun _ => PyVal.unit) :=
  stateless_follows (fun h hh => ⟨(float_ok u h hh).1, (float_ok u h hh).2.tensors⟩) (fun h _ => by simp [unpackArgs])
    (ty := .leaf (.float, s)) (fun h _ => ⟨by simp, rfl⟩)

section
variable [TFNum α]

theorem padShape_self (s : List Nat) : padShape s.length s = s := by simp [padShape]

theorem bcShape_same (s : List Nat) : bcShape s s = .ok s := by
  simp only [bcShape, max_self, padShape_self]
  induction s with
  | nil => rfl
  | cons n s ih => rw [List.zip_cons_cons, List.mapM_cons, ih]; simp [bcDim]

theorem bcIdx_same (s : List Nat) : bcIdx s s = .ok id := by
  induction s with
  | nil => rfl
  | cons n s ih =>
    simp only [bcIdx, List.length_cons]
    rw [if_neg (by omega), ih]
    simp
    rfl

theorem broadcast_same {β γ : Type} (f : β → β → γ) {s : List Nat} (x y : Idx s → β) :
    broadcast f ⟨s, x⟩ ⟨s, y⟩ = .ok ⟨s, fun c => f (x c) (y c)⟩ := by simp [broadcast, bcShape_same, bcIdx_same]

theorem sub_follows {A : Type} {V : List A → Prop} {s : List Nat} (u v : List A → Idx s → α) :
    Follows Sub V (fun h => .tup [vF (u h), vF (v h)]) (fun h => vF (u h - v h)) (fun _ => PyVal.unit) :=
  stateless_follows (fun h hh => ⟨by simp [WF_tup], by simp [Tensors, flatten, flattens]⟩)
    (fun h _ => by simp [unpackArgs, lambda2, arith2, broadcast_same]; rfl)
    (ty := .leaf (.float, s)) (fun h _ => ⟨by simp, rfl⟩)

/-! ### Extrema -/

theorem runMin_snoc (h : List α) (x : α) :
    runMin (h ++ [x]) = if h.isEmpty || TFNum.lt x (runMin h) then x else runMin h := by
  cases h with
  | nil => simp [runMin]
  | cons a h => simp [runMin, List.foldl_append]

theorem runMax_snoc (h : List α) (x : α) :
    runMax (h ++ [x]) = if h.isEmpty || TFNum.lt (runMax h) x then x else runMax h := by
  cases h with
  | nil => simp [runMax]
  | cons a h => simp [runMax, List.foldl_append]

/-- the state of the global extrema -/
def extState (y : List α → α) (h : List α) : Val α := .tup [vS (y h), vB h.isEmpty]

theorem extState_ok (y : List α → α) (h : List α) :
    (extState y h).WF ∧ HasType (extState y h) (.tup [.leaf .float, .leaf .bool]) := ⟨by simp [extState, WF_tup], HasType_iff.2 rfl⟩

theorem globalMin_tracks : Tracks (GlobalMinimum : Operator α) Any vS (fun h => vS (runMin h)) (extState runMin) := by
  constructor
  · intro x _
    simp [GlobalMinimum, globalExtremum, globalArgs, streamable, unpackArgs, arity, globalStep, extState, runMin]
  · intro h x _
    simp [GlobalMinimum, globalExtremum, globalArgs, streamable, unpackArgs, arity, globalStep, extState, runMin_snoc, show (h ++ [x]).isEmpty = false by simp]
  · intro x; exact ⟨by simp, by simp [Tensors]⟩
  · exact ⟨.leaf (.float, []), fun h _ => ⟨by simp, rfl⟩⟩
  · exact ⟨_, extState_ok runMin⟩

theorem globalMax_tracks : Tracks (GlobalMaximum : Operator α) Any vS (fun h => vS (runMax h)) (extState runMax) := by
  constructor
  · intro x _
    simp [GlobalMaximum, globalExtremum, globalArgs, streamable, unpackArgs, arity, globalStep, extState, runMax]
  · intro h x _
    simp [GlobalMaximum, globalExtremum, globalArgs, streamable, unpackArgs, arity, globalStep, extState, runMax_snoc, show (h ++ [x]).isEmpty = false by simp]
  · intro x; exact ⟨by simp, by simp [Tensors]⟩
  · exact ⟨.leaf (.float, []), fun h _ => ⟨by simp, rfl⟩⟩
  · exact ⟨_, extState_ok runMax⟩

/-- the state of operators that keep `(buffer, iteration)` of scalars -/
def sbufState (p : Nat) (h : List α) : Val α := .tup [vSBuf (padded Arith.zero p h), vI h.length]

theorem sbufState_ok (p : Nat) (h : List α) :
    (sbufState p h).WF ∧ HasType (sbufState p h) (.tup [.leaf .float, .leaf .int]) := ⟨by simp [sbufState, WF_tup], HasType_iff.2 rfl⟩

theorem window_of_le {A : Type} {p : Nat} {h : List A} (hh : h.length ≤ p) : window p h = h.reverse := by
  simp [window, List.take_of_length_le, hh]

/-- Taking the written part of a rolling buffer. -/
theorem pyTake_padded {A : Type} {z : A} {p : Nat} {h : List A} (hh : h.length ≤ p) {n : Int} (hn : n = h.length) :
    pyTake (padded z p h) n = window p h := by
  subst hn
  rw [pyTake, if_neg (by omega), Int.toNat_natCast, take_padded hh (Nat.le_refl _), window_of_le hh, window_of_le (Nat.le_refl _)]

theorem zerosOf_natCast {E : Type} (z : E) (p : Nat) : zerosOf z (p : Int) = .ok (padded z p []) := by
  simp [zerosOf, padded]

theorem localExtremumStep_eq {E : Type} (z : E) (red : List E → E) {p : Nat} (hp : 0 < p) (h : List E) (x : E) :
    localExtremumStep z red p x (some (padded z p h)) (some h.length) =
      .ok (red (window p (h ++ [x])), (padded z p (h ++ [x]), ((h ++ [x]).length : Int)), (padded z p h, (h.length : Int))) := by
  simp only [localExtremumStep, pure_eq_ok, ok_bind, Option.getD_some, shift_padded hp]
  split
  · rw [pyTake_padded (by simp; omega) (by simp), List.length_append]; simp
  · rw [padded_eq_window (by simp; omega)]; simp

theorem localExtremumStep_init {E : Type} (z : E) (red : List E → E) {p : Nat} (hp : 0 < p) (x : E) :
    localExtremumStep z red p x none none = .ok (red (window p [x]), (padded z p [x], 1), (padded z p [], 0)) := by
  have := localExtremumStep_eq z red hp [] x
  simp only [localExtremumStep, pure_eq_ok, ok_bind, Option.getD_some, Option.getD_none, zerosOf_natCast] at this ⊢
  simpa using this

theorem localExtremum_tracks (red : List α → α) (redI : List Int → Int) {p : Nat} (hp : 0 < p) :
    Tracks (localExtremum red redI (p : Int)) Any vS (fun h => vS (red (window p h))) (sbufState p) := by
  constructor
  · intro x _
    simp [localExtremum, localArgs, streamable, unpackArgs, arity, localExtremumStep_init _ _ hp, sbufState]
  · intro h x _
    simp [localExtremum, localArgs, streamable, unpackArgs, arity, localExtremumStep_eq _ _ hp, sbufState]
  · intro x; exact ⟨by simp, by simp [Tensors]⟩
  · exact ⟨.leaf (.float, []), fun h _ => ⟨by simp, rfl⟩⟩
  · exact ⟨_, sbufState_ok p⟩

/-- the state of the global extrema of ints -/
def extStateI (y : List Int → Int) (h : List Int) : Val α := .tup [vI (y h), vB h.isEmpty]

theorem extStateI_ok (y : List Int → Int) (h : List Int) :
    (extStateI y h : Val α).WF ∧ HasType (extStateI y h : Val α) (.tup [.leaf .int, .leaf .bool]) := ⟨by simp [extStateI, WF_tup], HasType_iff.2 rfl⟩

theorem globalI_tracks (bF : α → α → Bool) (bI : Int → Int → Bool) {y : List Int → Int} (h0 : y [] = 0)
    (h1 : ∀ h x, y (h ++ [x]) = if h.isEmpty || bI x (y h) then x else y h) :
    Tracks (globalExtremum bF bI) Any vI (fun h => vI (y h)) (extStateI y) := by
  constructor
  · intro x _
    have := h1 [] x
    simp at this
    simp [globalExtremum, globalArgs, streamable, unpackArgs, arity, globalStep, extStateI, h0, this]
  · intro h x _
    simp [globalExtremum, globalArgs, streamable, unpackArgs, arity, globalStep, extStateI, h1, show (h ++ [x]).isEmpty = false by simp]
  · intro x; exact ⟨by simp, by simp [Tensors]⟩
  · exact ⟨.leaf (.int, []), fun h _ => ⟨by simp, rfl⟩⟩
  · exact ⟨_, extStateI_ok y⟩

/-- the state of operators that keep `(buffer, iteration)` of int scalars -/
def ibufState (p : Nat) (h : List Int) : Val α := .tup [vIBuf (padded 0 p h), vI h.length]

theorem ibufState_ok (p : Nat) (h : List Int) :
    (ibufState p h : Val α).WF ∧ HasType (ibufState p h : Val α) (.tup [.leaf .int, .leaf .int]) := ⟨by simp [ibufState, WF_tup], HasType_iff.2 rfl⟩

theorem localExtremumI_tracks (red : List α → α) (redI : List Int → Int) {p : Nat} (hp : 0 < p) :
    Tracks (localExtremum red redI (p : Int)) Any vI (fun h => vI (redI (window p h))) (ibufState p) := by
  constructor
  · intro x _
    simp [localExtremum, localArgs, streamable, unpackArgs, arity, localExtremumStep_init _ _ hp, ibufState]
  · intro h x _
    simp [localExtremum, localArgs, streamable, unpackArgs, arity, ibufState]
    rw [decIBuf_vIBuf, ok_bind, localExtremumStep_eq _ _ hp]
    simp
  · intro x; exact ⟨by simp, by simp [Tensors]⟩
  · exact ⟨.leaf (.int, []), fun h _ => ⟨by simp, rfl⟩⟩
  · exact ⟨_, ibufState_ok p⟩

/-! ### Correlations -/

section
variable {p : Nat} {s : List Nat}

/-- the state of `Correlation(p)` after a history of pairs -/
def corrState (p : Nat) {s : List Nat} (h : List ((Idx s → α) × (Idx s → α))) : Val α :=
  .tup [vI h.length, vBuf (padded Arith.zero p (h.map Prod.fst)), vBuf (padded Arith.zero p (h.map Prod.snd))]

theorem corrState_ok (h : List ((Idx s → α) × (Idx s → α))) :
    (corrState p h).WF ∧ HasType (corrState p h) (.tup [.leaf .int, .leaf .float, .leaf .float]) :=
  ⟨by simp [corrState, WF_tup], HasType_iff.2 rfl⟩

theorem pack_ofFn {β : Type} {n : Nat} (g : Fin n → Idx s → β) : Tensor.pack s (List.ofFn g) = ⟨n :: s, fun c => g c.1 c.2⟩ :=
  (Tensor.unpack_eq_ok.1 (by simp [Tensor.unpack])).symm

/-- On samples of the same shape: Pearson's coefficient, coordinate by coordinate. -/
theorem computeCorrelation_same {xs ys : List (Idx s → α)} (hl : xs.length = ys.length) : computeCorrelation xs ys = .ok ⟨s, pearson xs ys⟩ := by
  have h : ∀ {a b : List (Idx s → α)}, a.length = b.length →
      (broadcast (· * ·) (Tensor.pack s a) (Tensor.pack s b) >>= reduceMean0) = .ok ⟨s, Arith.mean (List.zipWith (· * ·) a b)⟩ := by
    intro a b hab
    obtain ⟨n, g, rfl⟩ : ∃ n, ∃ g : Fin n → Idx s → α, a = List.ofFn g := ⟨_, a.get, by simp⟩
    rw [List.length_ofFn] at hab
    subst hab
    obtain ⟨g', eb⟩ : ∃ g' : Fin b.length → Idx s → α, b = List.ofFn g' := ⟨b.get, by simp⟩
    have : List.zipWith (· * ·) (List.ofFn g) b = List.ofFn fun i => g i * g' i := by
      apply List.ext_getElem
      · simp
      · intro i h1 h2
        have : b[i]'(by simpa using h2) = (List.ofFn g')[i]'(by simpa using h2) := by congr 1
        simp [this]
    rw [this]
    have e := pack_ofFn g'
    rw [← eb] at e
    rw [pack_ofFn, e, broadcast_same, ok_bind, reduceMean0]
    rfl
  rw [computeCorrelation]
  have h' := h (a := xs.map (· - Arith.mean xs)) (b := ys.map (· - Arith.mean ys)) (by simpa using hl)
  simp only [bind_eq_ok] at h'
  obtain ⟨z, h1, h2⟩ := h'
  simp only [Arith.moments, h1, ok_bind, h2, broadcast_same]
  rw [pearson, List.zipWith_map]
  rfl

theorem corr_tracks (hp : 0 < p) (s : List Nat) :
    Tracks (Correlation (p : Int) : Operator α) Any (fun x : (Idx s → α) × (Idx s → α) => .tup [vF x.1, vF x.2])
      (fun h => vF (corrOf p h)) (corrState p) := by
  have key : ∀ (h : List ((Idx s → α) × (Idx s → α))) x (n : Int), n = h.length →
      correlationOrZero p n (padded Arith.zero p (h.map Prod.fst ++ [x.1])) (padded Arith.zero p (h.map Prod.snd ++ [x.2])) = (.ok ⟨s, corrOf p (h ++ [x])⟩ : Res (Tensor α)) := by
    intro h x n hn
    rw [corrOf, correlationOrZero]
    by_cases hh : h.length < p
    · rw [if_pos (by omega), if_pos (by simp; omega)]
    · rw [if_neg (by omega), if_neg (by simp; omega), padded_eq_window (by simp; omega), padded_eq_window (by simp; omega)]
      rw [computeCorrelation_same (by simp [window_length])]
      simp
  constructor
  · intro x _
    have := key [] x 0 rfl
    simp only [List.nil_append, List.map_nil] at this
    simp [Correlation, streamable, unpackArgs, arity, correlationStep, zerosBuf_natCast, roll_padded hp, corrState, this]
  · intro h x _
    have := key h x _ rfl
    simp [Correlation, streamable, unpackArgs, arity, correlationStep, roll_padded hp, corrState, this]
  · intro x; exact ⟨by simp [WF_tup], by simp [Tensors, flatten, flattens]⟩
  · exact ⟨.leaf (.float, s), fun h _ => ⟨by simp, rfl⟩⟩
  · exact ⟨_, corrState_ok⟩

end
end
end TS
