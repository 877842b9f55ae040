import Verif.Spec.Streams
import Verif.Lemmas.JoinStream
/-
From the value of single steps after every history to the value of a call over a whole series.
-/
namespace TS
open PyVal
variable {α : Type} {A B C : Type}

theorem scan_nil (y : List A → B) (h : List A) : scan y h [] = [] := rfl

theorem scan_cons (y : List A → B) (h : List A) (x : A) (xs : List A) :
    scan y h (x :: xs) = y (h ++ [x]) :: scan y (h ++ [x]) xs := by
  simp [scan, List.range_succ_eq_map, Function.comp_def]

@[simp] theorem scan_length (y : List A → B) (h xs : List A) : (scan y h xs).length = xs.length := by simp [scan]

theorem scan_getElem (y : List A → B) (h xs : List A) (i : Nat) (hi : i < (scan y h xs).length) :
    (scan y h xs)[i] = y (h ++ xs.take (i + 1)) := by simp [scan]

theorem scan_map (f : B → C) (y : List A → B) (h xs : List A) : (scan y h xs).map f = scan (fun k => f (y k)) h xs := by
  simp [scan]

theorem mem_scan {y : List A → B} {h xs : List A} {b : B} (hb : b ∈ scan y h xs) : ∃ k, 0 < k ∧ k ≤ xs.length ∧ b = y (h ++ xs.take k) := by
  simp only [scan, List.mem_map, List.mem_range] at hb
  obtain ⟨i, hi, rfl⟩ := hb
  exact ⟨i + 1, by omega, by omega, rfl⟩

theorem scan_ne_nil {y : List A → B} {h xs : List A} (hx : xs ≠ []) : scan y h xs ≠ [] := by
  rw [← List.length_pos_iff, scan_length]; exact List.length_pos_iff.2 hx

theorem scan_congr {y y' : List A → B} {h xs : List A}
    (e : ∀ k, 0 < k → k ≤ xs.length → y (h ++ xs.take k) = y' (h ++ xs.take k)) : scan y h xs = scan y' h xs := by
  simp only [scan]
  refine List.map_congr_left fun i hi => e _ (by omega) (List.mem_range.1 hi)

theorem app_ne {y : List A → B} {h xs : List A} {k : Nat} (hk : 0 < k) {b : B} (hb : b ∈ scan y h xs) : h ++ xs.take k ≠ [] := by
  have : xs ≠ [] := by rintro rfl; simp [scan_nil] at hb
  have := List.length_pos_iff.2 this
  rw [← List.length_pos_iff]
  simp; omega

/-! ### Signatures: dtype and shape of every leaf -/

/-- dtype and shape of a leaf -/
def Leaf.sig : Leaf α → Option (DType × List Nat)
  | .f t => some (.float, t.shape)
  | .i t => some (.int, t.shape)
  | .b t => some (.bool, t.shape)
  | .gen => none

/-- The structure, the dtypes and the shapes of a value. -/
def HasSig (v : Val α) (ty : PyVal (DType × List Nat)) : Prop := v.map Leaf.sig = ty.map some

theorem HasSig_iff {v : Val α} {ty : PyVal (DType × List Nat)} :
    HasSig v ty ↔ v.skel = ty.skel ∧ (flatten v).map Leaf.sig = (flatten ty).map some := by
  unfold HasSig
  constructor
  · intro h
    constructor
    · have := congrArg PyVal.skel h
      simpa [PyVal.skel_map] using this
    · have := congrArg flatten h
      simpa [flatten_map] using this
  · rintro ⟨h1, h2⟩
    exact eq_of_skel_of_flatten _ _ (by simpa [PyVal.skel_map] using h1) (by simpa [flatten_map] using h2)

theorem HasSig.hasType {v : Val α} {ty : PyVal (DType × List Nat)} (h : HasSig v ty) : HasType v (ty.map Prod.fst) := by
  rw [HasSig_iff] at h
  refine ⟨by simpa [PyVal.skel_map] using h.1, ?_⟩
  rw [flatten_map]
  obtain ⟨_, h⟩ := h
  generalize flatten v = l at h
  generalize flatten ty = m at h
  induction l generalizing m with
  | nil => cases m <;> simp_all
  | cons a l ih =>
    cases m with
    | nil => simp at h
    | cons b m =>
      simp only [List.map_cons, List.cons.injEq] at h
      have : a.dtype = .ok b.1 := by
        cases a <;> simp [Leaf.sig] at h <;> simp [Leaf.dtype, ← h.1]
      simp [List.mapM_cons, this, ih m h.2]

theorem Leaf.exists_series {ls : List (Leaf α)} {d : DType} {s : List Nat} (h : ∀ l ∈ ls, l.sig = some (d, s)) :
    ∃ t : Leaf α, t.size0 = .ok ls.length ∧ ∀ i (hi : i < ls.length), t.index i = .ok ls[i] := by
  have key : ∀ {β : Type} (mk : Tensor β → Leaf α), (∀ l ∈ ls, ∃ v : Idx s → β, l = mk ⟨s, v⟩) →
      ∃ l : List (Idx s → β), ls = l.map fun v => mk ⟨s, v⟩ := by
    intro β mk h
    clear * - h
    induction ls with
    | nil => exact ⟨[], rfl⟩
    | cons a ls ih =>
      obtain ⟨l, hl⟩ := ih fun x hx => h x (by simp [hx])
      obtain ⟨v, hv⟩ := h a (by simp)
      exact ⟨v :: l, by simp [hl, hv]⟩
  cases d with
  | float =>
    obtain ⟨l, rfl⟩ := key Leaf.f fun l hl => by
      have := h l hl
      cases l <;> simp [Leaf.sig] at this
      rename_i t; obtain ⟨s', v⟩ := t; simp only at this; subst this; exact ⟨v, rfl⟩
    exact ⟨.f (Tensor.pack s l), by simp [Leaf.size0], fun i hi => by
      simp [Leaf.index, Tensor.index_pack s l i (by simpa using hi)]⟩
  | int =>
    obtain ⟨l, rfl⟩ := key Leaf.i fun l hl => by
      have := h l hl
      cases l <;> simp [Leaf.sig] at this
      rename_i t; obtain ⟨s', v⟩ := t; simp only at this; subst this; exact ⟨v, rfl⟩
    exact ⟨.i (Tensor.pack s l), by simp [Leaf.size0], fun i hi => by
      simp [Leaf.index, Tensor.index_pack s l i (by simpa using hi)]⟩
  | bool =>
    obtain ⟨l, rfl⟩ := key Leaf.b fun l hl => by
      have := h l hl
      cases l <;> simp [Leaf.sig] at this
      rename_i t; obtain ⟨s', v⟩ := t; simp only at this; subst this; exact ⟨v, rfl⟩
    exact ⟨.b (Tensor.pack s l), by simp [Leaf.size0], fun i hi => by
      simp [Leaf.index, Tensor.index_pack s l i (by simpa using hi)]⟩

/-- Values of one signature are the slices of a series. -/
theorem exists_series {os : List (Val α)} {ty : PyVal (DType × List Nat)} (h : ∀ o ∈ os, HasSig o ty) :
    ∃ z, IsSeries z os ∧ z.skel = ty.skel := by
  have hlen : ∀ o ∈ os, (flatten o).length = (flatten ty).length := fun o ho => by
    have := congrArg List.length (HasSig_iff.1 (h o ho)).2
    simpa using this
  have hk : ∀ k (hk : k < (flatten ty).length), ∃ t : Leaf α, t.size0 = .ok os.length ∧
      ∀ i (hi : i < os.length), t.index i = .ok ((flatten os[i])[k]'(by rw [hlen _ (List.getElem_mem hi)]; exact hk)) := by
    intro k hk
    obtain ⟨t, h1, h2⟩ := Leaf.exists_series (α := α) (d := (flatten ty)[k].1) (s := (flatten ty)[k].2)
      (ls := List.ofFn fun i : Fin os.length => (flatten os[i.1])[k]'(by rw [hlen _ (List.getElem_mem i.2)]; exact hk)) (by
        intro l hl
        obtain ⟨i, rfl⟩ := (List.mem_ofFn' _ _).1 hl
        have h2 := (HasSig_iff.1 (h _ (List.getElem_mem i.2))).2
        have h3 := congrArg (fun l => l[k]?) h2
        simp only [List.getElem?_map] at h3
        rw [List.getElem?_eq_getElem hk, List.getElem?_eq_getElem (by rw [hlen _ (List.getElem_mem i.2)]; exact hk)] at h3
        simpa using h3)
    refine ⟨t, by simpa using h1, fun i hi => ?_⟩
    rw [h2 i (by simpa using hi)]
    simp
  choose t h1 h2 using hk
  obtain ⟨z, hz1, hz2⟩ := exists_of_skel_flatten ty (List.ofFn fun k : Fin (flatten ty).length => t k k.2) (by simp)
  refine ⟨z, ⟨fun l hl => ?_, fun i hi => ?_⟩, hz1⟩
  · rw [hz2] at hl
    obtain ⟨k, rfl⟩ := (List.mem_ofFn' _ _).1 hl
    exact h1 k k.2
  · rw [sliceAt_ok, hz1]
    refine ⟨(HasSig_iff.1 (h _ (List.getElem_mem hi))).1, ?_⟩
    rw [hz2, mapM_eq_ok_iff_get]
    refine ⟨by simp [hlen _ (List.getElem_mem hi)], fun k hk => ?_⟩
    simp only [List.getElem_ofFn]
    exact h2 k _ i hi

/-! ### Operators that are functions of the history -/

/-- After every valid history `h` the operator's state is `st h` and its last output `out h`. -/
structure Tracks (op : Operator α) (V : List A → Prop) (enc : A → Val α) (out st : List A → Val α) : Prop where
  first : ∀ x, V [x] → op.forwardStep (enc x) none = .ok (out [x], st [x], st [])
  next : ∀ h x, V (h ++ [x]) → op.forwardStep (enc x) (some (st h)) = .ok (out (h ++ [x]), st (h ++ [x]), st h)
  enc_ok : ∀ x, (enc x).WF ∧ Tensors (enc x)
  out_ok : ∃ ty, ∀ h, h ≠ [] → (out h).WF ∧ HasSig (out h) ty
  st_ok : ∃ ty, ∀ h, (st h).WF ∧ HasType (st h) ty

variable {op : Operator α} {V : List A → Prop} {enc : A → Val α} {out st : List A → Val α}

theorem Tracks.st_tensors (T : Tracks op V enc out st) (h : List A) : (st h).WF ∧ Tensors (st h) := by
  obtain ⟨ty, hty⟩ := T.st_ok
  exact ⟨(hty h).1, tensors_iff.2 ⟨ty, (hty h).2⟩⟩

theorem Tracks.step_fresh (T : Tracks op V enc out st) {x : A} (hV : V [x]) :
    call op (enc x) none false = .ok (out [x], st [x], st []) := by
  rw [call_eq false (T.enc_ok x).1 (T.enc_ok x).2 (by simp)]
  simpa using T.first x hV

theorem Tracks.step_next (T : Tracks op V enc out st) {h : List A} {x : A} (hV : V (h ++ [x])) :
    call op (enc x) (some (st h)) false = .ok (out (h ++ [x]), st (h ++ [x]), st h) := by
  rw [call_eq false (T.enc_ok x).1 (T.enc_ok x).2 (by rintro _ ⟨⟩; exact T.st_tensors h)]
  simpa using T.next h x hV

theorem Tracks.steps (T : Tracks op V enc out st) {sty : PyVal DType} (hty : ∀ h, (st h).WF ∧ HasType (st h) sty)
    {h xs : List A} (hV : ∀ k, 0 < k → k ≤ xs.length → V (h ++ xs.take k)) :
    stepsTyped op sty (xs.map enc) (st h) = .ok (scan out h xs, st (h ++ xs)) := by
  induction xs generalizing h with
  | nil => simp [stepsTyped, scan_nil]
  | cons x xs ih =>
    have h1 := T.next h x (by simpa using hV 1 (by omega) (by simp))
    have h2 := ih (h := h ++ [x]) (fun k hk hk' => by simpa using hV (k + 1) (by omega) (by simpa using hk'))
    have h3 : toType (st (h ++ [x])) = .ok sty := (toType_ok (hty _).1).2 (hty _).2
    simp [stepsTyped, h1, h2, h3, scan_cons]

/-- Streaming on from the state after `h`. -/
theorem Tracks.call_resume (T : Tracks op V enc out st) {v : Val α} {h xs : List A} (hx : xs ≠ [])
    (hV : ∀ k, 0 < k → k ≤ xs.length → V (h ++ xs.take k)) (hw : v.WF) (hl : flatten v ≠ [])
    (hin : IsSeries v (xs.map enc)) :
    ∃ z, call op v (some (st h)) = .ok (z, st (h ++ xs), st h) ∧ IsSeries z (scan out h xs) := by
  obtain ⟨sty, hsty⟩ := T.st_ok
  obtain ⟨oty, hoty⟩ := T.out_ok
  obtain ⟨z, hz, -⟩ := exists_series (os := scan out h xs) (ty := oty) (fun o ho => by
    obtain ⟨k, h1, -, rfl⟩ := mem_scan ho; exact (hoty _ (app_ne h1 ho)).2)
  refine ⟨z, ?_, hz⟩
  rw [call_eq true hw hin.tensors (by rintro _ ⟨⟩; exact T.st_tensors h)]
  have hhead : (xs.map enc).head (by simpa using hx) = enc (xs.head hx) := by simp
  refine callStreamed_complete hw hl hin (by simpa using hx) (o0 := out (h ++ [xs.head hx])) (n0 := st (h ++ [xs.head hx]))
    (i0 := st h) (sty := sty) (oty := oty.map Prod.fst) (os := scan out h xs) (sf := st (h ++ xs))
    (hoty _ (by simp)).1 (hsty h).1 ?_ ?_ (hsty h).2 (hoty _ (by simp)).2.hasType (T.steps hsty hV) ?_ hz
  · intro o ho; obtain ⟨k, h1, -, rfl⟩ := mem_scan ho; exact (hoty _ (app_ne h1 ho)).1
  · rw [hhead]
    refine T.next h _ ?_
    obtain ⟨x, xs, rfl⟩ := List.exists_cons_of_ne_nil hx
    simpa using hV 1 (by omega) (by simp)
  · intro o ho; obtain ⟨k, h1, -, rfl⟩ := mem_scan ho; exact (hoty _ (app_ne h1 ho)).2.hasType

/-- Streaming from scratch. -/
theorem Tracks.call_fresh (T : Tracks op V enc out st) {v : Val α} {xs : List A} (hx : xs ≠ [])
    (hV : ∀ k, 0 < k → k ≤ xs.length → V (xs.take k)) (hw : v.WF) (hl : flatten v ≠ [])
    (hin : IsSeries v (xs.map enc)) :
    ∃ z, call op v none = .ok (z, st xs, st []) ∧ IsSeries z (scan out [] xs) := by
  obtain ⟨sty, hsty⟩ := T.st_ok
  obtain ⟨oty, hoty⟩ := T.out_ok
  obtain ⟨z, hz, -⟩ := exists_series (os := scan out [] xs) (ty := oty) (fun o ho => by
    obtain ⟨k, h1, -, rfl⟩ := mem_scan ho; exact (hoty _ (app_ne h1 ho)).2)
  refine ⟨z, ?_, hz⟩
  rw [call_eq true hw hin.tensors (by simp)]
  have hhead : (xs.map enc).head (by simpa using hx) = enc (xs.head hx) := by simp
  refine callStreamed_complete hw hl hin (by simpa using hx) (o0 := out [xs.head hx]) (n0 := st [xs.head hx])
    (i0 := st []) (sty := sty) (oty := oty.map Prod.fst) (os := scan out [] xs) (sf := st xs)
    (hoty _ (by simp)).1 (hsty []).1 ?_ ?_ (hsty []).2 (hoty _ (by simp)).2.hasType ?_ ?_ hz
  · intro o ho; obtain ⟨k, h1, -, rfl⟩ := mem_scan ho; exact (hoty _ (app_ne h1 ho)).1
  · rw [hhead]
    refine T.first _ ?_
    obtain ⟨x, xs, rfl⟩ := List.exists_cons_of_ne_nil hx
    simpa using hV 1 (by omega) (by simp)
  · simpa using T.steps hsty (h := []) (xs := xs) (by simpa using hV)
  · intro o ho; obtain ⟨k, h1, -, rfl⟩ := mem_scan ho; exact (hoty _ (app_ne h1 ho)).2.hasType

/-- Streaming from scratch, with a given series of outputs. -/
theorem Tracks.eval (T : Tracks op V enc out st) {v z : Val α} {xs : List A} (hx : xs ≠ [])
    (hV : ∀ k, 0 < k → k ≤ xs.length → V (xs.take k)) (hw : v.WF) (hl : flatten v ≠ [])
    (hin : IsSeries v (xs.map enc)) (hz : IsSeries z (scan out [] xs)) :
    call op v none = .ok (z, st xs, st []) := by
  obtain ⟨z', h1, h2⟩ := T.call_fresh hx hV hw hl hin
  rw [h1, h2.unique (scan_ne_nil hx) hz]

/-- Streaming on, with a given series of outputs. -/
theorem Tracks.eval_resume (T : Tracks op V enc out st) {v z : Val α} {h xs : List A} (hx : xs ≠ [])
    (hV : ∀ k, 0 < k → k ≤ xs.length → V (h ++ xs.take k)) (hw : v.WF) (hl : flatten v ≠ [])
    (hin : IsSeries v (xs.map enc)) (hz : IsSeries z (scan out h xs)) :
    call op v (some (st h)) = .ok (z, st (h ++ xs), st h) := by
  obtain ⟨z', h1, h2⟩ := T.call_resume hx hV hw hl hin
  rw [h1, h2.unique (scan_ne_nil hx) hz]

/-! ### Concrete series -/

theorem isSeries_leaf {t : Leaf α} {ls : List (Leaf α)} :
    IsSeries (.leaf t) (ls.map .leaf) ↔ t.size0 = .ok ls.length ∧ ∀ i (hi : i < ls.length), t.index i = .ok ls[i] := by
  constructor
  · rintro ⟨h1, h2⟩
    refine ⟨by simpa using h1 t (by simp [flatten]), fun i hi => ?_⟩
    have := h2 i (by simpa using hi)
    rw [sliceAt_ok] at this
    simp only [flatten, List.mapM_cons, List.mapM_nil, bind_eq_ok, List.getElem_map] at this
    obtain ⟨-, t', h3, l, h4, h5⟩ := this
    cases h4; cases h5
    exact h3
  · rintro ⟨h1, h2⟩
    refine ⟨fun l hl => by simp [flatten] at hl; subst hl; simpa using h1, fun i hi => ?_⟩
    rw [sliceAt_ok]
    have hi' : i < ls.length := by simpa using hi
    simp [flatten, List.mapM_cons, h2 i hi', PyVal.skel]

/-- A float tensor is the series of its rows. -/
theorem isSeries_vBuf {s : List Nat} (l : List (Idx s → α)) : IsSeries (vBuf l) (l.map fun x => vF x) := by
  have := (isSeries_leaf (t := .f (Tensor.pack s l)) (ls := l.map fun x => .f ⟨s, x⟩)).2
    ⟨by simp [Leaf.size0], fun i hi => by simp [Leaf.index, Tensor.index_pack s l i (by simpa using hi)]⟩
  simpa [Function.comp_def] using this

/-- A float vector is the series of its numbers. -/
theorem isSeries_vSBuf (l : List α) : IsSeries (vSBuf l) (l.map vS) := by
  have := isSeries_vBuf (s := []) (l.map pt)
  rw [List.map_map] at this
  exact this

theorem isSeries_vIBuf (l : List Int) : IsSeries (vIBuf l : Val α) (l.map vI) := by
  have := (isSeries_leaf (α := α) (t := .i (Tensor.pack [] (l.map fun n _ => n))) (ls := l.map fun x => .i ⟨[], fun _ => x⟩)).2
    ⟨by simp [Leaf.size0], fun i hi => by
      simp [Leaf.index, Tensor.index_pack [] (l.map fun n _ => n) i (by simpa using hi)]⟩
  simpa [Function.comp_def] using this

/-- A tuple of series is a series of tuples. -/
theorem isSeries_tup_map {l : List A} {vs : List (Val α)} {es : List (A → Val α)}
    (h : List.Forall₂ (fun v e => IsSeries v (l.map e)) vs es) :
    IsSeries (.tup vs) (l.map fun a => .tup (es.map fun e => e a)) := by
  induction h with
  | nil =>
    refine ⟨fun x hx => by simp [PyVal.tup, flatten, flattens] at hx, fun i hi => ?_⟩
    rw [sliceAt_ok]
    simp [PyVal.tup, flatten, flattens, PyVal.skel, PyVal.map, maps]
  | @cons v e vs es h hs ih =>
    have := (isSeries_tup_cons (v := v) (vs := vs) (hs := l.map e) (ts := l.map fun a => es.map fun e => e a) (by simp)).2
      ⟨h, by simpa [Function.comp_def] using ih⟩
    simpa [List.zipWith_map, List.zipWith_self, Function.comp_def] using this

end TS
