import Verif.Lemmas.TrackPipelines
/-
From `Tracks` to `StreamsAs`, and the encodings of the series.
-/
namespace TS
open PyVal
variable {α A B : Type}

theorem Tracks.streams {op : Operator α} {enc : A → Val α} {out st : List A → Val α} (T : Tracks op Any enc out st)
    {ser : List A → Val α} (hs : ∀ l, (ser l).WF ∧ flatten (ser l) ≠ [] ∧ IsSeries (ser l) (l.map enc))
    {outs : List B → Val α} {dec : B → Val α} (ho : ∀ l, IsSeries (outs l) (l.map dec)) {y : List A → B} (hy : ∀ h, out h = dec (y h)) :
    StreamsAs op ser outs y := by
  refine ⟨st, fun xs hx => ?_, fun h xs hx => ?_⟩
  · refine T.eval hx (fun _ _ _ => trivial) (hs xs).1 (hs xs).2.1 (hs xs).2.2 ?_
    have := ho (scan y [] xs)
    rw [scan_map] at this
    rwa [show out = fun k => dec (y k) from funext hy]
  · refine T.eval_resume hx (fun _ _ _ => trivial) (hs xs).1 (hs xs).2.1 (hs xs).2.2 ?_
    have := ho (scan y h xs)
    rw [scan_map] at this
    rwa [show out = fun k => dec (y k) from funext hy]

/-- The outputs by index. -/
theorem StreamsAs.at {op : Operator α} {ser : List A → Val α} {outs : List B → Val α} {y : List A → B} (h : StreamsAs op ser outs y)
    {xs : List A} (hx : xs ≠ []) : ∃ os sf s0, call op (ser xs) none = .ok (outs os, sf, s0) ∧ ∃ hl : os.length = xs.length,
      ∀ i (hi : i < xs.length), os[i] = y (xs.take (i + 1)) := by
  obtain ⟨st, h1, -⟩ := h
  exact ⟨_, _, _, h1 xs hx, by simp, fun i hi => by simp [scan_getElem]⟩

theorem StreamsAs.at' {op : Operator α} {ser : List A → Val α} {outs : List B → Val α} {y : List A → B} (h : StreamsAs op ser outs y)
    {xs : List A} (hx : xs ≠ []) : ∃ sf s0, call op (ser xs) none = .ok (outs (scan y [] xs), sf, s0) := by
  obtain ⟨st, h1, -⟩ := h
  exact ⟨_, _, h1 xs hx⟩

theorem StreamsAs.congr {op : Operator α} {ser : List A → Val α} {outs : List B → Val α} {y y' : List A → B} (h : StreamsAs op ser outs y)
    (e : ∀ k, k ≠ [] → y k = y' k) : StreamsAs op ser outs y' := by
  obtain ⟨st, h1, h2⟩ := h
  have key : ∀ h xs : List A, xs ≠ [] → scan y h xs = scan y' h xs := fun h xs hx => scan_congr fun k hk _ => e _ (by
    have := List.length_pos_iff.2 hx
    rw [← List.length_pos_iff]; simp; omega)
  refine ⟨st, fun xs hx => ?_, fun h xs hx => ?_⟩
  · rw [← key _ _ hx]; exact h1 xs hx
  · rw [← key _ _ hx]; exact h2 h xs hx

theorem scan_comap {A' B' : Type} {y : List A → B} {y' : List A' → B'} {f : A' → A} {g : B' → B} (e : ∀ k, k ≠ [] → y (k.map f) = g (y' k))
    (h xs : List A') : scan y (h.map f) (xs.map f) = (scan y' h xs).map g := by
  rcases eq_or_ne xs [] with rfl | hx
  · rfl
  simp only [scan, List.length_map, List.map_map, Function.comp_def]
  refine List.map_congr_left fun i _ => ?_
  rw [← e, List.map_append, List.map_take]
  have := List.length_pos_iff.2 hx
  rw [← List.length_pos_iff]; simp; omega

/-- Change of encodings. -/
theorem StreamsAs.comap {A' B' : Type} {op : Operator α} {ser : List A → Val α} {outs : List B → Val α} {y : List A → B} (h : StreamsAs op ser outs y)
    (f : A' → A) (g : B' → B) {y' : List A' → B'} (e : ∀ k, k ≠ [] → y (k.map f) = g (y' k)) :
    StreamsAs op (fun l => ser (l.map f)) (fun l => outs (l.map g)) y' := by
  obtain ⟨st, h1, h2⟩ := h
  refine ⟨fun l => st (l.map f), fun xs hx => ?_, fun h xs hx => ?_⟩
  · have := h1 (xs.map f) (by simpa using hx)
    rwa [show ([] : List A) = ([] : List A').map f from rfl, scan_comap e] at this
  · have := h2 (h.map f) (xs.map f) (by simpa using hx)
    rwa [scan_comap e, ← List.map_append] at this

/-- Series of numbers are series of 0-dimensional tensors. -/
theorem StreamsAs.scalar {op : Operator α} {y : List (Idx [] → α) → Idx [] → α} (h : StreamsAs op vBuf vBuf y) {y' : List α → α}
    (e : ∀ k, k ≠ [] → y (k.map pt) = pt (y' k)) : StreamsAs op vSBuf vSBuf y' := h.comap pt pt e

/-! ### Encodings -/

theorem isSeries_vIsBuf {s : List Nat} (l : List (Idx s → Int)) : IsSeries (vIsBuf l : Val α) (l.map fun x => vIs x) := by
  have := (isSeries_leaf (α := α) (t := .i (Tensor.pack s l)) (ls := l.map fun x => .i ⟨s, x⟩)).2
    ⟨by simp [Leaf.size0], fun i hi => by simp [Leaf.index, Tensor.index_pack s l i (by simpa using hi)]⟩
  simpa [Function.comp_def] using this

theorem boolRows_ok {s : List Nat} (l : List (Idx s → Bool)) : (vBsBuf l : Val α).WF ∧ flatten (vBsBuf l : Val α) ≠ [] ∧
    IsSeries (vBsBuf l : Val α) (l.map fun x => .leaf (.b ⟨s, x⟩)) := by
  refine ⟨by simp, by simp [flatten], ?_⟩
  have := (isSeries_leaf (α := α) (t := .b (Tensor.pack s l)) (ls := l.map fun x => .b ⟨s, x⟩)).2
    ⟨by simp [Leaf.size0], fun i hi => by simp [Leaf.index, Tensor.index_pack s l i (by simpa using hi)]⟩
  simpa [Function.comp_def] using this

theorem rows_ok {s : List Nat} (l : List (Idx s → α)) : (vBuf l : Val α).WF ∧ flatten (vBuf l : Val α) ≠ [] ∧ IsSeries (vBuf l) (l.map fun x => vF x) :=
  ⟨by simp, by simp [flatten], isSeries_vBuf l⟩

theorem intRows_ok {s : List Nat} (l : List (Idx s → Int)) : (vIsBuf l : Val α).WF ∧ flatten (vIsBuf l : Val α) ≠ [] ∧ IsSeries (vIsBuf l : Val α) (l.map fun x => vIs x) :=
  ⟨by simp, by simp [flatten], isSeries_vIsBuf l⟩

theorem nums_ok (l : List α) : (vSBuf l : Val α).WF ∧ flatten (vSBuf l : Val α) ≠ [] ∧ IsSeries (vSBuf l) (l.map vS) :=
  ⟨by simp [vSBuf], by simp [flatten, vSBuf], isSeries_vSBuf l⟩

theorem numSeries_map (f : A → α) (l : List A) : IsSeries (vSBuf (l.map f)) (l.map fun x => vS (f x)) := by
  simpa [Function.comp_def] using isSeries_vSBuf (l.map f)

theorem intSeries_map (f : A → Int) (l : List A) : IsSeries (vIBuf (l.map f) : Val α) (l.map fun x => vI (f x)) := by
  simpa [Function.comp_def] using isSeries_vIBuf (α := α) (l.map f)

theorem rowSeries_map {s : List Nat} (f : A → Idx s → α) (l : List A) : IsSeries (vBuf (l.map f)) (l.map fun x => vF (f x)) := by
  simpa [Function.comp_def] using isSeries_vBuf (l.map f)

theorem pairs_ok {s : List Nat} (l : List ((Idx s → α) × (Idx s → α))) :
    (vBuf2 l : Val α).WF ∧ flatten (vBuf2 l : Val α) ≠ [] ∧ IsSeries (vBuf2 l) (l.map fun x => .tup [vF x.1, vF x.2]) := by
  refine ⟨by simp [WF_tup], by simp [flatten, flattens], ?_⟩
  exact isSeries_tup_map (A := (Idx s → α) × (Idx s → α)) (es := [fun x => vF x.1, fun x => vF x.2])
    (.cons (rowSeries_map _ l) (.cons (rowSeries_map _ l) .nil))

theorem numPairs_ok (l : List (α × α)) :
    (vSBuf2 l : Val α).WF ∧ flatten (vSBuf2 l : Val α) ≠ [] ∧ IsSeries (vSBuf2 l) (l.map fun x => .tup [vS x.1, vS x.2]) := by
  refine ⟨by simp [WF_tup, vSBuf], by simp [flatten, PyVal.tup, flattens, vSBuf], ?_⟩
  exact isSeries_tup_map (es := [fun x => vS x.1, fun x => vS x.2]) (.cons (numSeries_map _ l) (.cons (numSeries_map _ l) .nil))

/-- Every float tensor with a leading axis is the series of its rows. -/
theorem exists_rows (t : Tensor α) (n : Nat) (s : List Nat) (h : t.shape = n :: s) : ∃ l : List (Idx s → α), l.length = n ∧ t = Tensor.pack s l := by
  obtain ⟨sh, v⟩ := t
  cases h
  refine ⟨List.ofFn fun i => fun c => v (i, c), by simp, ?_⟩
  have : ∀ (m : Nat) (f : Fin m → Idx s → α), Tensor.pack s (List.ofFn f) = ⟨m :: s, fun c => f c.1 c.2⟩ := by
    intro m f
    simp only [Tensor.pack]
    have e : (List.ofFn f).length = m := by simp
    generalize hl : List.ofFn f = l at e
    subst e
    congr 1
    funext c
    simp only [List.get_eq_getElem]
    have := List.getElem_ofFn (f := f) (i := c.1) (by simp)
    simp only [hl] at this
    rw [this]
  rw [this]

end TS
