import Verif.Lemmas.Loop
/-
Characterisation of `call_streamed`.
-/
namespace TS
open PyVal
variable {α : Type}

theorem Leaf.dtype_index {l l' : Leaf α} {i : Nat} (h : l.index i = .ok l') : l'.dtype = l.dtype := by
  cases l with
  | gen => simp [Leaf.index] at h
  | f t => simp only [Leaf.index] at h; cases ht : t.index i <;> simp [ht] at h; subst h; rfl
  | i t => simp only [Leaf.index] at h; cases ht : t.index i <;> simp [ht] at h; subst h; rfl
  | b t => simp only [Leaf.index] at h; cases ht : t.index i <;> simp [ht] at h; subst h; rfl

theorem sliceAt_ok {i : Nat} {v w : Val α} : sliceAt i v = .ok w ↔
    w.skel = v.skel ∧ (flatten v).mapM (Leaf.index i) = .ok (flatten w) := traverse_eq_ok_iff _ _ _

theorem sliceAt_skel {i : Nat} {v w : Val α} (h : sliceAt i v = .ok w) : w.skel = v.skel := (sliceAt_ok.1 h).1

theorem sliceAt_WF {i : Nat} {v w : Val α} (h : sliceAt i v = .ok w) : w.WF ↔ v.WF :=
  WF_of_skel_eq (sliceAt_skel h)

theorem mapM_dtype_index {i : Nat} {xs ys : List (Leaf α)} (h : xs.mapM (Leaf.index i) = .ok ys) :
    ys.mapM Leaf.dtype = xs.mapM Leaf.dtype := by
  induction xs generalizing ys with
  | nil => simp at h; simp [← h]
  | cons x xs ih =>
    simp only [List.mapM_cons, bind_eq_ok, pure_eq_ok, Except.ok.injEq] at h
    obtain ⟨y, hy, ys', hys, rfl⟩ := h
    simp [ih hys, Leaf.dtype_index hy]

theorem HasType_sliceAt {i : Nat} {v w : Val α} (h : sliceAt i v = .ok w) (ty : PyVal DType) :
    HasType w ty ↔ HasType v ty := by
  obtain ⟨h1, h2⟩ := sliceAt_ok.1 h
  rw [HasType, HasType, h1, mapM_dtype_index h2]

theorem HasType.unique {v : Val α} {ty ty' : PyVal DType} (h : HasType v ty) (h' : HasType v ty') : ty = ty' := by
  refine eq_of_skel_of_flatten _ _ (h.1.symm.trans h'.1) ?_
  have := h.2.symm.trans h'.2
  simpa using this

theorem IsSeries.unique {v w : Val α} {xs : List (Val α)} (hn : xs ≠ []) (h : IsSeries v xs) (h' : IsSeries w xs) :
    v = w := by
  have hpos : 0 < xs.length := List.length_pos_iff.2 hn
  have hsk : v.skel = w.skel := by
    rw [← sliceAt_skel (h.slice 0 hpos), ← sliceAt_skel (h'.slice 0 hpos)]
  have hl : (flatten v).length = (flatten w).length := length_flatten_of_skel_eq hsk
  refine eq_of_skel_of_flatten _ _ hsk (List.ext_getElem hl fun j hj hj' => ?_)
  have key : ∀ i (hi : i < xs.length), (flatten v)[j].index i = (flatten w)[j].index i := by
    intro i hi
    obtain ⟨a1, a2⟩ := sliceAt_ok.1 (h.slice i hi)
    obtain ⟨b1, b2⟩ := sliceAt_ok.1 (h'.slice i hi)
    obtain ⟨_, a2⟩ := mapM_eq_ok_iff_get.1 a2
    obtain ⟨_, b2⟩ := mapM_eq_ok_iff_get.1 b2
    rw [a2 j hj, b2 j hj']
  have e : ∃ ls : List (Leaf α), ls.length = xs.length ∧ ∀ i (hi : i < ls.length), (flatten v)[j].index i = .ok ls[i] := by
    have hb : ∀ i : Fin xs.length, j < (flatten (xs[i.1]'i.2)).length := fun i => by
      rw [length_flatten_of_skel_eq (sliceAt_skel (h.slice i.1 i.2))]; exact hj
    refine ⟨List.ofFn fun i : Fin xs.length => (flatten (xs[i.1]'i.2))[j]'(hb i), by simp, fun i hi => ?_⟩
    have hi' : i < xs.length := by simpa using hi
    obtain ⟨_, a2⟩ := mapM_eq_ok_iff_get.1 (sliceAt_ok.1 (h.slice i hi')).2
    rw [a2 j hj]; simp
  obtain ⟨ls, hls, hls'⟩ := e
  have hne : ls ≠ [] := by intro e; subst e; simp at hls; omega
  have e1 := (Leaf.stack_eq_ok hne (t := (flatten v)[j])).2 ⟨by rw [h.size _ (List.getElem_mem _), hls], hls'⟩
  have e2 := (Leaf.stack_eq_ok hne (t := (flatten w)[j])).2 ⟨by rw [h'.size _ (List.getElem_mem _), hls],
    fun i hi => by rw [← key i (by omega)]; exact hls' i hi⟩
  rw [e1] at e2
  simpa using e2

/-- Stacking the arrays gives the series of the outputs. -/
theorem stackAll_ok {n : Nat} {ty : PyVal DType} {os : List (Val α)} {outs : PyVal (TArr α)}
    (hw : outs.WF) (hn : os.length = n) (hpos : 0 < n) (hos : ∀ o ∈ os, o.skel = ty.skel)
    (h : HoldsAll n ty os outs) (v : Val α) :
    mapFn (fn1 TArr.stack) outs [outs] = .ok v ↔ IsSeries v os := by
  have lty : ∀ o ∈ os, (flatten o).length = (flatten ty).length := fun o h => length_flatten_of_skel_eq (hos o h)
  have louts : (flatten outs).length = (flatten ty).length := length_flatten_of_skel_eq h.1
  rw [mapFn_fn1_self _ _ hw, traverse_eq_ok_iff, mapM_eq_ok_iff_get]
  have st : ∀ j (hj : j < (flatten ty).length), ((flatten outs)[j]'(by omega)).stack = Leaf.stack (leafCol os j) :=
    fun j hj => TArr.stack_holds (h.2 j (by omega) hj) (by rw [leafCol_length lty hj, hn])
  have lne : ∀ j (hj : j < (flatten ty).length), leafCol os j ≠ [] := by
    intro j hj e
    have := leafCol_length lty hj
    rw [e] at this
    simp at this; omega
  constructor
  · rintro ⟨h1, h2, h3⟩
    have key : ∀ j (hj : j < (flatten ty).length), ((flatten v)[j]'(by omega)).size0 = .ok os.length ∧
        ∀ i (hi : i < os.length), ((flatten v)[j]'(by omega)).index i =
          .ok ((flatten os[i])[j]'(by rw [lty _ (List.getElem_mem _)]; exact hj)) := by
      intro j hj
      have e := h3 j (by omega)
      rw [st j hj] at e
      obtain ⟨a, b⟩ := (Leaf.stack_eq_ok (lne j hj)).1 e
      rw [leafCol_length lty hj] at a
      refine ⟨a, fun i hi => ?_⟩
      rw [b i (by rw [leafCol_length lty hj]; exact hi), leafCol_getElem lty hj]
    refine ⟨fun l hl => ?_, fun i hi => ?_⟩
    · obtain ⟨j, hj, rfl⟩ := List.mem_iff_getElem.1 hl
      exact (key j (by omega)).1
    · rw [sliceAt_ok]
      refine ⟨by rw [hos _ (List.getElem_mem _), h1, h.1], ?_⟩
      rw [mapM_eq_ok_iff_get]
      refine ⟨by rw [lty _ (List.getElem_mem _)]; omega, fun j hj => (key j (by omega)).2 i hi⟩
  · intro hs
    have hsk : v.skel = ty.skel := by
      rw [← sliceAt_skel (hs.slice 0 (by omega)), hos _ (List.getElem_mem _)]
    have lv : (flatten v).length = (flatten ty).length := length_flatten_of_skel_eq hsk
    refine ⟨hsk.trans h.1.symm, by omega, fun j hj => ?_⟩
    have hlc := leafCol_length lty (show j < (flatten ty).length by omega)
    rw [st j (by omega), Leaf.stack_eq_ok (lne j (by omega))]
    refine ⟨by rw [hlc]; exact hs.size _ (List.getElem_mem _), fun i hi => ?_⟩
    rw [hlc] at hi
    obtain ⟨_, h2⟩ := mapM_eq_ok_iff_get.1 (sliceAt_ok.1 (hs.slice i hi)).2
    rw [h2 j (by omega), leafCol_getElem lty (by omega) i hi]

theorem newArrays_ok {n : Nat} {o : Val α} (ho : o.WF) {outs : PyVal (TArr α)} :
    mapFn (fn1 (TArr.new n)) o [o] = .ok outs ↔ ∃ ty, HasType o ty ∧ HoldsAll n ty [] outs := by
  rw [mapFn_fn1_self _ _ ho, traverse_eq_ok_iff, mapM_eq_ok_iff_get]
  constructor
  · rintro ⟨h1, h2, h3⟩
    refine ⟨outs.map (·.dtype), ⟨by simp [h1], ?_⟩, by simp, ?_⟩
    · rw [mapM_eq_ok_iff_get]
      refine ⟨by simp [flatten_map, h2], fun i hi => ?_⟩
      have := h3 i hi
      simp only [TArr.new, bind_eq_ok, Except.ok.injEq] at this
      obtain ⟨dt, hdt, e⟩ := this
      simp [flatten_map, ← e, hdt]
    · intro j hj hj'
      have := h3 j (by omega)
      simp only [TArr.new, bind_eq_ok, Except.ok.injEq] at this
      obtain ⟨dt, hdt, e⟩ := this
      simp [TArr.Holds, flatten_map, ← e, leafCol]
  · rintro ⟨ty, ⟨h1, h2⟩, h3, h4⟩
    have l1 : (flatten outs).length = (flatten ty).length := length_flatten_of_skel_eq h3
    have l2 : (flatten o).length = (flatten ty).length := length_flatten_of_skel_eq h1
    obtain ⟨_, h2⟩ := mapM_eq_ok_iff_get.1 h2
    refine ⟨h3.trans h1.symm, by omega, fun j hj => ?_⟩
    obtain ⟨a, _, b⟩ := h4 j (by omega) (by omega)
    simp only [TArr.new, h2 j hj, ok_bind, Except.ok.injEq]
    cases e : (flatten outs)[j]
    rw [e] at a b
    simp only at a b
    simp [a, b, leafCol]

theorem stepsTyped_WF {op : Operator α} (hs : op.Sane) {ty : PyVal DType} {xs : List (Val α)} {s sf : Val α}
    {os : List (Val α)} (hx : ∀ x ∈ xs, x.WF) (hst : s.WF) (h : stepsTyped op ty xs s = .ok (os, sf)) :
    (∀ o ∈ os, o.WF) ∧ sf.WF := by
  induction xs generalizing s os with
  | nil => simp [stepsTyped] at h; simp [h.1, ← h.2, hst]
  | cons x xs ih =>
    obtain ⟨o, n, i, os', h1, h2, h3, rfl⟩ := stepsTyped_cons_ok.1 h
    obtain ⟨a, b, c⟩ := hs x (some s) o n i (hx x (by simp)) (by simpa using hst) h1
    obtain ⟨d, e⟩ := ih (fun y hy => hx y (by simp [hy])) b h3
    exact ⟨by simpa using ⟨a, d⟩, e⟩

theorem stepsTyped_skel {op : Operator α} (hs : op.Sane) (hu : op.Uniform) {ty : PyVal DType} {xs : List (Val α)} {s sf : Val α}
    {os : List (Val α)} {x0 o0 n0 i0 : Val α} {prov : Option (Val α)}
    (hw0 : x0.WF) (hp0 : ∀ s ∈ prov, s.WF)
    (h0 : op.forwardStep x0 prov = .ok (o0, n0, i0)) (hs0 : (prov.getD i0).skel = ty.skel)
    (hw : ∀ x ∈ xs, x.WF) (hsw : s.WF) (hx : ∀ x ∈ xs, x.skel = x0.skel) (hst : s.skel = ty.skel)
    (h : stepsTyped op ty xs s = .ok (os, sf)) : ∀ o ∈ os, o.skel = o0.skel := by
  induction xs generalizing s os with
  | nil => simp [stepsTyped] at h; simp [h.1]
  | cons x xs ih =>
    obtain ⟨o, n, i, os', h1, h2, h3, rfl⟩ := stepsTyped_cons_ok.1 h
    have hwf := hs x (some s) o n i (hw x (by simp)) (by simpa using hsw) h1
    have hn : n.skel = ty.skel := ((toType_ok hwf.2.1).1 h2).1
    have e := hu x0 x prov s o0 n0 i0 o n i hw0 hp0 h0 h1 (hx x (by simp)).symm (hs0.trans hst.symm)
    have := ih (fun y hy => hw y (by simp [hy])) hwf.2.1 (fun y hy => hx y (by simp [hy])) hn h3
    simpa using ⟨e, this⟩

theorem sizes_ok {inputs : Val α} {xs : List (Val α)} (hin : IsSeries inputs xs) :
    (flatten inputs).mapM Leaf.size0 = .ok (List.replicate (flatten inputs).length xs.length) := by
  rw [PyVal.mapM_ok_of_forall (g := fun _ => xs.length) _ hin.size, List.map_const']

theorem foldl_same (n m : Nat) : (List.replicate m n).foldl (fun acc x => acc && x == n) true = true := by
  induction m with
  | zero => rfl
  | succ m ih => simpa [List.replicate_succ] using ih

theorem callStreamed_eq {op : Operator α} {inputs : Val α} {xs : List (Val α)} {prov : Option (Val α)}
    (hw : inputs.WF) (hl : flatten inputs ≠ []) (hin : IsSeries inputs xs) (hx : xs ≠ []) :
    callStreamed op inputs prov = (do
      let (outputs_0, _, init) ← op.forwardStep (xs.head hx) prov
      let arrays ← mapFn (fn1 (TArr.new xs.length)) outputs_0 [outputs_0]
      let (state_f, outs_f) ← streamLoop op inputs xs.length 0 (prov.getD init) arrays
      let outputs ← mapFn (fn1 TArr.stack) outs_f [outs_f]
      .ok (outputs, state_f, prov.getD init)) := by
  have h0 : mapFn (fn1 (Leaf.index 0)) inputs [inputs] = .ok (xs.head hx) := by
    rw [mapFn_fn1_self _ _ hw, List.head_eq_getElem]
    exact hin.slice 0 (List.length_pos_iff.2 hx)
  obtain ⟨m, hm⟩ : ∃ m, (flatten inputs).length = m + 1 :=
    ⟨_, (Nat.succ_pred_eq_of_pos (List.length_pos_iff.2 hl)).symm⟩
  have hs := sizes_ok hin
  rw [hm] at hs
  have hf := foldl_same xs.length (m + 1)
  simp only [callStreamed, hs, ok_bind, List.replicate_succ]
  rw [List.replicate_succ] at hf
  simp only [hf, ne_eq, not_true, if_false, h0, ok_bind]
  cases prov <;> rfl

theorem callStreamed_complete {op : Operator α} {inputs : Val α} {xs : List (Val α)} {prov : Option (Val α)}
    (hw : inputs.WF) (hl : flatten inputs ≠ []) (hin : IsSeries inputs xs) (hx : xs ≠ [])
    {o0 n0 i0 outs sf : Val α} {os : List (Val α)} {sty oty : PyVal DType}
    (hwf0 : o0.WF) (hsw : (prov.getD i0).WF) (hosw : ∀ o ∈ os, o.WF)
    (h0 : op.forwardStep (xs.head hx) prov = .ok (o0, n0, i0)) (hs0 : HasType (prov.getD i0) sty)
    (ho0 : HasType o0 oty) (hsteps : stepsTyped op sty xs (prov.getD i0) = .ok (os, sf))
    (hot : ∀ o ∈ os, HasType o oty) (hser : IsSeries outs os) :
    callStreamed op inputs prov = .ok (outs, sf, prov.getD i0) := by
  have hpos : 0 < xs.length := List.length_pos_iff.2 hx
  have hlen := stepsTyped_length hsteps
  obtain ⟨arrays, harr⟩ : ∃ arrays, mapFn (fn1 (TArr.new xs.length)) o0 [o0] = .ok arrays := by
    rw [mapFn_fn1_self _ _ hwf0]
    have : ∃ l, (flatten o0).mapM (TArr.new xs.length) = .ok l := by
      refine ⟨(flatten oty).map fun dt => ⟨dt, List.replicate xs.length none⟩, ?_⟩
      obtain ⟨h1, h2⟩ := mapM_eq_ok_iff_get.1 ho0.2
      rw [mapM_eq_ok_iff_get]
      refine ⟨by simp [h1], fun i hi => ?_⟩
      simp [TArr.new, h2 i hi]
    refine ⟨_, traverse_ok (TArr.new xs.length) (fun l => ⟨(match l.dtype with | .ok dt => dt | _ => .float),
      List.replicate xs.length none⟩) _ fun a ha => ?_⟩
    obtain ⟨i, hi, rfl⟩ := List.mem_iff_getElem.1 ha
    obtain ⟨h1, h2⟩ := mapM_eq_ok_iff_get.1 ho0.2
    simp [TArr.new, h2 i hi]
  obtain ⟨ty', hty', harr'⟩ := (newArrays_ok hwf0).1 harr
  obtain rfl : ty' = oty := hty'.unique ho0
  have hosk : ∀ o ∈ os, o.skel = ty'.skel := fun o ho => (hot o ho).1
  -- final arrays exist: write them all
  obtain ⟨outsf, houtsf⟩ : ∃ outsf, writeAll 0 os arrays = .ok outsf := by
    have hwr : ∀ (os' os1 : List (Val α)) (arr : PyVal (TArr α)), (∀ o ∈ os', o.WF ∧ HasType o ty') → (∀ o ∈ os1, o.skel = ty'.skel) →
        os1.length + os'.length ≤ xs.length → HoldsAll xs.length ty' os1 arr →
        ∃ outsf, writeAll os1.length os' arr = .ok outsf := by
      intro os'
      induction os' with
      | nil => intro os1 arr _ _ _ _; exact ⟨arr, rfl⟩
      | cons o os' ih =>
        intro os1 arr h1 h2 h3 h4
        simp only [List.length_cons] at h3
        have ho := h1 o (by simp)
        -- one write succeeds
        have hone : ∃ u, mapFn (writeFn os1.length) o [o.map .inl, arr.map .inr] = .ok u ∧ u.skel = arr.skel := by
          have hsk := ho.2.1.trans h4.1.symm
          rw [mapFn_map_zip _ _ _ _ ho.1 arr hsk]
          have lo : (flatten o).length = (flatten arr).length := length_flatten_of_skel_eq hsk
          have larr : (flatten arr).length = (flatten ty').length := length_flatten_of_skel_eq h4.1
          have hz : ∃ l, ((flatten o).zip (flatten arr)).mapM (fun p => TArr.write os1.length p.1 p.2) = .ok l := by
            refine ⟨((flatten o).zip (flatten arr)).map fun p => { p.2 with slots := p.2.slots.set os1.length (some p.1) }, ?_⟩
            rw [mapM_eq_ok_iff_get]
            refine ⟨by simp, fun j hj => ?_⟩
            simp only [List.length_zip] at hj
            have hj' : j < (flatten ty').length := by omega
            simp only [List.getElem_zip, List.getElem_map]
            obtain ⟨x1, x2, x3⟩ := h4.2 j (by omega) hj'
            obtain ⟨_, hdt⟩ := mapM_eq_ok_iff_get.1 ho.2.2
            have lty : ∀ o ∈ os1, (flatten o).length = (flatten ty').length := fun o h => length_flatten_of_skel_eq (h2 o h)
            rw [TArr.write_ok]
            refine ⟨by rw [hdt j (by omega), x1], ?_, rfl⟩
            rw [x3, List.getElem?_append_right (by simp [leafCol_length lty hj'])]
            simp [List.getElem?_replicate, leafCol_length lty hj']; omega
          obtain ⟨l, hl'⟩ := hz
          obtain ⟨u, hu1, hu2⟩ := exists_of_skel_flatten arr l (by rw [length_of_mapM_ok hl']; simp [lo])
          exact ⟨u, (zipM_eq_ok_iff _ _ _ _ hsk).2 ⟨hu1.trans hsk.symm, by rw [hu2]; exact hl'⟩, hu1⟩
        obtain ⟨u, hu1, hu2⟩ := hone
        have hh := ((write_step ho.1 h2 ho.2.1 (by omega) h4).1 ⟨hu1, hu2⟩).2
        obtain ⟨w, hw⟩ := ih (os1 ++ [o]) u (fun x hx => h1 x (by simp [hx]))
          (by intro x hx; rcases List.mem_append.1 hx with hx | hx; exact h2 x hx; simp at hx; exact hx ▸ ho.2.1)
          (by simp; omega) hh
        refine ⟨w, ?_⟩
        simp only [writeAll, hu1, ok_bind, hu2, ne_eq, not_true, if_false]
        simpa using hw
    exact hwr os [] arrays (fun o ho => ⟨hosw o ho, hot o ho⟩) (by simp) (by simp; omega) harr'
  have hloop := (streamLoop_ok (op := op) hw (ty := sty) xs 0 (fun j h => by simpa using hin.slice j h)
    (prov.getD i0) ((toType_ok hsw).2 hs0) arrays sf outsf).2 ⟨os, hsteps, houtsf⟩
  have hne : os ≠ [] := by intro e; subst e; simp at hlen; omega
  have hfin := ((writeAll_ok (n := xs.length) (ty := ty') [] os arrays outsf (by simp)
    (fun o ho => ⟨hosw o ho, hosk o ho⟩) (by simp; omega) harr').1 houtsf).2
  simp only [hne, if_false, List.nil_append] at hfin
  have hwo : outsf.WF := (WF_of_skel_eq (hfin.1.trans ho0.1.symm)).2 hwf0
  have hstack := (stackAll_ok hwo hlen hpos hosk hfin outs).2 hser
  rw [callStreamed_eq hw hl hin hx]
  simp [h0, harr, hloop, hstack]

theorem callStreamed_sound {op : Operator α} {inputs : Val α} {xs : List (Val α)} {prov : Option (Val α)}
    (hsane : op.Sane) (hu : op.Uniform) (hw : inputs.WF) (hl : flatten inputs ≠ []) (hin : IsSeries inputs xs) (hx : xs ≠ [])
    (hprov : ∀ s ∈ prov, s.WF) {outs sf s0 : Val α} (h : callStreamed op inputs prov = .ok (outs, sf, s0)) :
    ∃ o0 n0 i0 os sty oty, op.forwardStep (xs.head hx) prov = .ok (o0, n0, i0) ∧ s0 = prov.getD i0 ∧
      HasType s0 sty ∧ HasType o0 oty ∧ stepsTyped op sty xs s0 = .ok (os, sf) ∧ (∀ o ∈ os, HasType o oty) ∧
      IsSeries outs os := by
  have hpos : 0 < xs.length := List.length_pos_iff.2 hx
  have hxw : ∀ x ∈ xs, x.WF := by
    intro x hx
    obtain ⟨i, hi, rfl⟩ := List.mem_iff_getElem.1 hx
    exact (sliceAt_WF (hin.slice i hi)).2 hw
  have hxs : ∀ x ∈ xs, x.skel = (xs.head hx).skel := by
    intro x hx'
    obtain ⟨i, hi, rfl⟩ := List.mem_iff_getElem.1 hx'
    rw [sliceAt_skel (hin.slice i hi), List.head_eq_getElem, sliceAt_skel (hin.slice 0 hpos)]
  rw [callStreamed_eq hw hl hin hx] at h
  simp only [bind_eq_ok] at h
  obtain ⟨⟨o0, n0, i0⟩, h0, arrays, harr, ⟨sf', outsf⟩, hloop, outs', hst, he⟩ := h
  simp only [Except.ok.injEq, Prod.mk.injEq] at he
  obtain ⟨rfl, rfl, rfl⟩ := he
  have hwf0 := hsane _ _ _ _ _ (hxw _ (List.head_mem hx)) hprov h0
  have hsw : (prov.getD i0).WF := by
    cases prov with
    | none => exact hwf0.2.2
    | some s => exact hprov s rfl
  -- the state has a type, because the loop body ran at least once
  obtain ⟨sty, hsty⟩ : ∃ sty, toType (prov.getD i0) = .ok sty := by
    obtain ⟨n, hn⟩ : ∃ n, xs.length = n + 1 := ⟨_, (Nat.succ_pred_eq_of_pos hpos).symm⟩
    rw [hn] at hloop
    simp only [streamLoop, streamBody, bind_eq_ok] at hloop
    obtain ⟨_, ⟨_, _, _, _, ty, hty, _⟩, _⟩ := hloop
    exact ⟨ty, hty⟩
  obtain ⟨oty, hoty, harr'⟩ := (newArrays_ok hwf0.1).1 harr
  obtain ⟨os, hsteps, hwr⟩ := (streamLoop_ok (op := op) hw (ty := sty) xs 0 (fun j h => by simpa using hin.slice j h)
    (prov.getD i0) hsty arrays sf' outsf).1 hloop
  have hs0 := (toType_ok hsw).1 hsty
  have hosw := (stepsTyped_WF hsane hxw hsw hsteps).1
  have hlen := stepsTyped_length hsteps
  have hosk0 := stepsTyped_skel hsane hu (hxw _ (List.head_mem hx)) hprov h0 hs0.1 hxw hsw hxs hs0.1 hsteps
  have hosk : ∀ o ∈ os, o.skel = oty.skel := fun o ho => (hosk0 o ho).trans hoty.1
  have hne : os ≠ [] := by intro e; subst e; simp at hlen; omega
  have hfin := (writeAll_ok (n := xs.length) (ty := oty) [] os arrays outsf (by simp)
    (fun o ho => ⟨hosw o ho, hosk o ho⟩) (by simp; omega) harr').1 hwr
  simp only [hne, if_false, List.nil_append] at hfin
  have hwo : outsf.WF := (WF_of_skel_eq (hfin.2.1.trans hoty.1.symm)).2 hwf0.1
  exact ⟨o0, n0, i0, os, sty, oty, h0, rfl, hs0, hoty, hsteps, hfin.1, (stackAll_ok hwo hlen hpos hosk hfin.2 _).1 hst⟩

end TS
