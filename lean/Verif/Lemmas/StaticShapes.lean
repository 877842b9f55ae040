import Verif.Model.StaticShapes
import Verif.Spec.Shapes
import Verif.Lemmas.Call
import Verif.Lemmas.Steady
/-
Streaming with known shapes is streaming with a state that keeps its shapes.
-/
namespace TS
open PyVal
variable {α : Type}

theorem setShapes_ok {s n : Val α} (hs : s.WF) (hts : Tensors s) (htn : Tensors n) (hsk : s.skel = n.skel) {u : PyVal Unit} :
    mapFn setShapeFn s [s, n] = .ok u ↔ SameShapes n s ∧ u = s.map fun _ => () := by
  have e := mapFn_map_zip setShapeFn id id s hs n hsk
  rw [PyVal.map_id, PyVal.map_id] at e
  rw [e, zipM_eq_ok_iff _ _ _ _ hsk, mapM_eq_ok_iff_get]
  have key : ∀ a b : Leaf α, a ≠ .gen → b ≠ .gen → (setShapeFn [.leaf a, .leaf b] = .ok () ↔ shapeOf b = shapeOf a) := by
    intro a b ha hb
    cases a <;> cases b <;> first | exact absurd rfl ha | exact absurd rfl hb | skip
    all_goals
      simp only [setShapeFn, Leaf.toTensor, getShape, ok_bind, shapeOf]
      split_ifs with h
      · simp; exact fun h' => h h'.symm
      · simpa using (not_not.1 h).symm
  have hl : (flatten s).length = (flatten n).length := length_flatten_of_skel_eq hsk
  constructor
  · rintro ⟨h1, h2, h3⟩
    constructor
    · refine eq_of_skel_of_flatten _ _ (by simp [PyVal.skel_map, hsk]) ?_
      rw [flatten_map, flatten_map]
      refine List.ext_getElem (by simp [hl]) fun i a b => ?_
      simp only [List.length_map] at a b
      have := h3 i (by simp; omega)
      simp only [List.getElem_zip, id] at this
      simp only [List.getElem_map]
      exact (key _ _ (hts _ (List.getElem_mem _)) (htn _ (List.getElem_mem _))).1 this
    · refine eq_of_skel_of_flatten _ _ (by simpa [PyVal.skel_map] using h1) ?_
      exact List.ext_getElem (by simp [flatten_map, length_flatten_of_skel_eq h1]) fun i a b => rfl
  · rintro ⟨h, rfl⟩
    refine ⟨by simp [PyVal.skel_map], by simp [flatten_map, hl], fun i hi => ?_⟩
    simp only [List.length_zip] at hi
    simp only [List.getElem_zip, id]
    refine (key _ _ (hts _ (List.getElem_mem _)) (htn _ (List.getElem_mem _))).2 ?_
    have := congrArg (fun v => (flatten v)[i]?) h
    simpa [flatten_map, List.getElem?_eq_getElem (show i < (flatten s).length by omega),
      List.getElem?_eq_getElem (show i < (flatten n).length by omega)] using this

theorem SameShapes.refl (v : Val α) : SameShapes v v := rfl
theorem SameShapes.trans {u v w : Val α} (h : SameShapes u v) (h' : SameShapes v w) : SameShapes u w := Eq.trans h h'
theorem SameShapes.symm {u v : Val α} (h : SameShapes u v) : SameShapes v u := Eq.symm h

theorem HasSig.sameShapes {u v : Val α} {S} (h : HasSig u S) (h' : HasSig v S) : SameShapes u v := by
  have : ∀ w : Val α, w.map shapeOf = (w.map Leaf.sig).map fun o => (o.map Prod.snd).getD [] := by
    intro w
    rw [PyVal.map_map]
    refine PyVal.map_congr _ fun l _ => ?_
    cases l <;> rfl
  rw [SameShapes, this u, this v, h, h']

theorem streamBodyStatic_ok {op : Operator α} (hsane : op.Sane) {inputs x : Val α} {i : Nat} {st : Val α} {ty : PyVal DType}
    {outs : PyVal (TArr α)} (hw : inputs.WF) (hx : sliceAt i inputs = .ok x) (hst : st.WF) (hty : toType st = .ok ty)
    {n : Val α} {outs' : PyVal (TArr α)} :
    streamBodyStatic op inputs i st outs = .ok (n, outs') ↔ streamBody op inputs i st outs = .ok (n, outs') ∧ SameShapes n st := by
  simp only [streamBodyStatic, bind_eq_ok, Except.ok.injEq, Prod.mk.injEq]
  have key : ∀ {n : Val α} {outs'}, streamBody op inputs i st outs = .ok (n, outs') → ∀ {u}, (mapFn setShapeFn st [st, n] = .ok u ↔ SameShapes n st ∧ u = st.map fun _ => ()) := by
    intro n outs' h u
    obtain ⟨o, i0, a1, a2, -⟩ := (streamBody_ok hw hx hty).1 h
    have hn := (hsane x (some st) _ _ _ ((sliceAt_WF hx).2 hw) (by simpa using hst) a1).2.1
    have t1 := (toType_ok hst).1 hty
    have t2 := (toType_ok hn).1 a2
    exact setShapes_ok hst (tensors_iff.2 ⟨_, t1⟩) (tensors_iff.2 ⟨_, t2⟩) (t1.1.trans t2.1.symm)
  constructor
  · rintro ⟨⟨n', o'⟩, h1, u, h2, rfl, rfl⟩
    exact ⟨h1, ((key h1).1 h2).1⟩
  · rintro ⟨h1, h2⟩
    exact ⟨(n, outs'), h1, _, (key h1).2 ⟨h2, rfl⟩, rfl, rfl⟩

theorem streamLoopStatic_ok {op : Operator α} (hsane : op.Sane) {inputs : Val α} (hw : inputs.WF) (hti : Tensors inputs) {ty : PyVal DType} (xs : List (Val α)) (i : Nat)
    (hx : ∀ j (h : j < xs.length), sliceAt (i + j) inputs = .ok xs[j]) (st : Val α) (hst : st.WF) (hty : toType st = .ok ty)
    (outs : PyVal (TArr α)) (sf : Val α) (outs' : PyVal (TArr α)) :
    streamLoopStatic op inputs xs.length i st outs = .ok (sf, outs') ↔
    streamLoop op inputs xs.length i st outs = .ok (sf, outs') ∧ ∀ tr, stepAll op xs st = .ok tr → ∀ e ∈ tr, SameShapes e.2 st := by
  induction xs generalizing i st outs with
  | nil => simp [streamLoopStatic, streamLoop, stepAll]
  | cons x xs ih =>
    have hx0 : sliceAt i inputs = .ok x := hx 0 (by simp)
    have hx1 : ∀ j (h : j < xs.length), sliceAt (i + 1 + j) inputs = .ok xs[j] := by
      intro j h
      have := hx (j + 1) (by simpa using h)
      rw [show i + 1 + j = i + (j + 1) by omega]
      simpa using this
    have hc : call op x (some st) false = op.forwardStep x (some st) := by
      rw [call_eq false ((sliceAt_WF hx0).2 hw) (sliceAt_tensors hx0 hti) (by simpa using ⟨hst, tensors_iff.2 ⟨_, (toType_ok hst).1 hty⟩⟩)]; rfl
    simp only [List.length_cons, streamLoopStatic, streamLoop, bind_eq_ok]
    constructor
    · rintro ⟨⟨n, outs1⟩, h1, h2⟩
      obtain ⟨h1, h3⟩ := (streamBodyStatic_ok hsane hw hx0 hst hty).1 h1
      obtain ⟨o, i0, a1, a2, -⟩ := (streamBody_ok hw hx0 hty).1 h1
      have hn := (hsane x (some st) _ _ _ ((sliceAt_WF hx0).2 hw) (by simpa using hst) a1).2.1
      obtain ⟨h4, h5⟩ := (ih (i + 1) hx1 n hn a2 outs1).1 h2
      refine ⟨⟨(n, outs1), h1, h4⟩, fun tr htr e he => ?_⟩
      obtain ⟨o', n', i', tr', b1, b2, rfl⟩ := stepAll_cons_ok.1 htr
      rw [hc, a1] at b1; cases b1
      rcases List.mem_cons.1 he with rfl | he
      · exact h3
      · exact (h5 _ b2 e he).trans h3
    · rintro ⟨⟨⟨n, outs1⟩, h1, h2⟩, h3⟩
      obtain ⟨o, i0, a1, a2, -⟩ := (streamBody_ok hw hx0 hty).1 h1
      have hn := (hsane x (some st) _ _ _ ((sliceAt_WF hx0).2 hw) (by simpa using hst) a1).2.1
      obtain ⟨os, c1, -⟩ := (streamLoop_ok hw xs (i + 1) hx1 n a2 outs1 sf outs').1 h2
      obtain ⟨tr', d1, -⟩ := (stepsTyped_iff hsane (by
        intro y hy
        obtain ⟨j, hj, rfl⟩ := List.mem_iff_getElem.1 hy
        exact ⟨(sliceAt_WF (hx1 j hj)).2 hw, sliceAt_tensors (hx1 j hj) hti⟩) hn ((toType_ok hn).1 a2)).1 c1
      have h4 := h3 _ (stepAll_cons_ok.2 ⟨o, n, i0, tr', by rw [hc, a1], d1, rfl⟩)
      have h5 : SameShapes n st := h4 (o, n) (by simp)
      refine ⟨(n, outs1), (streamBodyStatic_ok hsane hw hx0 hst hty).2 ⟨h1, h5⟩, (ih (i + 1) hx1 n hn a2 outs1).2 ⟨h2, fun tr htr e he => ?_⟩⟩
      rw [d1] at htr; cases htr
      exact (h4 e (by simp [he])).trans h5.symm

theorem callStreamedStatic_eq {op : Operator α} {inputs : Val α} {xs : List (Val α)} {prov : Option (Val α)}
    (hw : inputs.WF) (hl : flatten inputs ≠ []) (hin : IsSeries inputs xs) (hx : xs ≠ []) :
    callStreamedStatic op inputs prov = (do
      let (outputs_0, _, init) ← op.forwardStep (xs.head hx) prov
      let arrays ← mapFn (fn1 (TArr.new xs.length)) outputs_0 [outputs_0]
      let (state_f, outs_f) ← streamLoopStatic op inputs xs.length 0 (prov.getD init) arrays
      let outputs ← mapFn (fn1 TArr.stack) outs_f [outs_f]
      .ok (outputs, state_f, prov.getD init)) := by
  have h0 : mapFn (fn1 (Leaf.index 0)) inputs [inputs] = .ok (xs.head hx) := by
    rw [mapFn_fn1_self _ _ hw, List.head_eq_getElem]
    exact hin.slice 0 (List.length_pos_iff.2 hx)
  obtain ⟨m, hm⟩ : ∃ m, (flatten inputs).length = m + 1 :=
    ⟨_, (Nat.succ_pred_eq_of_pos (List.length_pos_iff.2 hl)).symm⟩
  have hs := sizes_ok hin
  rw [hm] at hs
  have hf := foldl_same xs.length (m + 1)
  simp only [callStreamedStatic, hs, ok_bind, List.replicate_succ]
  rw [List.replicate_succ] at hf
  simp only [hf, ne_eq, not_true, if_false, h0, ok_bind]
  cases prov <;> rfl

theorem streamLoopStatic_sound {op : Operator α} {inputs : Val α} {n i : Nat} {st : Val α} {outs : PyVal (TArr α)} {r}
    (h : streamLoopStatic op inputs n i st outs = .ok r) : streamLoop op inputs n i st outs = .ok r := by
  induction n generalizing i st outs with
  | zero => exact h
  | succ n ih =>
    simp only [streamLoopStatic, streamBodyStatic, bind_eq_ok, Except.ok.injEq] at h
    obtain ⟨⟨s', o'⟩, ⟨⟨s'', o''⟩, h1, u, h2, h3⟩, h4⟩ := h
    cases h3
    simp only [streamLoop, h1, ok_bind]
    exact ih h4

theorem callStreamedStatic_sound {op : Operator α} {inputs : Val α} {st : Option (Val α)} {r : Step α}
    (h : callStreamedStatic op inputs st = .ok r) : callStreamed op inputs st = .ok r := by
  simp only [callStreamedStatic, bind_eq_ok] at h
  simp only [callStreamed, bind_eq_ok]
  obtain ⟨sizes, h1, h⟩ := h
  refine ⟨sizes, h1, ?_⟩
  cases sizes with
  | nil => exact h
  | cons size l =>
    simp only at h ⊢
    split_ifs at h ⊢ with hs
    simp only [bind_eq_ok] at h ⊢
    obtain ⟨x0, h2, ⟨o, n, i⟩, h3, arr, h4, ⟨sf, outs⟩, h5, h6⟩ := h
    exact ⟨x0, h2, (o, n, i), h3, arr, h4, (sf, outs), streamLoopStatic_sound h5, h6⟩

theorem callStatic_eq {op : Operator α} {x : Val α} {st : Option (Val α)} (hx : x.WF) (ht : Tensors x) (hs : ∀ s ∈ st, s.WF ∧ Tensors s) :
    callStatic op x st = callStreamedStatic op x st := by
  cases st with
  | none => simp [callStatic, toTensors_ok hx ht]
  | some s =>
    obtain ⟨h1, h2⟩ := hs s rfl
    simp [callStatic, toTensors_ok hx ht, toTensors_ok h1 h2]

end TS
