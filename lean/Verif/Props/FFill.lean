import Verif.Lemmas.FFillStream
import Verif.Lemmas.Sim
import Verif.Props.Contract
/-
C15, C16: FFill.
-/
namespace TS
open PyVal
variable {α : Type} [TFNum α]
set_option linter.unusedSimpArgs false

theorem mem_outputsAtZeroFree {xs os : List (Val α)} {y : Val α} (h : y ∈ outputsAtZeroFree xs os) : y ∈ os := by
  simp only [outputsAtZeroFree, List.mem_map, List.mem_filter] at h
  obtain ⟨e, ⟨h1, -⟩, rfl⟩ := h
  exact (List.of_mem_zip h1).2

/-- **C15 FFill forward-fills, from a given state** `(p, s)` of op's structures.  The inputs are series of
slices `xs` and the outputs the series of `os`:
at a step with a zero the output is the previous one (`p` at the beginning); the outputs of the other steps are
those of `op` stepped over the zero-free slices only, starting from `s`; and the final state is the last output
and the state `op` is left in by the zero-free slices. -/
theorem C15_ffill_resume {op : Operator α} (hop : op.Sane) (hu : op.Uniform) {v p s z sf s0 : Val α}
    (hw : v.WF) (hp : p.WF) (hs : s.WF) (hk : op.KeepsState v.skel s.skel)
    (hO : ∀ x s' o n i, x.skel = v.skel → s'.skel = s.skel → op.forwardStep x (some s') = .ok (o, n, i) → o.skel = p.skel)
    (h : call (FFill op) v (some (.tup [p, s])) = .ok (z, sf, s0)) :
    s0 = .tup [p, s] ∧ ∃ xs os tro, IsSeries v xs ∧ IsSeries z os ∧ os.length = xs.length ∧
      FilledFrom p xs os ∧
      stepAll op (zeroFree xs) s = .ok tro ∧ outputsAtZeroFree xs os = tro.map (·.1) ∧
      sf = .tup [os.getLast?.getD p, (tro.map (·.2)).getLast?.getD s] := by
  have hps : ∀ t ∈ some (PyVal.tup [p, s]), t.WF := by rintro _ ⟨⟩; simp [WF_tup, hp, hs]
  obtain ⟨hl, x, xs, hin, o, n, i, h1, hs0, h2, h3, tr, h4, h5, h6, h7⟩ :=
    (C01_streaming_eq_stepping (FFill_sane hop) (FFill_uniform hop hu) hw hps _ _ _).1 h
  change s0 = PyVal.tup [p, s] at hs0
  subst hs0
  have hxs : ∀ y ∈ x :: xs, y.WF ∧ y.skel = v.skel := fun y hy =>
    ⟨hin.mem_WF hw y hy, by obtain ⟨j, hj⟩ := hin.mem hy; exact sliceAt_skel hj⟩
  obtain ⟨tro, a1, a2, a3, a4, a5⟩ := ffill_trace hop hk hO hxs hp hs rfl rfl h4 fun e he => (h5 e he).2
  refine ⟨rfl, x :: xs, tr.map (·.1), tro, hin, h6, by simpa using stepAll_length h4, a3, a1, a2.symm, ?_⟩
  rw [← lastState_eq_of_getLast? (s := .tup [p, s]) h7, a4]
  rfl

/-- **C15 FFill forward-fills, without a state.**  As above, starting from zeros of the shape of op's output
and from the initial state of `op`. -/
theorem C15_ffill {op : Operator α} (hop : op.Sane) (hu : op.Uniform) {v z sf s0 : Val α} (hw : v.WF)
    (hc : op.Contract (fun x => x.skel = v.skel))
    (hk : ∀ x o n i, x.skel = v.skel → op.forwardStep x none = .ok (o, n, i) → op.KeepsState v.skel i.skel)
    (h : call (FFill op) v none = .ok (z, sf, s0)) :
    ∃ x o1 n1 p s, sliceAt 0 v = .ok x ∧ call op x none false = .ok (o1, n1, s) ∧ IsZeros p o1 ∧ s0 = .tup [p, s] ∧
    ∃ xs os tro, IsSeries v xs ∧ IsSeries z os ∧ os.length = xs.length ∧
      FilledFrom p xs os ∧
      stepAll op (zeroFree xs) s = .ok tro ∧ outputsAtZeroFree xs os = tro.map (·.1) ∧
      sf = .tup [os.getLast?.getD p, (tro.map (·.2)).getLast?.getD s] := by
  have hfs := FFill_sane hop
  have hfu := FFill_uniform hop hu
  obtain ⟨hl, x, xs, hin, o, n, i, h1, rfl, h2, h3, tr, h4, h5, h6, h7⟩ :=
    (C01_streaming_eq_stepping hfs hfu hw (by simp) _ _ _).1 h
  have hx := hin.mem_WF hw x (by simp)
  have hxs : x.skel = v.skel := sliceAt_skel (hin.slice 0 (by simp))
  obtain ⟨zz, po, ps, o1, n1, s, p, sel, sst, hz, hst', hcall, hpo, hsel, hss, e⟩ := ffill_ok.1 ((call_step_ok hx (by simp)).1 h1).2.2
  cases e
  rcases hst' with ⟨-, rfl, rfl⟩ | ⟨s', a, b, h0, -⟩
  swap
  · cases h0
  rcases hpo with ⟨-, hpo⟩ | hpo
  swap
  · cases hpo
  have hwf := hop.call hx (by simp) hcall
  have hzero := zerosLike_isZeros hwf.1 hpo
  have hp : p.WF := (WF_of_skel_eq hzero.1).2 hwf.1
  have hcall' := ((call_step_ok hx (by simp)).1 hcall).2.2
  have hres : call (FFill op) v (some (.tup [p, s])) = .ok (z, sf, .tup [p, s]) := by
    exact (C01_streaming_eq_stepping hfs hfu hw (by rintro _ ⟨⟩; simp [WF_tup, hp, hwf.2.2]) _ _ _).2
      ⟨hl, x, xs, hin, o, _, _, (FFill_contract hop hc).call_fresh hfs hx hxs h1, rfl, h2, h3, tr, h4, h5, h6, h7⟩
  refine ⟨x, o1, n1, p, s, hin.slice 0 (by simp), hcall, hzero, rfl, ?_⟩
  exact (C15_ffill_resume hop hu hw hp hwf.2.2 (hk _ _ _ _ hxs hcall') (fun y s' o n i hy hs' hyo => by
    rw [hzero.1]
    exact (hu x y none s' _ _ _ _ _ _ hx (by simp) hcall' hyo (hxs.trans hy.symm) hs'.symm)) hres).2

/-- **C15, in terms of streams.**  The outputs of `FFill op` at the zero-free steps are the outputs of streaming
`op` over the series `w` of the zero-free slices, and the operator's part of the final state is the final state
of that call. -/
theorem C15_ffill_streams {op : Operator α} (hop : op.Sane) (hu : op.Uniform) {v p s z sf s0 : Val α}
    (hw : v.WF) (hp : p.WF) (hs : s.WF) (hk : op.KeepsState v.skel s.skel)
    (hO : ∀ x s' o n i, x.skel = v.skel → s'.skel = s.skel → op.forwardStep x (some s') = .ok (o, n, i) → o.skel = p.skel)
    (h : call (FFill op) v (some (.tup [p, s])) = .ok (z, sf, s0)) :
    ∃ xs os, IsSeries v xs ∧ IsSeries z os ∧ os.length = xs.length ∧ FilledFrom p xs os ∧
      (zeroFree xs = [] → sf = .tup [p, s]) ∧
      (zeroFree xs ≠ [] → ∃ w zw sfw, IsSeries w (zeroFree xs) ∧ w.skel = v.skel ∧
        call op w (some s) = .ok (zw, sfw, s) ∧ IsSeries zw (outputsAtZeroFree xs os) ∧
        sf = .tup [os.getLast?.getD p, sfw]) := by
  have hps : ∀ t ∈ some (PyVal.tup [p, s]), t.WF := by rintro _ ⟨⟩; simp [WF_tup, hp, hs]
  obtain ⟨hl, x, xs, hin, o, n, i, h1, hs0, h2, h3, tr, h4, h5, h6, h7⟩ :=
    (C01_streaming_eq_stepping (FFill_sane hop) (FFill_uniform hop hu) hw hps _ _ _).1 h
  change s0 = PyVal.tup [p, s] at hs0
  subst hs0
  have hxs : ∀ y ∈ x :: xs, y.WF ∧ y.skel = v.skel := fun y hy =>
    ⟨hin.mem_WF hw y hy, by obtain ⟨j, hj⟩ := hin.mem hy; exact sliceAt_skel hj⟩
  obtain ⟨tro, a1, a2, a3, a4, a5⟩ := ffill_trace hop hk hO hxs hp hs rfl rfl h4 fun e he => (h5 e he).2
  have hsf : sf = .tup [(tr.map (·.1)).getLast?.getD p, lastState s tro] := by
    rw [← lastState_eq_of_getLast? (s := .tup [p, s]) h7, a4]
  refine ⟨x :: xs, tr.map (·.1), hin, h6, by simpa using stepAll_length h4, a3, ?_, ?_⟩
  · intro hz
    rw [hz] at a1
    simp only [stepAll, Except.ok.injEq] at a1
    subst a1
    -- every output is p
    have hall : ∀ y ∈ x :: xs, hasZero y = true := by
      intro y hy
      by_contra hc
      have : y ∈ zeroFree (x :: xs) := by simp only [zeroFree, List.mem_filter]; exact ⟨hy, by simpa using hc⟩
      rw [hz] at this
      cases this
    have hlen : tr.length = (x :: xs).length := stepAll_length h4
    have : ∀ k (h' : k < (tr.map (·.1)).length), (tr.map (·.1))[k] = p := by
      intro k
      induction k with
      | zero => intro h'; exact a3 0 (by simp) h' (hall _ (List.getElem_mem _))
      | succ k ih =>
        intro h'
        have hk' : k + 1 < (x :: xs).length := by rw [← hlen]; simpa using h'
        rw [a3 (k + 1) hk' h' (hall _ (List.getElem_mem _))]
        exact ih (Nat.lt_of_succ_lt h')
    rw [hsf]
    congr 2
    have hne : tr.map (·.1) ≠ [] := by
      intro e
      have := congrArg List.length e
      simp [hlen] at this
    rw [List.getLast?_eq_some_getLast hne, List.getLast_eq_getElem]
    exact this _ _
  · intro hz
    obtain ⟨w, hw1, hw2⟩ := hin.pick (ys := zeroFree (x :: xs)) fun y hy => (List.mem_filter.1 hy).1
    obtain ⟨zw, hzw, -⟩ := h6.pick (ys := outputsAtZeroFree (x :: xs) (tr.map (·.1))) fun y hy => mem_outputsAtZeroFree hy
    refine ⟨w, zw, lastState s tro, hw1, hw2, ?_, hzw, hsf⟩
    obtain ⟨y, ys, hys⟩ := List.exists_cons_of_ne_nil hz
    rw [hys] at hw1 a1
    obtain ⟨o1, n1, i1, tr1, k1, k2, rfl⟩ := stepAll_cons_ok.1 a1
    have hout : ∀ e ∈ (o1, n1) :: tr1, ∃ e' ∈ tr, e'.1 = e.1 := by
      intro e he
      have : e.1 ∈ outputsAtZeroFree (x :: xs) (tr.map (·.1)) := by rw [← a2]; exact List.mem_map_of_mem he
      obtain ⟨e', he', q⟩ := List.mem_map.1 (mem_outputsAtZeroFree this)
      exact ⟨e', he', q⟩
    have hstt : ∀ e ∈ (o1, n1) :: tr1, SameType e.2 s := by
      intro e he
      obtain ⟨e', he', q, hq⟩ := a5 e.2 (List.mem_map_of_mem he)
      have := (h5 e' he').2
      rw [hq, sameType_tup_iff] at this
      simp only [List.map_cons, List.cons.injEq] at this
      exact this.2.1
    obtain ⟨e0, he0, q0⟩ := hout (o1, n1) (by simp)
    have hlw : flatten w ≠ [] := by
      intro e
      have := length_flatten_of_skel_eq hw2
      rw [e] at this
      exact hl (List.length_eq_zero_iff.1 this.symm)
    refine (C01_streaming_eq_stepping hop hu ((WF_of_skel_eq hw2).2 hw) (by rintro _ ⟨⟩; exact hs) _ _ _).2
      ⟨hlw, y, ys, hw1, o1, n1, i1, k1, rfl, tensors_tup.1 h2 s (by simp), ?_, _, a1, ?_, ?_, ?_⟩
    · have := h6.mem_tensors _ (List.mem_map_of_mem he0)
      rwa [q0] at this
    · intro e he
      refine ⟨?_, hstt e he⟩
      obtain ⟨e', he', q⟩ := hout e he
      have t1 := (h5 e' he').1
      have t2 := (h5 e0 he0).1
      rw [q] at t1
      rw [q0] at t2
      exact t1.trans t2.symm
    · rw [a2]; exact hzw
    · exact getLast?_eq_lastState (by simp)

/-! ### Non-vacuity and C16 -/

/-- `SMA(p)` on a tensor keeps the structure `(iteration, buffer)` of its state. -/
theorem SMA_keepsState (p : Int) : (SMA p : Operator α).KeepsState (.leaf ()) (.tup [.leaf (), .leaf ()]) := by
  intro x s o n i hx hs h
  simp only [SMA, bufferOp, streamable, bind_eq_ok] at h
  obtain ⟨-, -, t, -, it, -, b, -, r, -, e⟩ := h
  cases e
  rfl
example := C15_ffill (α := XR ℚ) (op := SMA 2) (Lib.basic (.sma 2)).ok.sane (Lib.basic (.sma 2)).ok.uniform (v := series [1, 3, 0, 5]) (z := series [0, 2, 2, 4]) (sf := .tup [vS (.fin 4), .tup [vI 3, series [5, 3]]])
  (s0 := .tup [vS (.fin 0), .tup [vI 0, series [0, 0]]]) (nums_ok _).1 (Lib.weaken (D' := (· = .leaf ())) (Lib.basic (.sma 2)) (by rintro _ rfl; rfl) fun _ h => h).ok.contract
  (by intro x o n i _ h
      simp only [SMA, bufferOp, streamable, bind_eq_ok] at h
      obtain ⟨-, -, t, -, it, -, b, -, r, -, e⟩ := h
      cases e; exact SMA_keepsState 2) (by decide +kernel)
example := C15_ffill_resume (α := XR ℚ) (op := SMA 2) (Lib.basic (.sma 2)).ok.sane (Lib.basic (.sma 2)).ok.uniform (v := series [0, 0, 5]) (p := vS (.fin 7)) (s := .tup [vI 2, series [3, 1]])
  (z := series [7, 7, 4]) (sf := .tup [vS (.fin 4), .tup [vI 3, series [5, 3]]]) (s0 := .tup [vS (.fin 7), .tup [vI 2, series [3, 1]]]) (nums_ok _).1 (by simp) (by simp [WF_tup])
  (SMA_keepsState 2)
  (by intro x s o n i _ _ h
      simp only [SMA, bufferOp, streamable, bind_eq_ok] at h
      obtain ⟨-, -, t, -, it, -, b, -, r, -, e⟩ := h
      cases e; rfl) (by decide +kernel)

/-- The third of four numbers is 0: the output 2 is repeated, and the window of the last step is (5, 3). -/
example : call (FFill (SMA 2)) (series [1, 3, 0, 5]) none =
    .ok (series [0, 2, 2, 4], .tup [vS (.fin 4), .tup [vI 3, series [5, 3]]],
      .tup [vS (.fin 0), .tup [vI 0, series [0, 0]]]) := by decide +kernel
example : call (SMA 2) (series [1, 3, 5]) none =
    .ok (series [0, 2, 4], .tup [vI 3, series [5, 3]], .tup [vI 0, series [0, 0]]) := by decide +kernel
/-- Starting with zeros, from a given state. -/
example : call (FFill (SMA 2)) (series [0, 0, 5]) (some (.tup [vS (.fin 7), .tup [vI 2, series [3, 1]]])) =
    .ok (series [7, 7, 4], .tup [vS (.fin 4), .tup [vI 3, series [5, 3]]],
      .tup [vS (.fin 7), .tup [vI 2, series [3, 1]]]) := by decide +kernel

/-- **C16 is false.**  `SetDuring(0, 1)` streams over 1, 2, but `FFill(SetDuring(0, 1))` does not: its state is
a one-element tuple, which `tf.cond` unpacks (meta/ffill.py:51-54), so the state changes type. -/
theorem C16_ffill_rejects_singleton_state :
    call (SetDuring (.f (Tensor.scalar (XR.fin 0))) 1) (series [1, 2]) none =
      .ok (series [0, 2], .tup [vI 2], .tup [vI 0]) ∧
    call (FFill (SetDuring (.f (Tensor.scalar (XR.fin 0))) 1)) (series [1, 2]) none = .error .stateTypes :=
  ⟨by decide +kernel, by decide +kernel⟩
example := C16_ffill_rejects_singleton_state

end TS
