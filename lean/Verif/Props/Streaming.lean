import Verif.Lemmas.Series
/-
C01-C05: the streaming loop of `Streamable.__call__`.
-/
namespace TS
open PyVal
variable {α : Type}

/-- **C01 Streaming equals stepping.**  `op(inputs, state)` on whole series succeeds with
`(outs, sf, s0)` exactly when the inputs are series with slices `xs`, `s0` is the given state or the
initial state reported by the first single step, stepping one slice at a time from `s0` gives the trace
`tr` without error, `outs` is the series of its outputs and `sf` is its last state (and all states and
all outputs keep structure and dtypes). -/
theorem C01_streaming_eq_stepping {op : Operator α} (hsane : op.Sane) (hu : op.Uniform) {inputs : Val α}
    (hw : inputs.WF) {st : Option (Val α)} (hst : ∀ s ∈ st, s.WF) (outs sf s0 : Val α) :
    call op inputs st = .ok (outs, sf, s0) ↔
    flatten inputs ≠ [] ∧ ∃ (x : Val α) (xs : List (Val α)), IsSeries inputs (x :: xs) ∧
      ∃ o n i, call op x st false = .ok (o, n, i) ∧ s0 = st.getD i ∧ Tensors s0 ∧ Tensors o ∧
      ∃ tr, stepAll op (x :: xs) s0 = .ok tr ∧
        (∀ e ∈ tr, SameType e.1 o ∧ SameType e.2 s0) ∧
        IsSeries outs (tr.map (·.1)) ∧ (tr.map (·.2)).getLast? = some sf := by
  have last : ∀ {tr : List (Val α × Val α)} {s : Val α}, tr ≠ [] →
      ((tr.map (·.2)).getLast? = some sf ↔ sf = lastState s tr) := by
    intro tr s hne
    have : tr.map (·.2) ≠ [] := by simpa using hne
    rw [lastState, List.getLast?_eq_some_getLast this]
    simp [eq_comm]
  constructor
  · intro h
    have ht := call_ok_tensors hw hst h
    rw [call_eq true hw ht.1 fun s hs => ⟨hst s hs, ht.2 s hs⟩] at h
    simp only [if_true] at h
    obtain ⟨hl, xs', hx, hin⟩ := callStreamed_isSeries hw h
    obtain ⟨x, xs, rfl⟩ := List.exists_cons_of_ne_nil hx
    refine ⟨hl, x, xs, hin, ?_⟩
    obtain ⟨o, n, i, os, sty, oty, h1, rfl, h2, h3, h4, h5, h6⟩ := callStreamed_sound hsane hu hw hl hin hx hst h
    have hxw := hin.mem_WF hw
    have hxt := hin.mem_tensors
    have h1' := h1
    simp only [List.head_cons] at h1
    have hwf := hsane _ _ _ _ _ (hxw x (by simp)) hst h1
    refine ⟨o, n, i, ?_, rfl, tensors_iff.2 ⟨sty, h2⟩, tensors_iff.2 ⟨oty, h3⟩, ?_⟩
    · rw [call_eq false (hxw x (by simp)) (hxt x (by simp)) fun s hs => ⟨hst s hs, ht.2 s hs⟩]
      exact h1
    · have hsw : (st.getD i).WF := by
        cases st with
        | none => exact hwf.2.2
        | some s => exact hst s rfl
      obtain ⟨tr, a, b, rfl, rfl⟩ := (stepsTyped_iff hsane (fun y hy => ⟨hxw y hy, hxt y hy⟩) hsw h2).1 h4
      refine ⟨tr, a, fun e he => ⟨(h3.sameType).1 (h5 _ (List.mem_map_of_mem he)), (h2.sameType).1 (b e he)⟩, h6, ?_⟩
      refine (last ?_).2 rfl
      rintro rfl
      simp [stepAll_cons_ok] at a
  · rintro ⟨hl, x, xs, hin, o, n, i, h1, rfl, h2, h3, tr, h4, h5, h6, h7⟩
    have hxw := hin.mem_WF hw
    have hxt := hin.mem_tensors
    have ht := call_ok_tensors (hxw x (by simp)) hst h1
    rw [call_eq false (hxw x (by simp)) (hxt x (by simp)) fun s hs => ⟨hst s hs, ht.2 s hs⟩] at h1
    simp only [Bool.false_eq_true, if_false] at h1
    rw [call_eq true hw hin.tensors fun s hs => ⟨hst s hs, ht.2 s hs⟩]
    simp only [if_true]
    have hwf := hsane _ _ _ _ _ (hxw x (by simp)) hst h1
    have hsw : (st.getD i).WF := by
      cases st with
      | none => exact hwf.2.2
      | some s => exact hst s rfl
    obtain ⟨sty, h2⟩ := tensors_iff.1 h2
    obtain ⟨oty, h3⟩ := tensors_iff.1 h3
    have hne : tr ≠ [] := by rintro rfl; simp [stepAll_cons_ok] at h4
    have hsteps := (stepsTyped_iff hsane (fun y hy => ⟨hxw y hy, hxt y hy⟩) hsw h2).2
      ⟨tr, h4, fun e he => (h2.sameType).2 (h5 e he).2, rfl, (last hne).1 h7⟩
    refine callStreamed_complete hw hl hin (by simp) hwf.1 hsw
      (stepsTyped_WF hsane hxw hsw hsteps).1 h1 h2 h3 hsteps ?_ h6
    intro o' ho'
    obtain ⟨e, he, rfl⟩ := List.mem_map.1 ho'
    exact (h3.sameType).2 (h5 e he).1

/-- **C02 Chunked resumption.**  If `v` is the series with slices `a ++ b` and `v1`, `v2` are the series
with slices `a` and `b`, then streaming `v` succeeds with `(outs, sf, s0)` exactly when streaming `v1`
succeeds, streaming `v2` from the final state of `v1` succeeds, `outs` is the concatenation of the two
outputs, and `sf`, `s0` are the final state of the second and the initial state of the first. -/
theorem C02_chunked_resumption {op : Operator α} (hsane : op.Sane) (hu : op.Uniform) {v v1 v2 : Val α}
    {a b : List (Val α)} (ha : a ≠ []) (hb : b ≠ []) (hv : IsSeries v (a ++ b)) (hv1 : IsSeries v1 a)
    (hv2 : IsSeries v2 b) (hw : v.WF) (hl : flatten v ≠ []) {st : Option (Val α)} (hst : ∀ s ∈ st, s.WF)
    (outs sf s0 : Val α) :
    call op v st = .ok (outs, sf, s0) ↔
    ∃ o1 s1 o2, call op v1 st = .ok (o1, s1, s0) ∧ call op v2 (some s1) = .ok (o2, sf, s1) ∧
      ∃ os1 os2, IsSeries o1 os1 ∧ IsSeries o2 os2 ∧ IsSeries outs (os1 ++ os2) ∧
        os1.length = a.length ∧ os2.length = b.length := by
  obtain ⟨x, a, rfl⟩ := List.exists_cons_of_ne_nil ha
  obtain ⟨y, b, rfl⟩ := List.exists_cons_of_ne_nil hb
  have hx : sliceAt 0 v = .ok x := hv.slice 0 (by simp)
  have hx1 : sliceAt 0 v1 = .ok x := hv1.slice 0 (by simp)
  have hy : sliceAt (a.length + 1) v = .ok y := by
    have := hv.slice (a.length + 1) (by simp)
    rw [this]; simp
  have hy2 : sliceAt 0 v2 = .ok y := hv2.slice 0 (by simp)
  have hl1 : flatten v1 ≠ [] := flatten_ne_of_slice hx1 hx hl
  have hl2 : flatten v2 ≠ [] := flatten_ne_of_slice hy2 hy hl
  have hw1 : v1.WF := (sliceAt_WF hx1).1 ((sliceAt_WF hx).2 hw)
  have hw2 : v2.WF := (sliceAt_WF hy2).1 ((sliceAt_WF hy).2 hw)
  have hxw := hv.mem_WF hw
  have hxt := hv.mem_tensors
  constructor
  · intro h
    obtain ⟨_, x', xs', hin, o, n, i, h1, rfl, h2, h3, tr, h4, h5, h6, h7⟩ :=
      (C01_streaming_eq_stepping hsane hu hw hst _ _ _).1 h
    have e := hin.det hl hv
    simp only [List.cons_append, List.cons.injEq] at e
    obtain ⟨rfl, rfl⟩ := e
    have h4' : stepAll op ((x' :: a) ++ (y :: b)) (st.getD i) = .ok tr := h4
    obtain ⟨t1, t2, g1, g2, rfl⟩ := stepAll_append.1 h4'
    have n1 := stepAll_length g1
    have n2 := stepAll_length g2
    have t1ne : t1 ≠ [] := by rintro rfl; simp at n1
    have t2ne : t2 ≠ [] := by rintro rfl; simp at n2
    obtain ⟨o1, ho1, _⟩ := IsSeries.exists_sub (a := []) (b := t1.map (·.1)) (c := t2.map (·.1)) (by simpa using h6) (by simpa using t1ne)
    obtain ⟨o2, ho2, _⟩ := IsSeries.exists_sub (a := t1.map (·.1)) (b := t2.map (·.1)) (c := []) (by simpa using h6) (by simpa using t2ne)
    have hl1s := getLast?_eq_lastState (s := st.getD i) t1ne
    have hl2s := getLast?_eq_lastState (s := lastState (st.getD i) t1) t2ne
    -- first chunk
    have c1 := (C01_streaming_eq_stepping hsane hu hw1 hst o1 (lastState (st.getD i) t1) (st.getD i)).2
      ⟨hl1, x', a, hv1, o, n, i, h1, rfl, h2, h3, t1, g1, fun e he => h5 e (by simp [he]), ho1, hl1s⟩
    -- the middle state
    obtain ⟨e1, he1, hs1⟩ : ∃ e ∈ t1, e.2 = lastState (st.getD i) t1 := by
      have := List.mem_of_getLast? hl1s
      obtain ⟨e, he, h⟩ := List.mem_map.1 this
      exact ⟨e, he, h⟩
    have hsst : SameType (lastState (st.getD i) t1) (st.getD i) := hs1 ▸ (h5 e1 (by simp [he1])).2
    have hst1 : Tensors (lastState (st.getD i) t1) := by
      obtain ⟨ty, hty⟩ := tensors_iff.1 h2
      exact tensors_iff.2 ⟨ty, (hty.sameType).2 hsst⟩
    have hsw1 : (lastState (st.getD i) t1).WF := by
      have : (lastState (st.getD i) t1).skel = (st.getD i).skel := by
        have := congrArg PyVal.skel hsst
        simpa using this
      rw [WF_of_skel_eq this]
      have ht := call_ok_tensors (hxw x' (by simp)) hst h1
      rw [call_eq false (hxw x' (by simp)) (hxt x' (by simp)) fun s hs => ⟨hst s hs, ht.2 s hs⟩] at h1
      simp only [Bool.false_eq_true, if_false] at h1
      have hwf := hsane _ _ _ _ _ (hxw x' (by simp)) hst h1
      cases st with
      | none => exact hwf.2.2
      | some s => exact hst s rfl
    obtain ⟨o', n', i', t2', k1, k2, rfl⟩ := stepAll_cons_ok.1 g2
    have hh := h5 (o', n') (by simp)
    have c2 := (C01_streaming_eq_stepping hsane hu hw2 (st := some (lastState (st.getD i) t1)) (by simpa using hsw1) o2 sf
      (lastState (st.getD i) t1)).2
      ⟨hl2, y, b, hv2, o', n', i', k1, rfl, hst1, by
        obtain ⟨ty, hty⟩ := tensors_iff.1 h3
        exact tensors_iff.2 ⟨ty, (hty.sameType).2 hh.1⟩,
       (o', n') :: t2', g2, fun e he => by
        have := h5 e (by rw [List.mem_append]; exact Or.inr he)
        exact ⟨this.1.trans hh.1.symm, this.2.trans hsst.symm⟩, ho2, by
        rw [List.map_append, List.getLast?_append, hl2s, Option.some_or] at h7
        rw [hl2s, h7]⟩
    exact ⟨o1, _, o2, c1, c2, _, _, ho1, ho2, by simpa using h6, by simpa using n1, by simpa using n2⟩
  · rintro ⟨o1, s1, o2, c1, c2, os1, os2, ho1, ho2, hout, len1, len2⟩
    obtain ⟨_, x', xs', hin, o, n, i, h1, rfl, h2, h3, t1, h4, h5, h6, h7⟩ :=
      (C01_streaming_eq_stepping hsane hu hw1 hst _ _ _).1 c1
    have e := hin.det hl1 hv1
    simp only [List.cons.injEq] at e
    obtain ⟨rfl, rfl⟩ := e
    have hxx : stepAll op (x' :: xs') (st.getD i) = .ok t1 := h4
    have hs1 : s1 = lastState (st.getD i) t1 := (lastState_eq_of_getLast? h7).symm
    have hsst : SameType s1 (st.getD i) := by
      obtain ⟨e, he, h⟩ := List.mem_map.1 (List.mem_of_getLast? h7)
      exact h ▸ (h5 e he).2
    have hsw1 : s1.WF := by
      have : s1.skel = (st.getD i).skel := by
        have := congrArg PyVal.skel hsst
        simpa using this
      rw [WF_of_skel_eq this]
      have ht := call_ok_tensors (hxw x' (by simp)) hst h1
      rw [call_eq false (hxw x' (by simp)) (hxt x' (by simp)) fun s hs => ⟨hst s hs, ht.2 s hs⟩] at h1
      simp only [Bool.false_eq_true, if_false] at h1
      have hwf := hsane _ _ _ _ _ (hxw x' (by simp)) hst h1
      cases st with
      | none => exact hwf.2.2
      | some s => exact hst s rfl
    obtain ⟨_, y', ys', hin2, o', n', i', k1, _, k2, k3, t2, k4, k5, k6, k7⟩ :=
      (C01_streaming_eq_stepping hsane hu hw2 (by simpa using hsw1) _ _ _).1 c2
    have e := hin2.det hl2 hv2
    simp only [List.cons.injEq] at e
    obtain ⟨rfl, rfl⟩ := e
    have n1 := stepAll_length h4
    have n2 := stepAll_length k4
    -- the output lists are those of the traces
    have hsliceEq : ∀ {w : Val α} {p q : List (Val α)}, p.length = q.length → IsSeries w p → IsSeries w q → p = q := by
      intro w p q hpq hp hq
      refine List.ext_getElem hpq fun i a b => ?_
      have := (hp.slice i a).symm.trans (hq.slice i b)
      simpa using this
    have e1 : os1 = t1.map (·.1) := hsliceEq (by simp [len1, n1]) ho1 h6
    have e2 : os2 = t2.map (·.1) := hsliceEq (by simp [len2, n2]) ho2 k6
    subst e1 e2
    have t1ne : t1 ≠ [] := by rintro rfl; simp at n1
    have t2ne : t2 ≠ [] := by rintro rfl; simp at n2
    obtain ⟨e0, he0⟩ := List.exists_mem_of_ne_nil _ t1ne
    refine (C01_streaming_eq_stepping hsane hu hw hst _ _ _).2
      ⟨hl, x', xs' ++ (y' :: ys'), by simpa using hv, o, n, i, h1, rfl, h2, h3, t1 ++ t2, ?_, ?_, by simpa using hout, ?_⟩
    · exact stepAll_append.2 ⟨t1, t2, h4, by rw [← hs1]; exact k4, rfl⟩
    · intro e he
      rcases List.mem_append.1 he with he | he
      · exact h5 e he
      · refine ⟨?_, (k5 e he).2.trans hsst⟩
        have := hout.sameType e.1 (by simp only [List.mem_append]; exact Or.inr (List.mem_map_of_mem he))
          e0.1 (by simp only [List.mem_append]; exact Or.inl (List.mem_map_of_mem he0))
        exact this.trans (h5 e0 he0).1
    · rw [List.map_append, List.getLast?_append, k7, Option.some_or]

/-- **C03 Causality.**  Two successful calls with the same state whose inputs agree on the first `k`
slices report the same initial state and agree on the first `k` slices of the outputs. -/
theorem C03_causality {op : Operator α} (hsane : op.Sane) (hu : op.Uniform) {v v' : Val α}
    (hw : v.WF) (hw' : v'.WF) {st : Option (Val α)} (hst : ∀ s ∈ st, s.WF) {outs sf s0 outs' sf' s0' : Val α}
    (h : call op v st = .ok (outs, sf, s0)) (h' : call op v' st = .ok (outs', sf', s0')) (k : Nat) (hk : 0 < k)
    (hagree : ∀ i < k, ∃ x, sliceAt i v = .ok x ∧ sliceAt i v' = .ok x) :
    s0 = s0' ∧ ∀ i < k, ∃ o, sliceAt i outs = .ok o ∧ sliceAt i outs' = .ok o := by
  obtain ⟨hl, x, xs, hin, o, n, i, h1, rfl, h2, h3, tr, h4, h5, h6, h7⟩ :=
    (C01_streaming_eq_stepping hsane hu hw hst _ _ _).1 h
  obtain ⟨hl', x', xs', hin', o', n', i', h1', rfl, h2', h3', tr', h4', h5', h6', h7'⟩ :=
    (C01_streaming_eq_stepping hsane hu hw' hst _ _ _).1 h'
  have len : ∀ {w : Val α} {ys : List (Val α)}, flatten w ≠ [] → IsSeries w ys →
      ∀ i y, sliceAt i w = .ok y → ∃ hi : i < ys.length, ys[i] = y := by
    intro w ys hne hs i y hy
    obtain ⟨l, hl⟩ := List.exists_mem_of_ne_nil _ hne
    have hi : i < ys.length := by
      obtain ⟨j, hj, rfl⟩ := List.mem_iff_getElem.1 hl
      obtain ⟨_, hm⟩ := mapM_eq_ok_iff_get.1 (sliceAt_ok.1 hy).2
      exact Leaf.index_lt (hs.size _ hl) (hm j hj)
    exact ⟨hi, by have := (hs.slice i hi).symm.trans hy; simpa using this⟩
  have htake : (x :: xs).take k = (x' :: xs').take k := by
    refine List.ext_getElem ?_ fun j a b => ?_
    · obtain ⟨y, hy, hy'⟩ := hagree (k - 1) (by omega)
      obtain ⟨a, _⟩ := len hl hin _ _ hy
      obtain ⟨b, _⟩ := len hl' hin' _ _ hy'
      simp only [List.length_take]; omega
    · simp only [List.length_take] at a
      obtain ⟨y, hy, hy'⟩ := hagree j (by omega)
      obtain ⟨_, e1⟩ := len hl hin _ _ hy
      obtain ⟨_, e2⟩ := len hl' hin' _ _ hy'
      simp only [List.getElem_take]
      rw [e1, e2]
  have hxx : x = x' := by
    cases k with
    | zero => omega
    | succ k => simpa using congrArg List.head? htake
  subst hxx
  have hii : st.getD i = st.getD i' := by
    cases st with
    | some s => rfl
    | none =>
      rw [h1] at h1'
      simp only [Except.ok.injEq, Prod.mk.injEq] at h1'
      simp [h1'.2.2]
  refine ⟨hii, fun j hj => ?_⟩
  rw [← hii] at h4'
  have ht := stepAll_take h4 h4' htake
  obtain ⟨y, hy, hy'⟩ := hagree j hj
  obtain ⟨b1, _⟩ := len hl hin _ _ hy
  obtain ⟨b2, _⟩ := len hl' hin' _ _ hy'
  have n1 := stepAll_length h4
  have n2 := stepAll_length h4'
  have l1 : j < (tr.map (·.1)).length := by rw [List.length_map, n1]; exact b1
  have l2 : j < (tr'.map (·.1)).length := by rw [List.length_map, n2]; exact b2
  refine ⟨_, h6.slice j l1, ?_⟩
  rw [h6'.slice j l2]
  have g : (tr.take k)[j]? = (tr'.take k)[j]? := by rw [ht]
  rw [List.getElem?_take_of_lt hj, List.getElem?_take_of_lt hj] at g
  simp only [List.length_map] at l1 l2
  rw [List.getElem?_eq_getElem l1, List.getElem?_eq_getElem l2] at g
  simp only [Option.some.injEq] at g
  simp [g]

/-- **C04 Series length discipline, rejection.**  If the leaves of the inputs have leading dimensions
that are not all equal, the call fails with the size error, whatever the operator. -/
theorem C04_size_mismatch {op : Operator α} {inputs : Val α} (hw : inputs.WF) {st : Option (Val α)}
    (hst : ∀ s ∈ st, s.WF ∧ Tensors s) (hdim : ∀ l ∈ flatten inputs, ∃ n, l.size0 = .ok n)
    {l l' : Leaf α} {n n' : Nat} (hl : l ∈ flatten inputs) (hl' : l' ∈ flatten inputs)
    (hn : l.size0 = .ok n) (hn' : l'.size0 = .ok n') (hne : n ≠ n') :
    call op inputs st = .error .sizeMismatch := by
  have ht : Tensors inputs := by
    rintro l hl rfl
    obtain ⟨n, h⟩ := hdim _ hl
    simp [Leaf.size0] at h
  rw [call_eq true hw ht hst]
  simp only [if_true]
  choose! g hg using hdim
  have hs : (flatten inputs).mapM Leaf.size0 = .ok ((flatten inputs).map g) :=
    mapM_ok_of_forall _ fun l hl => hg l hl
  simp only [callStreamed, hs, ok_bind]
  cases hf : (flatten inputs).map g with
  | nil => rw [List.map_eq_nil_iff] at hf; rw [hf] at hl; simp at hl
  | cons m ms =>
    have hnot : ¬ (List.foldl (fun acc x => acc && x == m) true (m :: ms) = true) := by
      rw [foldl_same_iff, ← hf]
      intro hall
      have e1 := hall _ (List.mem_map_of_mem hl)
      have e2 := hall _ (List.mem_map_of_mem hl')
      have g1 := (hg l hl).symm.trans hn
      have g2 := (hg l' hl').symm.trans hn'
      simp only [Except.ok.injEq] at g1 g2
      omega
    simp [hnot]

/-- **C04 Series length discipline, acceptance.**  If the call succeeds, all leaves of the inputs and
of the outputs have one common positive leading dimension. -/
theorem C04_output_length {op : Operator α} (hsane : op.Sane) (hu : op.Uniform) {inputs : Val α}
    (hw : inputs.WF) {st : Option (Val α)} (hst : ∀ s ∈ st, s.WF) {outs sf s0 : Val α}
    (h : call op inputs st = .ok (outs, sf, s0)) :
    ∃ n, 0 < n ∧ (∀ l ∈ flatten inputs, l.size0 = .ok n) ∧ ∀ l ∈ flatten outs, l.size0 = .ok n := by
  obtain ⟨_, x, xs, hin, o, n, i, h1, rfl, h2, h3, tr, h4, h5, h6, h7⟩ :=
    (C01_streaming_eq_stepping hsane hu hw hst _ _ _).1 h
  refine ⟨(x :: xs).length, by simp, hin.size, ?_⟩
  have := h6.size
  rwa [List.length_map, stepAll_length h4] at this

/-- **C05 State type stability, acceptance.**  If the call succeeds, every state along the way and the
final state have the structure and dtypes of the initial state. -/
theorem C05_state_types {op : Operator α} (hsane : op.Sane) (hu : op.Uniform) {inputs : Val α}
    (hw : inputs.WF) {st : Option (Val α)} (hst : ∀ s ∈ st, s.WF) {outs sf s0 : Val α}
    (h : call op inputs st = .ok (outs, sf, s0)) :
    SameType sf s0 ∧ ∃ xs tr, IsSeries inputs xs ∧ stepAll op xs s0 = .ok tr ∧
      tr.length = xs.length ∧ ∀ e ∈ tr, SameType e.2 s0 := by
  obtain ⟨_, x, xs, hin, o, n, i, h1, rfl, h2, h3, tr, h4, h5, h6, h7⟩ :=
    (C01_streaming_eq_stepping hsane hu hw hst _ _ _).1 h
  refine ⟨?_, _, tr, hin, h4, stepAll_length h4, fun e he => (h5 e he).2⟩
  obtain ⟨e, he, h⟩ := List.mem_map.1 (List.mem_of_getLast? h7)
  exact h ▸ (h5 e he).2

/-- **C05 State type stability, rejection.**  If at some step the structure or a dtype of the state
differs from that of the initial state, the call fails. -/
theorem C05_type_change_rejected {op : Operator α} (hsane : op.Sane) (hu : op.Uniform) {inputs : Val α}
    (hw : inputs.WF) (hl : flatten inputs ≠ []) {st : Option (Val α)} (hst : ∀ s ∈ st, s.WF)
    {x : Val α} {xs : List (Val α)} (hin : IsSeries inputs (x :: xs)) {o n i : Val α}
    (h1 : call op x st false = .ok (o, n, i)) {tr : List (Val α × Val α)}
    (h4 : stepAll op (x :: xs) (st.getD i) = .ok tr) {e : Val α × Val α} (he : e ∈ tr)
    (hne : ¬ SameType e.2 (st.getD i)) : ∃ err, call op inputs st = .error err := by
  cases h : call op inputs st with
  | error err => exact ⟨err, rfl⟩
  | ok r =>
    obtain ⟨outs, sf, s0⟩ := r
    obtain ⟨_, x', xs', hin', o', n', i', h1', rfl, h2, h3, tr', h4', h5, h6, h7⟩ :=
      (C01_streaming_eq_stepping hsane hu hw hst _ _ _).1 h
    have e := hin.det hl hin'
    simp only [List.cons.injEq] at e
    obtain ⟨rfl, rfl⟩ := e
    rw [h1] at h1'
    simp only [Except.ok.injEq, Prod.mk.injEq] at h1'
    obtain ⟨rfl, rfl, rfl⟩ := h1'
    rw [h4] at h4'
    simp only [Except.ok.injEq] at h4'
    subst h4'
    exact absurd (h5 _ he).2 hne

/-- **C05 State type stability, the error.**  A type change at the very first step is reported as the
state type error. -/
theorem C05_type_change_error {op : Operator α} (hsane : op.Sane) {inputs : Val α}
    (hw : inputs.WF) (hl : flatten inputs ≠ []) {st : Option (Val α)} (hst : ∀ s ∈ st, s.WF ∧ Tensors s)
    {x : Val α} {xs : List (Val α)} (hin : IsSeries inputs (x :: xs)) {o n i o' n' i' : Val α}
    (h1 : call op x st false = .ok (o, n, i)) (ho : Tensors o)
    (h2 : call op x (some (st.getD i)) false = .ok (o', n', i')) (hn : Tensors n')
    (hne : ¬ SameType n' (st.getD i)) : call op inputs st = .error .stateTypes := by
  have hxw := hin.mem_WF hw x (by simp)
  have hxt := hin.mem_tensors x (by simp)
  rw [call_eq false hxw hxt hst] at h1
  simp only [Bool.false_eq_true, if_false] at h1
  have hwf := hsane _ _ _ _ _ hxw (fun s hs => (hst s hs).1) h1
  have hsw : (st.getD i).WF := by
    cases st with
    | none => exact hwf.2.2
    | some s => exact (hst s rfl).1
  have htt := (call_ok_tensors hxw (by simpa using hsw) h2).2 _ rfl
  rw [call_eq false hxw hxt (by simpa using ⟨hsw, htt⟩)] at h2
  simp only [Bool.false_eq_true, if_false] at h2
  have hwf' := hsane _ _ _ _ _ hxw (by simpa using hsw) h2
  rw [call_eq true hw hin.tensors hst]
  simp only [if_true]
  rw [callStreamed_eq hw hl hin (by simp)]
  simp only [List.head_cons, h1, ok_bind]
  obtain ⟨oty, hoty⟩ := tensors_iff.1 ho
  have hnew : ∃ arr, mapFn (fn1 (TArr.new (x :: xs).length)) o [o] = .ok arr := by
    rw [mapFn_fn1_self _ _ hwf.1]
    refine ⟨_, traverse_ok _ (fun l => ⟨(match l.dtype with | .ok dt => dt | _ => .float),
      List.replicate (x :: xs).length none⟩) _ fun a ha => ?_⟩
    have := ho a ha
    cases a <;> simp_all [TArr.new, Leaf.dtype]
  obtain ⟨arr, harr⟩ := hnew
  rw [harr]
  obtain ⟨sty, hsty⟩ := tensors_iff.1 htt
  obtain ⟨nty, hnty⟩ := tensors_iff.1 hn
  have hidx : mapFn (fn1 (Leaf.index 0)) inputs [inputs] = .ok x := by
    rw [mapFn_fn1_self _ _ hw]; exact hin.slice 0 (by simp)
  have hneq : sty ≠ nty := by
    rintro rfl
    exact hne ((hsty.sameType).1 hnty)
  simp [streamLoop, streamBody, hidx, h2, (toType_ok hsw).2 hsty, (toType_ok hwf'.2.1).2 hnty, checkTypesEquality, hneq]

end TS
