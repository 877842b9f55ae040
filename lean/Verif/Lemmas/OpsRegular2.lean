import Verif.Lemmas.OpsRegular
/-
Regularity of the shipped operators that are built from other operators.
-/
namespace TS
open PyVal
variable {α : Type}
set_option linter.unusedSimpArgs false
set_option linter.unusedSectionVars false

theorem unpackSingleton_pair (a b : Val α) : unpackSingleton (.tup [a, b]) = .tup [a, b] := rfl

theorem tfCond_pair {p : Bool} {a b c d r : Val α} (h : tfCond p (.tup [a, b]) (.tup [c, d]) = .ok r) :
    r = .tup [if p then a else c, if p then b else d] := by
  simp only [tfCond, bind_eq_ok] at h
  obtain ⟨t1, _, t2, _, h⟩ := h
  by_cases ht : t1 ≠ t2
  · rw [if_pos ht] at h; cases h
  · rw [if_neg ht] at h
    cases p <;> cases h <;> rfl

theorem tfCond_pair' {p : Bool} {a b c d r : Val α} (h : tfCond p (.tup [a, b]) (.tup [c, d]) = .ok r) :
    r = .tup [a, b] ∨ r = .tup [c, d] := by
  rw [tfCond_pair h]; cases p <;> simp

theorem asPair_tup {a b : Val α} {r : Val α × Val α} (h : asPair (.tup [a, b]) = .ok r) : r = (a, b) := by
  simp only [asPair, asSeq, ok_bind] at h
  cases h; rfl

theorem TensorArgs_leaf (l : Leaf α) : TensorArgs 1 (.leaf l) := ⟨rfl, by simp [unpackArgs]⟩
theorem TensorArgs_pair (l l' : Leaf α) : TensorArgs 2 (.tup [.leaf l, .leaf l']) := ⟨rfl, by simp [unpackArgs]⟩
theorem TensorArgs_triple (l l' l'' : Leaf α) : TensorArgs 3 (.tup [.leaf l, .leaf l', .leaf l'']) :=
  ⟨rfl, by simp [unpackArgs]⟩

theorem mem_of_getElem?_WF {args : List (Val α)} (hw : ∀ x ∈ args, x.WF) {k : Nat} {o : Option (Val α)}
    (h : opt args k decAny = .ok o) : ∀ s ∈ o, s.WF := by
  intro s hs
  rw [opt_ok] at h
  rcases h with ⟨_, rfl⟩ | ⟨v, a, h1, h2, rfl⟩
  · cases hs
  · cases hs
    cases h2
    exact hw _ (List.mem_of_getElem? h1)

theorem req_any_WF {args : List (Val α)} (hw : ∀ x ∈ args, x.WF) {k : Nat} {v : Val α}
    (h : req args k decAny = .ok v) : v.WF := by
  rw [req_ok] at h
  obtain ⟨w, h1, h2⟩ := h
  cases h2
  exact hw _ (List.mem_of_getElem? h1)

section
variable [TFNum α]

theorem getD_WF {o : Option (Val α)} {i : Val α} (h : ∀ s ∈ o, s.WF) (hi : i.WF) : (o.getD i).WF := by
  cases o with
  | none => exact hi
  | some s => exact h s rfl

theorem EMA_regular (p : Int) : Regular (EMA p : Operator α) 1 (.leaf ()) := by
  have R := SMA_regular (α := α) p
  refine StepReg.regular (m := 3) ⟨?_, ?_, ?_⟩ ?_
  · intro args o n i hw h
    simp only [bind_eq_ok] at h
    obtain ⟨_, -, t, -, it, -, e, -, s, hs, ⟨sm, ns, si⟩, hc, r, hr, ⟨a, b⟩, hp, h⟩ := h
    have hsw := mem_of_getElem?_WF hw hs
    obtain ⟨h1, h2, h3⟩ := R.sane.call (by simp) hsw hc
    have hg := getD_WF hsw h3
    rcases tfCond_pair' hr with rfl | rfl <;> cases asPair_tup hp <;> cases h <;> simp [WF_tup, *]
  · intro args o n i hw h
    obtain ⟨l, rfl⟩ := hw.one
    simp only [bind_eq_ok, req_zero, opt_succ, opt_nil, Except.ok.injEq, decF_ok] at h
    obtain ⟨_, -, t, h0, _, rfl, _, rfl, _, rfl, ⟨sm, ns, si⟩, hc, r, hr, ⟨a, b⟩, hp, h⟩ := h
    cases h0; cases h
    have hf := R.contract.call_fresh R.sane (by simp) (TensorArgs_leaf _) hc
    have ht := R.contract.call_tensors (by simp) (TensorArgs_leaf _) hc
    refine ⟨_, by rfl, rfl, by simp [tensors_tup, ht], ?_⟩
    simp only [Option.getD_none] at hr hf
    simp [arity, hf, hr, hp]
  · intro args ss o n i hw _ hs _ h
    obtain ⟨l, rfl⟩ := hw.one
    obtain ⟨s1, s2, s3, rfl⟩ := List.length_eq_three.1 hs
    simp only [bind_eq_ok, List.cons_append, List.nil_append, req_zero, opt_succ, opt_zero, Except.ok.injEq,
      decI_ok, decFs_ok, decAny_ok] at h
    obtain ⟨_, -, t, -, _, ⟨_, rfl, rfl⟩, _, ⟨_, rfl, rfl⟩, _, ⟨_, rfl, rfl⟩, _, -, _, -, _, -, h⟩ := h
    cases h
    rfl
  · intro args o n i hw h
    simp only [bind_eq_ok] at h
    obtain ⟨_, -, t, -, it, -, e, -, s, hs, ⟨sm, ns, si⟩, hc, r, hr, ⟨a, b⟩, hp, h⟩ := h
    have := R.outSkel.call (by simp) (mem_of_getElem?_WF hw hs) hc
    rcases tfCond_pair' hr with rfl | rfl <;> cases asPair_tup hp <;> cases h <;> simp [this]

theorem RMA_regular (p : Int) : Regular (RMA p : Operator α) 1 (.leaf ()) := by
  have R := SMA_regular (α := α) p
  refine StepReg.regular (m := 3) ⟨?_, ?_, ?_⟩ ?_
  · intro args o n i hw h
    simp only [bind_eq_ok] at h
    obtain ⟨_, -, t, -, it, -, e, -, s, hs, ⟨sm, ns, si⟩, hc, r, hr, ⟨a, b⟩, hp, h⟩ := h
    have hsw := mem_of_getElem?_WF hw hs
    obtain ⟨h1, h2, h3⟩ := R.sane.call (by simp) hsw hc
    have hg := getD_WF hsw h3
    rcases tfCond_pair' hr with rfl | rfl <;> cases asPair_tup hp <;> cases h <;> simp [WF_tup, *]
  · intro args o n i hw h
    obtain ⟨l, rfl⟩ := hw.one
    simp only [bind_eq_ok, req_zero, opt_succ, opt_nil, Except.ok.injEq, decF_ok] at h
    obtain ⟨_, -, t, h0, _, rfl, _, rfl, _, rfl, ⟨sm, ns, si⟩, hc, r, hr, ⟨a, b⟩, hp, h⟩ := h
    cases h0; cases h
    have hf := R.contract.call_fresh R.sane (by simp) (TensorArgs_leaf _) hc
    have ht := R.contract.call_tensors (by simp) (TensorArgs_leaf _) hc
    refine ⟨_, by rfl, rfl, by simp [tensors_tup, ht], ?_⟩
    simp only [Option.getD_none] at hr hf
    simp [arity, hf, hr, hp]
  · intro args ss o n i hw _ hs _ h
    obtain ⟨l, rfl⟩ := hw.one
    obtain ⟨s1, s2, s3, rfl⟩ := List.length_eq_three.1 hs
    simp only [bind_eq_ok, List.cons_append, List.nil_append, req_zero, opt_succ, opt_zero, Except.ok.injEq,
      decI_ok, decFs_ok, decAny_ok] at h
    obtain ⟨_, -, t, -, _, ⟨_, rfl, rfl⟩, _, ⟨_, rfl, rfl⟩, _, ⟨_, rfl, rfl⟩, _, -, _, -, _, -, h⟩ := h
    cases h
    rfl
  · intro args o n i hw h
    simp only [bind_eq_ok] at h
    obtain ⟨_, -, t, -, it, -, e, -, s, hs, ⟨sm, ns, si⟩, hc, r, hr, ⟨a, b⟩, hp, h⟩ := h
    have := R.outSkel.call (by simp) (mem_of_getElem?_WF hw hs) hc
    rcases tfCond_pair' hr with rfl | rfl <;> cases asPair_tup hp <;> cases h <;> simp [this]

theorem BollingerBands_regular (n : Int) (k : ℚ) :
    Regular (BollingerBands n k : Operator α) 1 (.tup [.leaf (), .leaf (), .leaf ()]) := by
  have R := SMA_regular (α := α) n
  have R' := MSD_regular (α := α) n
  refine StepReg.regular (m := 2) ⟨?_, ?_, ?_⟩ ?_
  · intro args o n i hw h
    simp only [bind_eq_ok] at h
    obtain ⟨_, -, v, hv, s1, hs1, s2, hs2, ⟨a, b, c⟩, hc, ⟨a', b', c'⟩, hc', t, ht, v', hv', h⟩ := h
    have hvw := req_any_WF hw hv
    obtain ⟨h1, h2, h3⟩ := R.sane.call hvw (mem_of_getElem?_WF hw hs2) hc
    obtain ⟨h1', h2', h3'⟩ := R'.sane.call hvw (mem_of_getElem?_WF hw hs1) hc'
    cases h
    simp [WF_tup, *]
  · intro args o n i hw h
    obtain ⟨l, rfl⟩ := hw.one
    simp only [bind_eq_ok, req_zero, opt_succ, opt_nil, Except.ok.injEq, decAny_ok] at h
    obtain ⟨_, -, v, rfl, _, rfl, _, rfl, ⟨a, b, c⟩, hc, ⟨a', b', c'⟩, hc', t, ht, v', hv', h⟩ := h
    cases h
    have hf := R.contract.call_fresh R.sane (by simp) (TensorArgs_leaf _) hc
    have hf' := R'.contract.call_fresh R'.sane (by simp) (TensorArgs_leaf _) hc'
    have ht1 := R.contract.call_tensors (by simp) (TensorArgs_leaf _) hc
    have ht2 := R'.contract.call_tensors (by simp) (TensorArgs_leaf _) hc'
    refine ⟨_, by rfl, rfl, by simp [tensors_tup, ht1, ht2], ?_⟩
    simp [arity, hf, hf', ht, hv']
  · intro args ss o n i hw _ hs hex h
    obtain ⟨l, rfl⟩ := hw.one
    obtain ⟨s1, s2, rfl⟩ := List.length_eq_two.1 hs
    obtain ⟨args', o', n', is', hw', h', hsk⟩ := hex
    obtain ⟨l', rfl⟩ := hw'.one
    simp only [bind_eq_ok, req_zero, opt_succ, opt_nil, Except.ok.injEq, decAny_ok] at h'
    obtain ⟨_, -, v, rfl, _, rfl, _, rfl, ⟨a, b, c⟩, hc, ⟨a', b', c'⟩, hc', t, ht, v', hv', h'⟩ := h'
    cases h'
    simp only [List.map_cons, List.map_nil, List.cons.injEq, and_true] at hsk
    simp only [bind_eq_ok, List.cons_append, List.nil_append, req_zero, opt_succ, opt_zero, Except.ok.injEq,
      decAny_ok] at h
    obtain ⟨_, -, v, rfl, _, ⟨_, rfl, rfl⟩, _, ⟨_, rfl, rfl⟩, ⟨x, y, z⟩, hx, ⟨x', y', z'⟩, hx', _, -, _, -, h⟩ := h
    cases h
    rw [R.contract.call_echo R.sane (by simp) (TensorArgs_leaf _) (by simp) (TensorArgs_leaf _) hc hsk.2 hx,
      R'.contract.call_echo R'.sane (by simp) (TensorArgs_leaf _) (by simp) (TensorArgs_leaf _) hc' hsk.1 hx']
  · intro args o n i hw h
    simp only [bind_eq_ok] at h
    obtain ⟨_, -, v, hv, s1, hs1, s2, hs2, ⟨a, b, c⟩, hc, ⟨a', b', c'⟩, hc', t, ht, v', hv', h⟩ := h
    have hvw := req_any_WF hw hv
    have := R.outSkel.call hvw (mem_of_getElem?_WF hw hs2) hc
    cases h
    simp [this]

theorem MACD_regular (slow fast macd : Int) :
    Regular (MACD slow fast macd : Operator α) 1 (.tup [.leaf (), .leaf (), .leaf (), .leaf (), .leaf ()]) := by
  have R1 := EMA_regular (α := α) slow
  have R2 := EMA_regular (α := α) fast
  have R3 := EMA_regular (α := α) macd
  refine StepReg.regular (m := 4) ⟨?_, ?_, ?_⟩ ?_
  · intro args o n i hw h
    simp only [bind_eq_ok] at h
    obtain ⟨_, -, t, -, it, -, s1, hs1, s2, hs2, s3, hs3, ⟨a, b, c⟩, hc, ⟨a', b', c'⟩, hc', e1, -, e2, -,
      ⟨a'', b'', c''⟩, hc'', r, hr, ⟨sg, nm⟩, hp, sg', -, h⟩ := h
    obtain ⟨h1, h2, h3⟩ := R1.sane.call (by simp) (mem_of_getElem?_WF hw hs1) hc
    obtain ⟨h1', h2', h3'⟩ := R2.sane.call (by simp) (mem_of_getElem?_WF hw hs2) hc'
    obtain ⟨h1'', h2'', h3''⟩ := R3.sane.call (by simp) (mem_of_getElem?_WF hw hs3) hc''
    have hg := getD_WF (mem_of_getElem?_WF hw hs3) h3''
    rcases tfCond_pair' hr with rfl | rfl <;> cases asPair_tup hp <;> cases h <;> simp [WF_tup, *]
  · intro args o n i hw h
    obtain ⟨l, rfl⟩ := hw.one
    simp only [bind_eq_ok, req_zero, opt_succ, opt_nil, Except.ok.injEq, decF_ok] at h
    obtain ⟨_, -, t, h0, _, rfl, _, rfl, _, rfl, _, rfl, ⟨a, b, c⟩, hc, ⟨a', b', c'⟩, hc', e1, he1, e2, he2,
      ⟨a'', b'', c''⟩, hc'', r, hr, ⟨sg, nm⟩, hp, sg', hsg, h⟩ := h
    cases h0; cases h
    have hf := R1.contract.call_fresh R1.sane (by simp) (TensorArgs_leaf _) hc
    have hf' := R2.contract.call_fresh R2.sane (by simp) (TensorArgs_leaf _) hc'
    have hf'' := R3.contract.call_fresh R3.sane (by simp) (TensorArgs_leaf _) hc''
    have ht := R1.contract.call_tensors (by simp) (TensorArgs_leaf _) hc
    have ht' := R2.contract.call_tensors (by simp) (TensorArgs_leaf _) hc'
    have ht'' := R3.contract.call_tensors (by simp) (TensorArgs_leaf _) hc''
    refine ⟨_, by rfl, rfl, by simp [tensors_tup, ht, ht', ht''], ?_⟩
    simp only [Option.getD_none] at *
    simp [arity, hf, hf', he1, he2, hf'', -Int.sub_pos, hr, hp, hsg]
  · intro args ss o n i hw _ hs hex h
    obtain ⟨l, rfl⟩ := hw.one
    match ss, hs with
    | [s1, s2, s3, s4], _ =>
    obtain ⟨args', o', n', is', hw', h', hsk⟩ := hex
    obtain ⟨l', rfl⟩ := hw'.one
    simp only [bind_eq_ok, req_zero, opt_succ, opt_nil, Except.ok.injEq, decF_ok] at h'
    obtain ⟨_, -, t, h0, _, rfl, _, rfl, _, rfl, _, rfl, ⟨a, b, c⟩, hc, ⟨a', b', c'⟩, hc', e1, he1, e2, he2,
      ⟨a'', b'', c''⟩, hc'', r, hr, ⟨sg, nm⟩, hp, sg', hsg, h'⟩ := h'
    cases h'
    simp only [List.map_cons, List.map_nil, List.cons.injEq, and_true] at hsk
    simp only [bind_eq_ok, List.cons_append, List.nil_append, req_zero, opt_succ, opt_zero, Except.ok.injEq,
      decAny_ok, decI_ok, decF_ok] at h
    obtain ⟨_, -, t, h0, _, ⟨_, rfl, rfl⟩, _, ⟨_, rfl, rfl⟩, _, ⟨_, rfl, rfl⟩, _, ⟨_, rfl, rfl⟩, ⟨a, b, c⟩, hx,
      ⟨a', b', c'⟩, hx', e1, he1, e2, he2, ⟨a'', b'', c''⟩, hx'', r, hr, ⟨sg, nm⟩, hp, sg', hsg, h⟩ := h
    cases h
    rw [R1.contract.call_echo R1.sane (by simp) (TensorArgs_leaf _) (by simp) (TensorArgs_leaf _) hc hsk.2.1 hx,
      R2.contract.call_echo R2.sane (by simp) (TensorArgs_leaf _) (by simp) (TensorArgs_leaf _) hc' hsk.2.2.1 hx',
      R3.contract.call_echo R3.sane (by simp) (TensorArgs_leaf _) (by simp) (TensorArgs_leaf _) hc'' hsk.2.2.2 hx'']
    rfl
  · intro args o n i hw h
    simp only [bind_eq_ok] at h
    obtain ⟨_, -, t, -, it, -, s1, hs1, s2, hs2, s3, hs3, ⟨a, b, c⟩, hc, ⟨a', b', c'⟩, hc', e1, -, e2, -,
      ⟨a'', b'', c''⟩, hc'', r, hr, ⟨sg, nm⟩, hp, sg', -, h⟩ := h
    cases h
    simp

theorem CrossCorrelation_regular (period lag : Int) :
    Regular (CrossCorrelation period lag : Operator α) 2 (.leaf ()) := by
  have R := Correlation_regular (α := α) period
  refine StepReg.regular (m := 3) ⟨?_, ?_, ?_⟩ ?_
  · intro args o n i hw h
    simp only [bind_eq_ok] at h
    obtain ⟨_, -, t, -, v2, -, it, -, s, hs, b, -, lb, -, lg, -, ⟨a, ns, si⟩, hc, r, hr, ⟨x, y⟩, hp, h⟩ := h
    have hsw := mem_of_getElem?_WF hw hs
    obtain ⟨h1, h2, h3⟩ := R.sane.call (by simp [WF_tup]) hsw hc
    have hg := getD_WF hsw h3
    rcases tfCond_pair' hr with rfl | rfl <;> cases asPair_tup hp <;> cases h <;> simp [WF_tup, *]
  · intro args o n i hw h
    obtain ⟨l, l', rfl⟩ := hw.two
    simp only [bind_eq_ok, req_zero, req_succ, opt_succ, opt_nil, Except.ok.injEq, decF_ok] at h
    obtain ⟨_, -, t, h0, v2, hv2, _, rfl, _, rfl, _, rfl, lb, hlb, lg, hlg, ⟨a, ns, si⟩, hc, r, hr, ⟨x, y⟩, hp, h⟩ := h
    cases h0; cases h
    have hf := R.contract.call_fresh R.sane (by simp [WF_tup]) (TensorArgs_pair _ _) hc
    have ht := R.contract.call_tensors (by simp [WF_tup]) (TensorArgs_pair _ _) hc
    refine ⟨_, by rfl, rfl, by simp [tensors_tup, ht], ?_⟩
    simp only [Option.getD_none] at hr hf
    simp [arity, orZeros, hv2, hlg, hf, hr, hp]
  · intro args ss o n i hw _ hs hex h
    obtain ⟨l, l', rfl⟩ := hw.two
    obtain ⟨s1, s2, s3, rfl⟩ := List.length_eq_three.1 hs
    obtain ⟨args', o', n', is', hw', h', hsk⟩ := hex
    obtain ⟨k, k', rfl⟩ := hw'.two
    simp only [bind_eq_ok, req_zero, req_succ, opt_succ, opt_nil, Except.ok.injEq, decF_ok] at h'
    obtain ⟨_, -, t, h0, v2, hv2, _, rfl, _, rfl, _, rfl, lb, hlb, lg, hlg, ⟨a, ns, si⟩, hc, r, hr, ⟨x, y⟩, hp, h'⟩ := h'
    cases h'
    simp only [List.map_cons, List.map_nil, List.cons.injEq, and_true] at hsk
    simp only [bind_eq_ok, List.cons_append, List.nil_append, req_zero, req_succ, opt_succ, opt_zero, Except.ok.injEq,
      decI_ok, decBuf_ok, decAny_ok] at h
    obtain ⟨_, -, t, -, v2, -, _, ⟨_, rfl, rfl⟩, _, ⟨_, rfl, rfl⟩, _, ⟨_, rfl, rfl⟩, _, hb, _, -, ⟨a', b', c'⟩, hx, _, -, _, -, h⟩ := h
    cases hb; cases h
    rw [R.contract.call_echo R.sane (by simp [WF_tup]) (TensorArgs_pair _ _) (by simp [WF_tup])
      (TensorArgs_pair _ _) hc hsk.2.1 hx]
    rfl
  · intro args o n i hw h
    simp only [bind_eq_ok] at h
    obtain ⟨_, -, t, -, v2, -, it, -, s, hs, b, -, lb, -, lg, -, ⟨a, ns, si⟩, hc, r, hr, ⟨x, y⟩, hp, h⟩ := h
    have := R.outSkel.call (by simp [WF_tup]) (mem_of_getElem?_WF hw hs) hc
    rcases tfCond_pair' hr with rfl | rfl <;> cases asPair_tup hp <;> cases h <;> simp [this]

theorem AutoCorrelation_regular (period lag : Int) :
    Regular (AutoCorrelation period lag : Operator α) 1 (.leaf ()) := by
  have R := CrossCorrelation_regular (α := α) period lag
  refine StepReg.regular (m := 1) ⟨?_, ?_, ?_⟩ ?_
  · intro args o n i hw h
    simp only [bind_eq_ok] at h
    obtain ⟨_, -, v, hv, s, hs, ⟨a, b, c⟩, hc, h⟩ := h
    have hvw := req_any_WF hw hv
    obtain ⟨h1, h2, h3⟩ := R.sane.call (by simp [WF_tup, hvw]) (mem_of_getElem?_WF hw hs) hc
    cases h
    simp [WF_tup, *]
  · intro args o n i hw h
    obtain ⟨l, rfl⟩ := hw.one
    simp only [bind_eq_ok, req_zero, opt_succ, opt_nil, Except.ok.injEq, decAny_ok] at h
    obtain ⟨_, -, v, rfl, _, rfl, ⟨a, b, c⟩, hc, h⟩ := h
    cases h
    have hf := R.contract.call_fresh R.sane (by simp [WF_tup]) (TensorArgs_pair _ _) hc
    have ht := R.contract.call_tensors (by simp [WF_tup]) (TensorArgs_pair _ _) hc
    refine ⟨_, by rfl, rfl, by simp [tensors_tup, ht], ?_⟩
    simp [arity, hf]
  · intro args ss o n i hw _ hs hex h
    obtain ⟨l, rfl⟩ := hw.one
    obtain ⟨s1, rfl⟩ := List.length_eq_one_iff.1 hs
    obtain ⟨args', o', n', is', hw', h', hsk⟩ := hex
    obtain ⟨k, rfl⟩ := hw'.one
    simp only [bind_eq_ok, req_zero, opt_succ, opt_nil, Except.ok.injEq, decAny_ok] at h'
    obtain ⟨_, -, v, rfl, _, rfl, ⟨a, b, c⟩, hc, h'⟩ := h'
    cases h'
    simp only [List.map_cons, List.map_nil, List.cons.injEq, and_true] at hsk
    simp only [bind_eq_ok, List.cons_append, List.nil_append, req_zero, opt_succ, opt_zero, Except.ok.injEq,
      decAny_ok] at h
    obtain ⟨_, -, v, rfl, _, ⟨_, rfl, rfl⟩, ⟨a', b', c'⟩, hx, h⟩ := h
    cases h
    rw [R.contract.call_echo R.sane (by simp [WF_tup]) (TensorArgs_pair _ _) (by simp [WF_tup])
      (TensorArgs_pair _ _) hc hsk hx]
  · intro args o n i hw h
    simp only [bind_eq_ok] at h
    obtain ⟨_, -, v, hv, s, hs, ⟨a, b, c⟩, hc, h⟩ := h
    have hvw := req_any_WF hw hv
    have := R.outSkel.call (by simp [WF_tup, hvw]) (mem_of_getElem?_WF hw hs) hc
    cases h
    exact this

theorem Lag_ok {p : Int} {args : List (Val α)} {o n i : Val α} (h : (do
    arity 1 2 args
    let (o, n, i) ← lagStep p (← req args 0 decLeaf) (← opt args 1 decLeaf)
    .ok (.leaf o, .leaf n, .leaf i) : Res (Step α)) = .ok (o, n, i)) :
    ∃ o' n' i', o = .leaf o' ∧ n = .leaf n' ∧ i = .leaf i' := by
  simp only [bind_eq_ok] at h
  obtain ⟨_, -, _, -, _, -, ⟨o', n', i'⟩, -, h⟩ := h
  cases h
  exact ⟨_, _, _, rfl, rfl, rfl⟩

theorem rollLeaf_ne_gen {v b r : Leaf α} (h : rollLeaf v b = .ok r) : b ≠ .gen := by
  rintro rfl
  cases v <;> simp [rollLeaf] at h

theorem lagStep_fresh {p : Int} {v o n i : Leaf α} (h : lagStep p v none = .ok (o, n, i)) :
    lagStep p v (some i) = .ok (o, n, i) := by
  simp only [lagStep, bind_eq_ok] at h
  obtain ⟨b, hb, a, ha, c, hc, h⟩ := h
  cases h
  simp [lagStep, ha, hc]

theorem lagStep_echo {p : Int} {v s o n i : Leaf α} (h : lagStep p v (some s) = .ok (o, n, i)) :
    i = s ∧ s ≠ .gen := by
  simp only [lagStep, bind_eq_ok, pure_eq_ok, Except.ok.injEq] at h
  obtain ⟨b, rfl, a, ha, c, hc, h⟩ := h
  cases h
  exact ⟨rfl, rollLeaf_ne_gen hc⟩

theorem Lag_regular (p : Int) : Regular (Lag p : Operator α) 1 (.leaf ()) := by
  refine ⟨?_, ?_, ?_⟩
  · intro x st o n i _ _ h
    obtain ⟨_, _, _, rfl, rfl, rfl⟩ := Lag_ok h
    simp
  · intro x st o n i _ _ h
    obtain ⟨_, _, _, rfl, rfl, rfl⟩ := Lag_ok h
    simp
  · have fr : ∀ x o n i, TensorArgs 1 x → (Lag p : Operator α).forwardStep x none = .ok (o, n, i) →
        ∃ v o' n' i', unpackArgs x = [.leaf v] ∧ lagStep p v none = .ok (o', n', i') ∧
          o = .leaf o' ∧ n = .leaf n' ∧ i = .leaf i' := by
      intro x o n i hD h
      obtain ⟨v, hv⟩ := ArgsOK.one (args := unpackArgs x) hD
      rw [Lag, streamable_fs, stArgs, hv] at h
      simp only [List.append_nil, bind_eq_ok, req_zero, decLeaf_leaf, Except.ok.injEq, opt_succ, opt_nil] at h
      obtain ⟨_, -, _, rfl, _, rfl, ⟨o', n', i'⟩, hl, h⟩ := h
      cases h
      exact ⟨v, o', n', i', hv, hl, rfl, rfl, rfl⟩
    refine ⟨?_, ?_, ?_⟩
    · intro x o n i _ hD h
      obtain ⟨v, o', n', i', hv, hl, rfl, rfl, rfl⟩ := fr _ _ _ _ hD h
      rw [Lag, streamable_fs, stArgs, hv]
      simp [unpackArgs, arity, lagStep_fresh hl]
    · intro x o n i _ hD h
      obtain ⟨v, o', n', i', hv, hl, rfl, rfl, rfl⟩ := fr _ _ _ _ hD h
      have := (lagStep_echo (lagStep_fresh hl)).2
      simpa [Tensors] using this
    · intro x x' s o n i o' n' i' _ hD _ hD' h' hsk h
      obtain ⟨v, o', n', i', hv, hl, rfl, rfl, rfl⟩ := fr _ _ _ _ hD' h'
      cases s with
      | node k xs => simp at hsk
      | leaf l =>
        obtain ⟨w, hw⟩ := ArgsOK.one (args := unpackArgs x) hD
        rw [Lag, streamable_fs, stArgs, hw] at h
        simp only [unpackArgs, List.cons_append, List.nil_append, bind_eq_ok, req_zero, decLeaf_leaf, ok_bind,
          Except.ok.injEq, opt_succ, opt_zero] at h
        obtain ⟨_, -, ⟨o', n', i'⟩, hl, h⟩ := h
        cases h
        rw [(lagStep_echo hl).1]

theorem RSI_regular (period : Int) : Regular (RSI period : Operator α) 1 (.leaf ()) := by
  have R := Lag_regular (α := α) period
  refine StepReg.regular (m := 4) ⟨?_, ?_, ?_⟩ ?_
  · intro args o n i hw h
    simp only [bind_eq_ok] at h
    obtain ⟨_, -, t, -, it, -, s, hs, g, -, l, -, ⟨a, b, c⟩, hc, bf, -, la, -, ⟨x, y, z⟩, hr, h⟩ := h
    obtain ⟨h1, h2, h3⟩ := R.sane.call (by simp) (mem_of_getElem?_WF hw hs) hc
    cases h
    simp [WF_tup, *]
  · intro args o n i hw h
    obtain ⟨l, rfl⟩ := hw.one
    simp only [bind_eq_ok, req_zero, opt_succ, opt_nil, Except.ok.injEq, decS_ok] at h
    obtain ⟨_, -, t, h0, _, rfl, _, rfl, _, rfl, _, rfl, ⟨a, b, c⟩, hc, bf, hbf, la, hla, ⟨x, y, z⟩, hr, h⟩ := h
    cases h0; cases h
    have hf := R.contract.call_fresh R.sane (by simp) (TensorArgs_leaf _) hc
    have ht := R.contract.call_tensors (by simp) (TensorArgs_leaf _) hc
    refine ⟨_, by rfl, rfl, by simp [tensors_tup, ht], ?_⟩
    simp only [Option.getD_none] at *
    simp only [List.cons_append, List.nil_append, arity, List.length_cons, List.length_nil, Nat.reduceAdd, Nat.le_refl,
      Nat.reduceLeDiff, and_self, if_true, ok_bind, req_zero, decS_vS, opt_succ, opt_zero, decI_vI, Option.getD_some, decAny_eq,
      hf, hbf, hla, hr]
  · intro args ss o n i hw _ hs hex h
    obtain ⟨l, rfl⟩ := hw.one
    match ss, hs with
    | [s1, s2, s3, s4], _ =>
    obtain ⟨args', o', n', is', hw', h', hsk⟩ := hex
    obtain ⟨l', rfl⟩ := hw'.one
    simp only [bind_eq_ok, req_zero, opt_succ, opt_nil, Except.ok.injEq, decS_ok] at h'
    obtain ⟨_, -, t, h0, _, rfl, _, rfl, _, rfl, _, rfl, ⟨a, b, c⟩, hc, bf, hbf, la, hla, ⟨x, y, z⟩, hr, h'⟩ := h'
    cases h'
    simp only [List.map_cons, List.map_nil, List.cons.injEq, and_true] at hsk
    simp only [bind_eq_ok, List.cons_append, List.nil_append, req_zero, opt_succ, opt_zero, Except.ok.injEq,
      decAny_ok, decI_ok, decS_ok] at h
    obtain ⟨_, -, t, -, _, ⟨_, rfl, rfl⟩, _, ⟨_, rfl, rfl⟩, _, ⟨_, rfl, rfl⟩, _, ⟨_, rfl, rfl⟩, ⟨a, b, c⟩, hx,
      bf, hbf, la, hla, ⟨x, y, z⟩, hr, h⟩ := h
    cases h
    rw [R.contract.call_echo R.sane (by simp) (TensorArgs_leaf _) (by simp) (TensorArgs_leaf _) hc hsk.2.1 hx]
    rfl
  · intro args o n i hw h
    simp only [bind_eq_ok] at h
    obtain ⟨_, -, t, -, it, -, s, hs, g, -, l, -, ⟨a, b, c⟩, hc, bf, -, la, -, ⟨x, y, z⟩, hr, h⟩ := h
    cases h
    simp

theorem ATR_regular (period : Int) : Regular (ATR period : Operator α) 3 (.leaf ()) := by
  have R := RMA_regular (α := α) period
  refine StepReg.regular (m := 2) ⟨?_, ?_, ?_⟩ ?_
  · intro args o n i hw h
    simp only [bind_eq_ok] at h
    obtain ⟨_, -, t, -, lo, -, hi, -, lc, -, s, hs, tr, -, ⟨a, b, c⟩, hc, h⟩ := h
    obtain ⟨h1, h2, h3⟩ := R.sane.call (by simp) (mem_of_getElem?_WF hw hs) hc
    cases h
    simp [WF_tup, *]
  · intro args o n i hw h
    obtain ⟨l, l', l'', rfl⟩ := hw.three
    simp only [bind_eq_ok, req_zero, req_succ, opt_succ, opt_nil, Except.ok.injEq, decF_ok] at h
    obtain ⟨_, -, t, h0, lo, hlo, hi, hhi, _, rfl, _, rfl, tr, htr, ⟨a, b, c⟩, hc, h⟩ := h
    cases h0; cases h
    have hf := R.contract.call_fresh R.sane (by simp) (TensorArgs_leaf _) hc
    have ht := R.contract.call_tensors (by simp) (TensorArgs_leaf _) hc
    refine ⟨_, by rfl, rfl, by simp [tensors_tup, ht], ?_⟩
    simp only [Option.getD_none] at *
    simp [arity, hlo, hhi, htr, hf]
  · intro args ss o n i hw _ hs hex h
    obtain ⟨l, l', l'', rfl⟩ := hw.three
    obtain ⟨s1, s2, rfl⟩ := List.length_eq_two.1 hs
    obtain ⟨args', o', n', is', hw', h', hsk⟩ := hex
    obtain ⟨k, k', k'', rfl⟩ := hw'.three
    simp only [bind_eq_ok, req_zero, req_succ, opt_succ, opt_nil, Except.ok.injEq, decF_ok] at h'
    obtain ⟨_, -, t, h0, lo, hlo, hi, hhi, _, rfl, _, rfl, tr, htr, ⟨a, b, c⟩, hc, h'⟩ := h'
    cases h'
    simp only [List.map_cons, List.map_nil, List.cons.injEq, and_true] at hsk
    simp only [bind_eq_ok, List.cons_append, List.nil_append, req_zero, req_succ, opt_succ, opt_zero, Except.ok.injEq,
      decAny_ok, decF_ok] at h
    obtain ⟨_, -, t, -, lo, -, hi, -, _, ⟨_, rfl, rfl⟩, _, ⟨_, rfl, rfl⟩, tr', -, ⟨a', b', c'⟩, hx, h⟩ := h
    cases h
    rw [R.contract.call_echo R.sane (by simp) (TensorArgs_leaf _) (by simp) (TensorArgs_leaf _) hc hsk.2 hx]
    rfl
  · intro args o n i hw h
    simp only [bind_eq_ok] at h
    obtain ⟨_, -, t, -, lo, -, hi, -, lc, -, s, hs, tr, -, ⟨a, b, c⟩, hc, h⟩ := h
    have := R.outSkel.call (by simp) (mem_of_getElem?_WF hw hs) hc
    cases h
    exact this

theorem Supertrend_regular (period : Int) (f : ℚ) : Regular (Supertrend period f : Operator α) 3 (.leaf ()) := by
  have R := ATR_regular (α := α) period
  refine StepReg.regular (m := 5) ⟨?_, ?_, ?_⟩ ?_
  · intro args o n i hw h
    simp only [bind_eq_ok] at h
    obtain ⟨_, -, c, -, lo, -, hi, -, s, hs, lc, -, ld, -, lu, -, lt, -, ⟨x, y, z⟩, hc, a, ha, ⟨td, tu, tr, su⟩, hr, h⟩ := h
    obtain ⟨h1, h2, h3⟩ := R.sane.call (by simp [WF_tup]) (mem_of_getElem?_WF hw hs) hc
    cases h
    simp [WF_tup, *]
  · intro args o n i hw h
    obtain ⟨l, l', l'', rfl⟩ := hw.three
    simp only [bind_eq_ok, req_zero, req_succ, opt_succ, opt_nil, Except.ok.injEq, decS_ok] at h
    obtain ⟨_, -, c, h0, lo, h1, hi, h2, _, rfl, _, rfl, _, rfl, _, rfl, _, rfl, ⟨x, y, z⟩, hc, a, rfl, ⟨td, tu, tr, su⟩, hr, h⟩ := h
    cases h0; cases h1; cases h2; cases h
    have hf := R.contract.call_fresh R.sane (by simp [WF_tup]) (TensorArgs_triple _ _ _) hc
    have ht := R.contract.call_tensors (by simp [WF_tup]) (TensorArgs_triple _ _ _) hc
    refine ⟨_, by rfl, rfl, by simp [tensors_tup, ht], ?_⟩
    simp only [Option.getD_none] at *
    simp only [List.cons_append, List.nil_append, arity, List.length_cons, List.length_nil, Nat.reduceAdd, Nat.le_refl,
      Nat.reduceLeDiff, and_self, if_true, ok_bind, req_zero, req_succ, decS_vS, opt_succ, opt_zero, decI_vI, Option.getD_some,
      decAny_eq, hf, hr]
  · intro args ss o n i hw _ hs hex h
    obtain ⟨l, l', l'', rfl⟩ := hw.three
    match ss, hs with
    | [s1, s2, s3, s4, s5], _ =>
    obtain ⟨args', o', n', is', hw', h', hsk⟩ := hex
    obtain ⟨k, k', k'', rfl⟩ := hw'.three
    simp only [bind_eq_ok, req_zero, req_succ, opt_succ, opt_nil, Except.ok.injEq, decS_ok] at h'
    obtain ⟨_, -, c, h0, lo, h1, hi, h2, _, rfl, _, rfl, _, rfl, _, rfl, _, rfl, ⟨x, y, z⟩, hc, a, rfl, ⟨td, tu, tr, su⟩, hr, h'⟩ := h'
    cases h'
    simp only [List.map_cons, List.map_nil, List.cons.injEq, and_true] at hsk
    simp only [bind_eq_ok, List.cons_append, List.nil_append, req_zero, req_succ, opt_succ, opt_zero, Except.ok.injEq,
      decAny_ok, decS_ok, decI_ok] at h
    obtain ⟨_, -, c, -, lo, -, hi, -, _, ⟨_, rfl, rfl⟩, _, ⟨_, rfl, rfl⟩, _, ⟨_, rfl, rfl⟩, _, ⟨_, rfl, rfl⟩,
      _, ⟨_, rfl, rfl⟩, ⟨x, y, z⟩, hx, a, rfl, ⟨td, tu, tr, su⟩, hr, h⟩ := h
    cases h
    rw [R.contract.call_echo R.sane (by simp [WF_tup]) (TensorArgs_triple _ _ _) (by simp [WF_tup])
      (TensorArgs_triple _ _ _) hc hsk.1 hx]
    rfl
  · intro args o n i hw h
    simp only [bind_eq_ok] at h
    obtain ⟨_, -, c, -, lo, -, hi, -, s, hs, lc, -, ld, -, lu, -, lt, -, ⟨x, y, z⟩, hc, a, ha, ⟨td, tu, tr, su⟩, hr, h⟩ := h
    cases h
    simp

theorem RiskRatioEvaluator_regular (p : RRParams) : Regular (RiskRatioEvaluator p : Operator α) 4
    (.tup [.leaf (), .leaf (), .leaf (), .leaf ()]) := by
  have R := MSD_regular (α := α) p.volatility_period
  refine StepReg.regular (m := 7) ⟨?_, ?_, ?_⟩ ?_
  · intro args o n i hw h
    simp only [bind_eq_ok] at h
    obtain ⟨_, -, lo, -, hi, -, c, -, b, -, x1, -, x2, -, x3, -, x4, -, x5, -, x6, -, s, hs, ⟨x, y, z⟩, hc, v, hv, h⟩ := h
    have hsw := mem_of_getElem?_WF hw hs
    obtain ⟨h1, h2, h3⟩ := R.sane.call (by simp) hsw hc
    have hg := getD_WF hsw h3
    cases h
    simp [WF_tup, *]
  · intro args o n i hw h
    obtain ⟨l, l', l'', m, rfl⟩ := hw.four
    simp only [bind_eq_ok, req_zero, req_succ, opt_succ, opt_nil, Except.ok.injEq, decS_ok] at h
    obtain ⟨_, -, lo, h0, hi, h1, c, h2, b, hb, _, rfl, _, rfl, _, rfl, _, rfl, _, rfl, _, rfl, _, rfl,
      ⟨x, y, z⟩, hc, v, rfl, h⟩ := h
    cases h0; cases h1; cases h2; cases h
    have hf := R.contract.call_fresh R.sane (by simp) (TensorArgs_leaf _) hc
    have ht := R.contract.call_tensors (by simp) (TensorArgs_leaf _) hc
    refine ⟨_, by rfl, rfl, by simp [tensors_tup, ht], ?_⟩
    simp only [Option.getD_none] at *
    simp only [List.cons_append, List.nil_append, arity, List.length_cons, List.length_nil, Nat.reduceAdd, Nat.le_refl,
      Nat.reduceLeDiff, and_self, if_true, ok_bind, req_zero, req_succ, decS_vS, opt_succ, opt_zero, decI_vI, Option.getD_some,
      decAny_eq, hf, hb]
  · intro args ss o n i hw _ hs hex h
    obtain ⟨l, l', l'', m, rfl⟩ := hw.four
    match ss, hs with
    | [s1, s2, s3, s4, s5, s6, s7], _ =>
    simp only [bind_eq_ok, List.cons_append, List.nil_append, req_zero, req_succ, opt_succ, opt_zero, Except.ok.injEq,
      decAny_ok, decS_ok, decI_ok] at h
    obtain ⟨_, -, lo, -, hi, -, c, -, b, hb, _, ⟨_, rfl, rfl⟩, _, ⟨_, rfl, rfl⟩, _, ⟨_, rfl, rfl⟩, _, ⟨_, rfl, rfl⟩,
      _, ⟨_, rfl, rfl⟩, _, ⟨_, rfl, rfl⟩, _, ⟨_, rfl, rfl⟩, ⟨x, y, z⟩, hx, v, hv, h⟩ := h
    cases h
    rfl
  · intro args o n i hw h
    simp only [bind_eq_ok] at h
    obtain ⟨_, -, lo, -, hi, -, c, -, b, -, x1, -, x2, -, x3, -, x4, -, x5, -, x6, -, s, hs, ⟨x, y, z⟩, hc, v, hv, h⟩ := h
    have := R.outSkel.call (by simp) (mem_of_getElem?_WF hw hs) hc
    cases h
    simp [this]

end
end TS
