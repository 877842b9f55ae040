import Verif.Lemmas.FFillTracks
/-
Two operators that never fail on inputs of a signature and give the same outputs, from related states.
-/
namespace TS
open PyVal
variable {α : Type}

/-- On inputs of the signature `X` both operators make every step, with the same output, without states and from the related states they lead to. -/
def Coupled (op op' : Operator α) (X O : PyVal (DType × List Nat)) (S S' : PyVal DType) (R : Val α → Val α → Prop) : Prop :=
  (∀ s s', R s s' → (s.WF ∧ HasType s S) ∧ s'.WF ∧ HasType s' S') ∧
  (∀ x, x.WF → HasSig x X → ∃ o n i n' i', op.forwardStep x none = .ok (o, n, i) ∧ op'.forwardStep x none = .ok (o, n', i') ∧
    (o.WF ∧ HasSig o O) ∧ R n n' ∧ R i i') ∧
  (∀ x s s', x.WF → HasSig x X → R s s' → ∃ o n i n' i', op.forwardStep x (some s) = .ok (o, n, i) ∧ op'.forwardStep x (some s') = .ok (o, n', i') ∧
    (o.WF ∧ HasSig o O) ∧ R n n')

theorem Coupled.steps {op op' : Operator α} {X O S S' R} (h : Coupled op op' X O S S' R) :
    ∀ {xs : List (Val α)} {s s' : Val α}, (∀ x ∈ xs, x.WF ∧ HasSig x X) → R s s' →
      ∃ os sf sf', stepsTyped op S xs s = .ok (os, sf) ∧ stepsTyped op' S' xs s' = .ok (os, sf') ∧ (∀ o ∈ os, o.WF ∧ HasSig o O) ∧ R sf sf' := by
  intro xs
  induction xs with
  | nil => intro s s' _ hs; exact ⟨[], s, s', rfl, rfl, by simp, hs⟩
  | cons x xs ih =>
    intro s s' hx hs
    obtain ⟨o, n, i, n', i', h1, h1', ho, hR⟩ := h.2.2 x s s' (hx x (by simp)).1 (hx x (by simp)).2 hs
    obtain ⟨os, sf, sf', h2, h2', h3, h4⟩ := ih (fun y hy => hx y (by simp [hy])) hR
    have hn := h.1 _ _ hR
    refine ⟨o :: os, sf, sf', stepsTyped_cons_ok.2 ⟨o, n, i, os, h1, (toType_ok hn.1.1).2 hn.1.2, h2, rfl⟩,
      stepsTyped_cons_ok.2 ⟨o, n', i', os, h1', (toType_ok hn.2.1).2 hn.2.2, h2', rfl⟩, ?_, h4⟩
    rintro y hy
    rcases List.mem_cons.1 hy with rfl | hy
    · exact ho
    · exact h3 y hy

variable [TFNum α]

theorem Coupled.call {op op' : Operator α} {X O S S' R} (h : Coupled op op' X O S S' R) {v : Val α} {n : Nat} (hv : SeriesOf X v n)
    {st st' : Option (Val α)} (hst : (st = none ∧ st' = none) ∨ ∃ s s', st = some s ∧ st' = some s' ∧ R s s') :
    ∃ z sf s0 sf' s0', call op v st = .ok (z, sf, s0) ∧ TS.call op' v st' = .ok (z, sf', s0') ∧ R sf sf' := by
  obtain ⟨hw, hl, xs, hin, hx, rfl, hX⟩ := hv
  have hwx := hin.mem_WF hw
  obtain ⟨o0, n0, i0, n0', i0', h0, h0', ho0, hs0⟩ : ∃ o n i n' i', op.forwardStep (xs.head hx) st = .ok (o, n, i) ∧
      op'.forwardStep (xs.head hx) st' = .ok (o, n', i') ∧ (o.WF ∧ HasSig o O) ∧ R (st.getD i) (st'.getD i') := by
    rcases hst with ⟨rfl, rfl⟩ | ⟨s, s', rfl, rfl, hR⟩
    · obtain ⟨o, n, i, n', i', a, b, c, d, e⟩ := h.2.1 _ (hwx _ (List.head_mem hx)) (hX _ (List.head_mem hx)); exact ⟨o, n, i, n', i', a, b, c, e⟩
    · obtain ⟨o, n, i, n', i', a, b, c, d⟩ := h.2.2 _ s s' (hwx _ (List.head_mem hx)) (hX _ (List.head_mem hx)) hR; exact ⟨o, n, i, n', i', a, b, c, hR⟩
  obtain ⟨os, sf, sf', h1, h1', h2, h3⟩ := h.steps (fun x h => ⟨hwx x h, hX x h⟩) hs0
  obtain ⟨z, hz, -⟩ := exists_series (os := os) (ty := O) fun o ho => (h2 o ho).2
  have ht := h.1 _ _ hs0
  have hs : (∀ s ∈ st, s.WF ∧ Tensors s) ∧ ∀ s ∈ st', s.WF ∧ Tensors s := by
    rcases hst with ⟨rfl, rfl⟩ | ⟨s, s', rfl, rfl, hR⟩
    · simp
    · have := h.1 _ _ hR
      exact ⟨by rintro _ ⟨⟩; exact ⟨this.1.1, tensors_iff.2 ⟨_, this.1.2⟩⟩, by rintro _ ⟨⟩; exact ⟨this.2.1, tensors_iff.2 ⟨_, this.2.2⟩⟩⟩
  refine ⟨z, sf, st.getD i0, sf', st'.getD i0', ?_, ?_, h3⟩
  · rw [call_eq true hw hin.tensors hs.1]
    exact callStreamed_complete hw hl hin hx ho0.1 ht.1.1 (fun o ho => (h2 o ho).1) h0 ht.1.2 ho0.2.hasType h1 (fun o ho => (h2 o ho).2.hasType) hz
  · rw [call_eq true hw hin.tensors hs.2]
    exact callStreamed_complete hw hl hin hx ho0.1 ht.2.1 (fun o ho => (h2 o ho).1) h0' ht.2.2 ho0.2.hasType h1' (fun o ho => (h2 o ho).2.hasType) hz

theorem Coupled.chunks {op op' : Operator α} {X O S S' R} (h : Coupled op op' X O S S' R) {vs : List (Val α)} {ns : List Nat}
    (hv : List.Forall₂ (SeriesOf X) vs ns) : ∀ {st st' : Option (Val α)},
      ((st = none ∧ st' = none) ∨ ∃ s s', st = some s ∧ st' = some s' ∧ R s s') →
      ∃ zs, streamChunks op st vs = .ok zs ∧ streamChunks op' st' vs = .ok zs := by
  induction hv with
  | nil => intro st st' _; exact ⟨[], rfl, rfl⟩
  | cons hv _ ih =>
    intro st st' hst
    obtain ⟨z, sf, s0, sf', s0', h1, h2, h3⟩ := h.call hv hst
    obtain ⟨zs, g1, g2⟩ := ih (.inr ⟨sf, sf', rfl, rfl, h3⟩)
    exact ⟨z :: zs, by simp [streamChunks, h1, g1], by simp [streamChunks, h2, g2]⟩

theorem map_zeroLeaf (o : Val α) : (o.map zeroLeaf).map zeroLeaf = o.map zeroLeaf := by
  rw [PyVal.map_map]
  congr 1
  funext l
  cases l <;> rfl

/-- Forward-filling what is already forward-filled. -/
theorem FFill_twice {op : Operator α} {X O S} {I : Val α → Prop} (hI : ∀ s, I s → s.WF ∧ HasType s S)
    (hf : ∀ x, x.WF → HasSig x X → ∃ o n i, op.forwardStep x none = .ok (o, n, i) ∧ (o.WF ∧ HasSig o O) ∧ I n ∧ I i)
    (hn : ∀ x s, x.WF → HasSig x X → I s → ∃ o n i, op.forwardStep x (some s) = .ok (o, n, i) ∧ (o.WF ∧ HasSig o O) ∧ I n ∧ I i)
    (hX : AllFloat X) (pO : Passable O) (pS : S = PyVal.unit ∨ Passable S) :
    Coupled (FFill (FFill op)) (FFill op) X O (.tup [O.map Prod.fst, .tup [O.map Prod.fst, S]]) (.tup [O.map Prod.fst, S])
      (fun s s' => ∃ q t, s = .tup [q, .tup [q, t]] ∧ s' = .tup [q, t] ∧ (q.WF ∧ HasSig q O) ∧ I t) := by
  have hI' : ∀ q t, (q.WF ∧ HasSig q O) → I t → (PyVal.tup [q, t]).WF ∧ HasType (.tup [q, t]) (.tup [O.map Prod.fst, S]) := fun q t hq ht =>
    ⟨by simp [WF_tup, hq.1, (hI t ht).1], hasType_tup (.cons hq.2.hasType (.cons (hI t ht).2 .nil))⟩
  have pS' : (PyVal.tup [O.map Prod.fst, S] : PyVal DType) = PyVal.unit ∨ Passable (PyVal.tup [O.map Prod.fst, S]) :=
    .inr ⟨by simp [IsEmptySeq, PyVal.tup], by simp [IsSingleton, PyVal.tup]⟩
  refine ⟨?_, fun x hw hx => ?_, ?_⟩
  · rintro _ _ ⟨q, t, rfl, rfl, hq, ht⟩
    exact ⟨⟨by simp [WF_tup, hq.1, (hI t ht).1], hasType_tup (.cons hq.2.hasType (.cons (hI' q t hq ht).2 .nil))⟩, hI' q t hq ht⟩
  · obtain ⟨o, n, i, h, ho, hIn, hIi⟩ := hf x hw hx
    have hp : (o.map zeroLeaf).WF ∧ HasSig (o.map zeroLeaf) O := ⟨(WF_of_skel_eq (by simp)).2 ho.1, ho.2.map_same zeroLeaf_sig⟩
    have h1 := ffill_step_total hw (floats_of_sig hx hX) (by simp) h ho (hI _ hIn) (hI _ hIi) hp rfl (.inl ⟨rfl, zerosLike_total ho.1 ho.2.tensors⟩)
      (.inl ⟨rfl, rfl, rfl⟩) pO pS
    have ho' : (if hasZero x then o.map zeroLeaf else o).WF ∧ HasSig (if hasZero x then o.map zeroLeaf else o) O := by split <;> assumption
    have hIn' : I (if hasZero x then i else n) := by split <;> assumption
    have h2 := ffill_step_total hw (floats_of_sig hx hX) (by simp) h1 ho' (hI' _ _ ho' hIn') (hI' _ _ hp hIi) (p := o.map zeroLeaf) hp rfl
      (.inl ⟨rfl, by rw [zerosLike_total ho'.1 ho'.2.tensors]; split <;> simp only [map_zeroLeaf]⟩) (.inl ⟨rfl, rfl, rfl⟩) pO pS'
    cases hz : hasZero x <;> simp only [hz, if_true, Bool.false_eq_true, if_false, Option.getD_none] at h1 h2
    · exact ⟨_, _, _, _, _, h2, h1, ho, ⟨_, _, rfl, rfl, ho, hIn⟩, ⟨_, _, rfl, rfl, hp, hIi⟩⟩
    · exact ⟨_, _, _, _, _, h2, h1, hp, ⟨_, _, rfl, rfl, hp, hIi⟩, ⟨_, _, rfl, rfl, hp, hIi⟩⟩
  · rintro x _ _ hw hx ⟨q, t, rfl, rfl, hq, ht⟩
    obtain ⟨o, n, i, h, ho, hIn, hIi⟩ := hn x t hw hx ht
    have h1 := ffill_step_total hw (floats_of_sig hx hX) (by rintro _ ⟨⟩; exact hI _ ht) h ho (hI _ hIn) (hI _ hIi) hq rfl (.inr rfl)
      (.inr ⟨_, _, _, rfl, rfl, rfl, rfl, rfl⟩) pO pS (st' := some (.tup [q, t]))
    have ho' : (if hasZero x then q else o).WF ∧ HasSig (if hasZero x then q else o) O := by split <;> assumption
    have hIn' : I (if hasZero x then t else n) := by split <;> assumption
    have h2 := ffill_step_total hw (floats_of_sig hx hX) (by rintro _ ⟨⟩; exact hI' _ _ hq ht) h1 ho' (hI' _ _ ho' hIn') (hI' _ _ hq hIi) hq rfl (.inr rfl)
      (.inr ⟨_, _, _, rfl, rfl, rfl, rfl, rfl⟩) pO pS' (st' := some (.tup [q, .tup [q, t]]))
    cases hz : hasZero x <;> simp only [hz, if_true, Bool.false_eq_true, if_false, Option.getD_some] at h1 h2
    · exact ⟨_, _, _, _, _, h2, h1, ho, ⟨_, _, rfl, rfl, ho, hIn⟩⟩
    · exact ⟨_, _, _, _, _, h2, h1, hq, ⟨_, _, rfl, rfl, hq, ht⟩⟩

end TS
