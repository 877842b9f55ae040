import Verif.Spec.Steady
import Verif.Lemmas.FFillStream
import Verif.Lemmas.Streams
/-
Steady operators stream.
-/
namespace TS
open PyVal
variable {α : Type}
set_option linter.unusedSimpArgs false

theorem HasSig.skel {v : Val α} {ty} (h : HasSig v ty) : v.skel = ty.skel := (HasSig_iff.1 h).1

theorem hasSig_leaf_inv {x : Val α} {l : DType × List Nat} (h : HasSig x (.leaf l)) : ∃ y, x = .leaf y ∧ y.sig = some l := by
  unfold HasSig at h
  cases x with
  | leaf y => exact ⟨y, rfl, by simpa using h⟩
  | node k xs => simp at h

theorem hasSig_tup_inv {x : Val α} {tys : List (PyVal (DType × List Nat))} (h : HasSig x (.tup tys)) :
    ∃ xs, x = .tup xs ∧ List.Forall₂ HasSig xs tys := by
  unfold HasSig at h
  cases x with
  | leaf y => simp [PyVal.tup] at h
  | node k xs =>
    simp only [PyVal.tup, PyVal.map_node, PyVal.node.injEq] at h
    obtain ⟨rfl, h⟩ := h
    refine ⟨xs, rfl, ?_⟩
    rw [List.forall₂_iff_get]
    have hl := congrArg List.length h
    simp only [List.length_map] at hl
    refine ⟨hl, fun i h1 h2 => ?_⟩
    have := congrArg (fun l => l[i]?) h
    simp only [List.getElem?_map, List.getElem?_eq_getElem h1, List.getElem?_eq_getElem h2, Option.map_some, Option.some.injEq] at this
    exact this

theorem hasSig_pair {x : Val α} {a b} (h : HasSig x (.tup [a, b])) : ∃ y z, x = .tup [y, z] ∧ HasSig y a ∧ HasSig z b := by
  obtain ⟨xs, rfl, h'⟩ := hasSig_tup_inv h
  rcases h' with _ | ⟨h1, _ | ⟨h2, ⟨⟩⟩⟩
  exact ⟨_, _, rfl, h1, h2⟩

/-- Steps from a state of the invariant. -/
theorem steady_steps {op : Operator α} {X O S} {I : Val α → Prop} (hI : ∀ s, I s → s.WF ∧ HasSig s S)
    (hn : ∀ x s, x.WF → HasSig x X → I s → ∃ o n i, op.forwardStep x (some s) = .ok (o, n, i) ∧ (o.WF ∧ HasSig o O) ∧ I n ∧ I i) :
    ∀ {xs : List (Val α)} {s : Val α}, (∀ x ∈ xs, x.WF ∧ HasSig x X) → I s →
      ∃ os sf, stepsTyped op (S.map Prod.fst) xs s = .ok (os, sf) ∧ (∀ o ∈ os, o.WF ∧ HasSig o O) ∧ I sf ∧ os.length = xs.length := by
  intro xs
  induction xs with
  | nil => intro s _ hs; exact ⟨[], s, rfl, by simp, hs, rfl⟩
  | cons x xs ih =>
    intro s hx hs
    obtain ⟨o, n, i, h1, ho, hn', -⟩ := hn x s (hx x (by simp)).1 (hx x (by simp)).2 hs
    obtain ⟨os, sf, h2, h3, h4, h5⟩ := ih (fun y hy => hx y (by simp [hy])) hn'
    refine ⟨o :: os, sf, stepsTyped_cons_ok.2 ⟨o, n, i, os, h1, (toType_ok (hI n hn').1).2 (hI n hn').2.hasType, h2, rfl⟩, ?_, h4, by simp [h5]⟩
    rintro y hy
    rcases List.mem_cons.1 hy with rfl | hy
    · exact ho
    · exact h3 y hy

theorem steady_call {op : Operator α} {X O S} {I : Val α → Prop} (hI : ∀ s, I s → s.WF ∧ HasSig s S)
    (hf : ∀ x, x.WF → HasSig x X → ∃ o n i, op.forwardStep x none = .ok (o, n, i) ∧ (o.WF ∧ HasSig o O) ∧ I n ∧ I i)
    (hn : ∀ x s, x.WF → HasSig x X → I s → ∃ o n i, op.forwardStep x (some s) = .ok (o, n, i) ∧ (o.WF ∧ HasSig o O) ∧ I n ∧ I i)
    {v : Val α} {xs : List (Val α)} (hw : v.WF) (hl : flatten v ≠ []) (hin : IsSeries v xs) (hx : xs ≠ []) (hX : ∀ x ∈ xs, HasSig x X)
    (st : Option (Val α)) (hst : ∀ s ∈ st, I s) :
    ∃ z sf s0 os, call op v st = .ok (z, sf, s0) ∧ IsSeries z os ∧ os.length = xs.length ∧ (∀ o ∈ os, o.WF ∧ HasSig o O) ∧ I sf ∧ I s0 := by
  have hwx := hin.mem_WF hw
  obtain ⟨o0, n0, i0, h0, ho0, hs0⟩ : ∃ o n i, op.forwardStep (xs.head hx) st = .ok (o, n, i) ∧ (o.WF ∧ HasSig o O) ∧ I (st.getD i) := by
    cases st with
    | none => obtain ⟨o, n, i, a, b, c, d⟩ := hf _ (hwx _ (List.head_mem hx)) (hX _ (List.head_mem hx)); exact ⟨o, n, i, a, b, d⟩
    | some s => obtain ⟨o, n, i, a, b, c, d⟩ := hn _ s (hwx _ (List.head_mem hx)) (hX _ (List.head_mem hx)) (hst s rfl); exact ⟨o, n, i, a, b, hst s rfl⟩
  obtain ⟨os, sf, h1, h2, h3, h4⟩ := steady_steps hI hn (fun x h => ⟨hwx x h, hX x h⟩) hs0
  obtain ⟨z, hz, -⟩ := exists_series (os := os) (ty := O) fun o ho => (h2 o ho).2
  refine ⟨z, sf, st.getD i0, os, ?_, hz, h4, h2, h3, hs0⟩
  rw [call_eq true hw hin.tensors (fun s hs => ⟨(hI s (hst s hs)).1, (hI s (hst s hs)).2.tensors⟩)]
  exact callStreamed_complete hw hl hin hx ho0.1 (hI _ hs0).1 (fun o ho => (h2 o ho).1) h0 (hI _ hs0).2.hasType ho0.2.hasType h1
    (fun o ho => (h2 o ho).2.hasType) hz

/-- Operators that are functions of the history of samples of one signature are steady. -/
theorem Tracks.steady {A : Type} {op : Operator α} {enc : A → Val α} {out st : List A → Val α} (T : Tracks op Any enc out st)
    {X} (hX : ∀ x : Val α, HasSig x X → ∃ a, x = enc a) {O} (hO : ∀ h, h ≠ [] → HasSig (out h) O) {S} (hS : ∀ h, HasSig (st h) S) :
    op.Steady X O S := by
  obtain ⟨_, ho⟩ := T.out_ok
  obtain ⟨_, hs⟩ := T.st_ok
  refine ⟨fun s => ∃ h, s = st h, ?_, ?_, ?_⟩
  · rintro _ ⟨h, rfl⟩; exact ⟨(hs h).1, hS h⟩
  · intro x hw hx
    obtain ⟨a, rfl⟩ := hX x hx
    exact ⟨_, _, _, T.first a trivial, ⟨(ho _ (by simp)).1, hO _ (by simp)⟩, ⟨_, rfl⟩, ⟨_, rfl⟩⟩
  · rintro x _ hw hx ⟨h, rfl⟩
    obtain ⟨a, rfl⟩ := hX x hx
    exact ⟨_, _, _, T.next h a trivial, ⟨(ho _ (by simp)).1, hO _ (by simp)⟩, ⟨_, rfl⟩, ⟨_, rfl⟩⟩

/-! ### `tf.cond` -/

theorem isSingleton_map {A B : Type} (f : A → B) (v : PyVal A) : IsSingleton (v.map f) ↔ IsSingleton v := by
  cases v with
  | leaf l => simp [IsSingleton]
  | node k xs =>
    simp only [IsSingleton, PyVal.map_node]
    constructor
    · rintro ⟨x, h | h⟩ <;> simp only [PyVal.node.injEq] at h <;> obtain ⟨rfl, h⟩ := h <;>
        (obtain ⟨y, ys, rfl, rfl, hy⟩ := List.map_eq_cons_iff.1 h; rw [List.map_eq_nil_iff] at hy; subst hy; exact ⟨y, by simp⟩)
    · rintro ⟨x, h | h⟩ <;> cases h <;> exact ⟨x.map f, by simp⟩

theorem isSingleton_skel {A B : Type} {v : PyVal A} {w : PyVal B} (h : v.skel = w.skel) : IsSingleton v ↔ IsSingleton w := by
  rw [← isSingleton_map (fun _ => ()) v, ← isSingleton_map (fun _ => ()) w]
  exact iff_of_eq (congrArg _ h)

theorem isEmptySeq_map {A B : Type} (f : A → B) (v : PyVal A) : IsEmptySeq (v.map f) ↔ IsEmptySeq v := by
  cases v with
  | leaf l => simp [IsEmptySeq]
  | node k xs => simp [IsEmptySeq]

theorem isEmptySeq_skel {A B : Type} {v : PyVal A} {w : PyVal B} (h : v.skel = w.skel) : IsEmptySeq v ↔ IsEmptySeq w := by
  rw [← isEmptySeq_map (fun _ => ()) v, ← isEmptySeq_map (fun _ => ()) w]
  exact iff_of_eq (congrArg _ h)

theorem not_isEmptySeq {v : Val α} : isEmptySeq v = false ↔ ¬ IsEmptySeq v := by
  rw [isEmptySeq_iff]; simp [IsEmptySeq]

theorem passable_skel {A B : Type} {v : PyVal A} {w : PyVal B} (h : v.skel = w.skel) : Passable v ↔ Passable w := by
  unfold Passable
  rw [isSingleton_skel h, isEmptySeq_skel h]

theorem unpackSingleton_eq {v : Val α} (h : ¬ IsSingleton v) : unpackSingleton v = v := by
  unfold unpackSingleton
  split
  · exact absurd ⟨_, .inl rfl⟩ h
  · exact absurd ⟨_, .inr rfl⟩ h
  · rfl

theorem tfCond_total {b : Bool} {t f : Val α} {ty : PyVal DType} (ht : t.WF) (hf : f.WF) (h1 : HasType t ty) (h2 : HasType f ty)
    (hp : Passable ty) : tfCond b t f = .ok (if b then t else f) := by
  have p1 := (passable_skel h1.1).2 hp
  have p2 := (passable_skel h2.1).2 hp
  rw [tfCond_ok, unpackSingleton_eq p1.2, unpackSingleton_eq p2.2]
  refine ⟨not_isEmptySeq.2 p1.1, ⟨ty, (toType_ok ht).2 h1, (toType_ok hf).2 h2⟩, ?_⟩
  cases b
  · exact (unpackSingleton_eq p2.2).symm
  · exact (unpackSingleton_eq p1.2).symm

theorem unpackSkel_fix {s : PyVal Unit} (h : unpackSkel (unpackSkel s) = s) : ¬ IsSingleton s := by
  have sz : ∀ (k : Kind) (y : PyVal Unit), y ≠ .node k [y] := by
    intro k y e
    have := congrArg sizeOf e
    simp at this
    omega
  have sz2 : ∀ (k k' : Kind) (y : PyVal Unit), y ≠ .node k [.node k' [y]] := by
    intro k k' y e
    have := congrArg sizeOf e
    simp at this
    omega
  rintro ⟨x, rfl | rfl⟩ <;> simp only [unpackSkel] at h <;> split at h <;> first | exact sz2 _ _ _ h | exact sz _ _ h

theorem tfCond_passable {b : Bool} {t f r : Val α} (h : tfCond b t f = .ok r) (ht : t.WF) (hf : f.WF) (hr : r.skel = t.skel) (e : f.skel = t.skel) :
    Passable t := by
  have h2 := tfCond_skel h ht hf
  rw [hr, e] at h2
  have hs := unpackSkel_fix h2.symm
  have hs' : ¬ IsSingleton t := fun h => hs ((isSingleton_map (fun _ => ()) t).2 h)
  exact ⟨not_isEmptySeq.1 (tfCond_ok.1 h).1, hs'⟩

section
variable [TFNum α]

theorem anyValue_total {x : Val α} (hx : x.WF) (hf : Floats x) : anyValue x Arith.zero = .ok (hasZero x) := by
  have : ∃ z, anyValue x (Arith.zero : α) = .ok z := by
    have h := traverse_ok (tensorHasValue (Arith.zero : α)) (fun l => match l with | .f t => t.elems.any fun e => TFNum.eq e Arith.zero | _ => false) x
      (fun l hl => by obtain ⟨t, rfl⟩ := hf l hl; rfl)
    exact ⟨_, by rw [anyValue, mapFn_fn1_self _ _ hx, h]; rfl⟩
  obtain ⟨z, h⟩ := this
  rw [h, anyValue_zero hx h]

omit [TFNum α] in
theorem floats_of_sig {x : Val α} {X} (h : HasSig x X) (hX : AllFloat X) : Floats x := by
  intro l hl
  obtain ⟨k, hk, rfl⟩ := List.mem_iff_getElem.1 hl
  have h2 := (HasSig_iff.1 h).2
  have hlen := congrArg List.length h2
  simp only [List.length_map] at hlen
  have h3 := congrArg (fun l => l[k]?) h2
  simp only [List.getElem?_map] at h3
  rw [List.getElem?_eq_getElem hk, List.getElem?_eq_getElem (by omega : k < (flatten X).length)] at h3
  simp only [Option.map_some, Option.some.injEq] at h3
  have h4 := hX _ (List.getElem_mem (by omega : k < (flatten X).length))
  cases e : (flatten x)[k] with
  | f t => exact ⟨t, rfl⟩
  | i t => rw [e] at h3; simp only [Leaf.sig, Option.some.injEq] at h3; rw [← h3] at h4; cases h4
  | b t => rw [e] at h3; simp only [Leaf.sig, Option.some.injEq] at h3; rw [← h3] at h4; cases h4
  | gen => rw [e] at h3; cases h3

/-- zeros of the shape of `o` -/
def zeroLeaf : Leaf α → Leaf α
  | .f t => .f ⟨t.shape, fun _ => Arith.zero⟩
  | .i t => .i ⟨t.shape, fun _ => 0⟩
  | .b t => .b ⟨t.shape, fun _ => false⟩
  | .gen => .gen

theorem zerosLike_total {o : Val α} (ho : o.WF) (ht : Tensors o) : mapFn (fn1 zerosLike) o [o] = .ok (o.map zeroLeaf) := by
  rw [mapFn_fn1_self _ _ ho]
  refine traverse_ok _ _ _ fun l hl => ?_
  have := ht l hl
  cases l <;> first | rfl | exact absurd rfl this

theorem zeroLeaf_sig (l : Leaf α) : (zeroLeaf l).sig = l.sig := by cases l <;> rfl

omit [TFNum α] in
theorem ffillState_total {b : Bool} {i s n : Val α} {S : PyVal DType} (hi : i.WF ∧ HasType i S) (hs : s.WF ∧ HasType s S) (hn : n.WF ∧ HasType n S)
    (hS : S = PyVal.unit ∨ Passable S) : ffillState b i s n = .ok (if b then s else n) := by
  rcases hS with rfl | hS
  · have e : ∀ v : Val α, HasType v PyVal.unit → v = PyVal.unit := fun v hv => eq_unit_of_skel (by simpa using hv.1)
    rw [e _ hi.2, e _ hs.2, e _ hn.2]
    cases b <;> rfl
  · unfold ffillState
    split
    · exfalso
      have h := hi.2.1
      have hp := (passable_skel h).2 hS
      exact hp.1 (.inl rfl)
    · exact tfCond_total hs.1 hn.1 hs.2 hn.2 hS

/-- the tensor of zeros of a dtype and shape -/
def zeroOf : DType × List Nat → Leaf α
  | (.float, s) => .f ⟨s, fun _ => Arith.zero⟩
  | (.int, s) => .i ⟨s, fun _ => 0⟩
  | (.bool, s) => .b ⟨s, fun _ => false⟩

theorem zeros_of_sig {o : Val α} {O} (h : HasSig o O) : o.map zeroLeaf = O.map zeroOf := by
  have hs := HasSig_iff.1 h
  refine eq_of_skel_of_flatten _ _ (by simp [PyVal.skel_map, hs.1]) ?_
  have hl := congrArg List.length hs.2
  simp only [List.length_map] at hl
  rw [flatten_map, flatten_map]
  refine List.ext_getElem (by simpa using hl) fun k h1 h2 => ?_
  have := congrArg (fun l => l[k]?) hs.2
  simp only [List.length_map] at h1 h2
  simp only [List.getElem?_map, List.getElem?_eq_getElem h1, List.getElem?_eq_getElem h2, Option.map_some, Option.some.injEq] at this
  simp only [List.getElem_map]
  cases e : (flatten o)[k] <;> rw [e] at this <;> simp only [Leaf.sig, Option.some.injEq, reduceCtorEq] at this <;> rw [← this] <;> rfl

/-- Whatever FFill wraps successfully has an output and a state that `tf.cond` can pass through. -/
theorem FFill_needs {op : Operator α} (hsane : op.Sane) (hu : op.Uniform) {X O S} (h : op.Steady X O S) {v : Val α} {xs : List (Val α)}
    (hw : v.WF) (hl : flatten v ≠ []) (hin : IsSeries v xs) (hx : xs ≠ []) (hX : ∀ x ∈ xs, HasSig x X) {r : Step α}
    (hr : call (FFill op) v none = .ok r) : Passable O ∧ (S = PyVal.unit ∨ Passable S) := by
  obtain ⟨I, hI, hf, hn⟩ := h
  have hwx := hin.mem_WF hw
  obtain ⟨x, xs, rfl⟩ := List.exists_cons_of_ne_nil hx
  have hx0 := hwx x (by simp)
  have hX0 := hX x (by simp)
  rw [call_eq true hw hin.tensors (by simp)] at hr
  obtain ⟨z, sf, s0⟩ := r
  obtain ⟨o0, n0, i0, os, sty, oty, h0, rfl, hs0, -, hst, -, -⟩ := callStreamed_sound (FFill_sane hsane) (FFill_uniform hsane hu) hw hl hin hx (by simp) hr
  simp only [List.head_cons, Option.getD_none] at h0 hs0 hst
  -- the first step, without a state
  obtain ⟨z1, po, ps, o, n, i, p, sel, sst, hz, hst', hcall, hpo, hsel, hss, e⟩ := ffill_ok.1 h0
  cases e
  rcases hst' with ⟨-, rfl, rfl⟩ | ⟨s', a, b, h0', -⟩
  swap
  · cases h0'
  rcases hpo with ⟨-, hpo⟩ | hpo
  swap
  · cases hpo
  obtain ⟨o', n', i', hfs, ho, hIn, hIi⟩ := hf x hx0 hX0
  have e1 := ((call_step_ok hx0 (by simp)).1 hcall).2.2
  rw [hfs] at e1
  cases e1
  have hpk := (zerosLike_skel ho.1 hpo).1
  have hpw : p.WF := (WF_of_skel_eq hpk).2 ho.1
  -- the first step, from the initial state
  obtain ⟨o2, n2, i2, os', k1, k2, -, -⟩ := stepsTyped_cons_ok.1 hst
  obtain ⟨z2, po2, ps2, o3, n3, i3, p3, sel3, sst3, hz3, hst3, hcall3, hpo3, hsel3, hss3, e⟩ := ffill_ok.1 k1
  cases e
  rcases hst3 with ⟨h0', -⟩ | ⟨s', a, b, h0', ha, hb, rfl, rfl⟩
  · cases h0'
  cases h0'; cases ha; cases hb
  rcases hpo3 with ⟨hpo3, -⟩ | hpo3
  · cases hpo3
  cases hpo3
  obtain ⟨o', n', i', hns, ho3, hIn3, hIi3⟩ := hn x i hx0 hX0 hIi
  have e1 := ((call_step_ok hx0 (by rintro _ ⟨⟩; exact (hI _ hIi).1)).1 hcall3).2.2
  rw [hns] at e1
  cases e1
  have hwsel := tfCond_WF hsel3 hpw ho3.1
  have hwsst : sst3.WF := by
    unfold ffillState at hss3
    split at hss3
    · cases hss3; simp [PyVal.unit, WF_node]
    · exact tfCond_WF hss3 (hI _ hIi).1 (hI _ hIn3).1
  have hsk : (PyVal.tup [o2, sst3]).skel = (PyVal.tup [p, i]).skel :=
    ((toType_ok (by simp [WF_tup, hwsel, hwsst])).1 k2).1.trans hs0.1.symm
  simp [PyVal.tup] at hsk
  constructor
  · have := tfCond_passable hsel3 hpw ho3.1 hsk.1 (by rw [hpk, ho3.2.skel, ho.2.skel])
    exact (passable_skel (by rw [hpk, ho.2.skel])).1 this
  · unfold ffillState at hss3
    split at hss3
    · left
      have := (hI _ hIi3).2.skel
      refine eq_of_skel_of_flatten _ _ this.symm ?_
      have := length_flatten_of_skel_eq this
      simp [flatten, flattens] at this
      simpa [PyVal.unit, flatten, flattens] using this.symm
    · right
      simp only [Option.getD_some] at hss3
      have := tfCond_passable hss3 (hI _ hIi).1 (hI _ hIn3).1 hsk.2 (by rw [(hI _ hIn3).2.skel, (hI _ hIi).2.skel])
      exact (passable_skel (hI _ hIi).2.skel).1 this

end

end TS
