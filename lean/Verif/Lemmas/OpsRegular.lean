import Verif.Lemmas.Regular
/-
Regularity of the shipped operators.
-/
namespace TS
open PyVal
variable {α : Type}
set_option linter.unusedSimpArgs false
set_option linter.unusedSectionVars false

theorem ArgsOK.one {args : List (Val α)} (h : ArgsOK 1 args) : ∃ l, args = [.leaf l] := by
  obtain ⟨a, rfl⟩ := List.length_eq_one_iff.1 h.1
  obtain ⟨l, rfl⟩ := h.2 a (by simp)
  exact ⟨l, rfl⟩
theorem ArgsOK.two {args : List (Val α)} (h : ArgsOK 2 args) : ∃ l l', args = [.leaf l, .leaf l'] := by
  obtain ⟨a, b, rfl⟩ := List.length_eq_two.1 h.1
  obtain ⟨l, rfl⟩ := h.2 a (by simp)
  obtain ⟨l', rfl⟩ := h.2 b (by simp)
  exact ⟨l, l', rfl⟩
theorem ArgsOK.three {args : List (Val α)} (h : ArgsOK 3 args) : ∃ l l' l'', args = [.leaf l, .leaf l', .leaf l''] := by
  obtain ⟨a, b, c, rfl⟩ := List.length_eq_three.1 h.1
  obtain ⟨l, rfl⟩ := h.2 a (by simp)
  obtain ⟨l', rfl⟩ := h.2 b (by simp)
  obtain ⟨l'', rfl⟩ := h.2 c (by simp)
  exact ⟨l, l', l'', rfl⟩
theorem ArgsOK.four {args : List (Val α)} (h : ArgsOK 4 args) :
    ∃ l l' l'' l''', args = [.leaf l, .leaf l', .leaf l'', .leaf l'''] := by
  match args, h with
  | [a, b, c, d], h =>
    obtain ⟨l, rfl⟩ := h.2 a (by simp)
    obtain ⟨l', rfl⟩ := h.2 b (by simp)
    obtain ⟨l'', rfl⟩ := h.2 c (by simp)
    obtain ⟨l''', rfl⟩ := h.2 d (by simp)
    exact ⟨l, l', l'', l''', rfl⟩

/-! ### stateless operators -/

theorem makeStreamable_reg {fn : List (Val α) → Res (Val α)} (a : Nat)
    (hw : ∀ args o, (∀ x ∈ args, x.WF) → fn args = .ok o → o.WF) :
    StepReg (fun args => do .ok (← fn args, PyVal.unit, PyVal.unit)) a 0 where
  wf := by
    intro args o n i h hh
    simp only [bind_eq_ok] at hh
    obtain ⟨o', h1, h2⟩ := hh
    cases h2
    exact ⟨hw _ _ h h1, by simp [WF_tup], by simp [WF_tup]⟩
  fresh := by
    intro args o n i _ hh
    refine ⟨[], rfl, ?_, ?_, by simpa using hh⟩ <;>
    · simp only [bind_eq_ok] at hh
      obtain ⟨o', h1, h2⟩ := hh
      cases h2
      simp [tensors_tup]
  echo := by
    intro args ss o n i _ _ hs _ hh
    rw [List.length_eq_zero_iff] at hs
    simp only [bind_eq_ok] at hh
    obtain ⟨o', h1, h2⟩ := hh
    cases h2
    rw [hs]

theorem makeStreamable_uniform {fn : List (Val α) → Res (Val α)}
    (hu : ∀ args args' o o', args.map skel = args'.map skel → fn args = .ok o → fn args' = .ok o' → o'.skel = o.skel) :
    (makeStreamable fn).Uniform := by
  intro x x' st st' o s i o' s' i' _ _ h1 h2 hsk hsk'
  rw [makeStreamable, streamable_fs] at h1 h2
  simp only [bind_eq_ok] at h1 h2
  obtain ⟨_, h1, e1⟩ := h1
  obtain ⟨_, h2, e2⟩ := h2
  cases e1; cases e2
  refine hu _ _ _ _ ?_ h1 h2
  have key : ∀ v w : Val α, v.skel = w.skel → (unpackArgs v).map skel = (unpackArgs w).map skel := by
    intro v w h
    cases v with
    | leaf l => cases w with
      | leaf l' => simp [unpackArgs]
      | node k' ys => simp at h
    | node k xs => cases w with
      | leaf l' => simp at h
      | node k' ys =>
        simp only [skel_node, PyVal.node.injEq] at h
        obtain ⟨rfl, h⟩ := h
        cases k <;> simp [unpackArgs, h]
  rw [List.map_append, List.map_append, key _ _ hsk]
  congr 1
  cases st with
  | none => exact key PyVal.unit st' hsk'
  | some s => exact key s st' hsk'

theorem lambda2_ok {f : Leaf α → Leaf α → Res (Leaf α)} {args : List (Val α)} {o : Val α}
    (h : lambda2 f args = .ok o) : ∃ l, o = .leaf l := by
  match args, h with
  | [x, y], h =>
    simp only [lambda2, bind_eq_ok] at h
    obtain ⟨_, _, _, _, l, _, h⟩ := h
    cases h
    exact ⟨l, rfl⟩

/-- The three facts about an operator with `a` tensor inputs and outputs of structure `sk`. -/
structure Regular (op : Operator α) (a : Nat) (sk : PyVal Unit) : Prop where
  sane : op.Sane
  outSkel : op.OutSkel sk
  contract : op.Contract (TensorArgs a)

theorem Regular.uniform {op : Operator α} {a : Nat} {sk : PyVal Unit} (h : Regular op a sk) : op.Uniform :=
  uniform_of_const sk h.outSkel h.sane

theorem StepReg.regular {step : List (Val α) → Res (Step α)} {a m : Nat} {sk : PyVal Unit}
    (h : StepReg step a m) (ho : StepOut step sk) : Regular (streamable step) a sk :=
  ⟨h.sane, ho.outSkel, h.contract⟩

theorem lambda2_regular (f : Leaf α → Leaf α → Res (Leaf α)) : Regular (makeStreamable (lambda2 f)) 2 (.leaf ()) := by
  refine StepReg.regular (makeStreamable_reg 2 ?_) ?_
  · intro args o _ h
    obtain ⟨l, rfl⟩ := lambda2_ok h
    simp
  · intro args o n i _ h
    simp only [bind_eq_ok] at h
    obtain ⟨o', h1, h2⟩ := h
    cases h2
    obtain ⟨l, rfl⟩ := lambda2_ok h1
    simp

section
variable [TFNum α]
theorem Sub_regular : Regular (Sub : Operator α) 2 (.leaf ()) := lambda2_regular _
theorem Add_regular : Regular (Add : Operator α) 2 (.leaf ()) := lambda2_regular _
theorem Mul_regular : Regular (Mul : Operator α) 2 (.leaf ()) := lambda2_regular _

theorem indicator_regular (cf : α → Bool) (ci : Int → Bool) :
    Regular (makeStreamable (indicator cf ci)) 1 (.leaf ()) := by
  have key : ∀ args o, indicator cf ci args = .ok o → ∃ l, o = .leaf l := by
    intro args o h
    unfold indicator at h
    split at h <;> cases h <;> exact ⟨_, rfl⟩
  refine StepReg.regular (makeStreamable_reg 1 ?_) ?_
  · intro args o _ h
    obtain ⟨l, rfl⟩ := key _ _ h
    simp
  · intro args o n i _ h
    simp only [bind_eq_ok] at h
    obtain ⟨o', h1, h2⟩ := h
    cases h2
    obtain ⟨l, rfl⟩ := key _ _ h1
    simp

theorem Positive_regular : Regular (Positive : Operator α) 1 (.leaf ()) := indicator_regular _ _
theorem Negative_regular : Regular (Negative : Operator α) 1 (.leaf ()) := indicator_regular _ _
end

theorem makeStreamable_sane {fn : List (Val α) → Res (Val α)}
    (hw : ∀ args o, (∀ x ∈ args, x.WF) → fn args = .ok o → o.WF) : (makeStreamable fn).Sane :=
  (makeStreamable_reg 0 hw).sane

theorem makeStreamable_contract (fn : List (Val α) → Res (Val α)) (D : Val α → Prop) :
    (makeStreamable fn).Contract D where
  fresh := by
    intro x o n i _ _ h
    rw [makeStreamable, streamable_fs] at h ⊢
    have e : i = PyVal.unit := by
      simp only [bind_eq_ok] at h
      obtain ⟨_, _, h⟩ := h
      cases h; rfl
    subst e
    exact h
  tensors := by
    intro x o n i _ _ h
    rw [makeStreamable, streamable_fs] at h
    simp only [bind_eq_ok] at h
    obtain ⟨_, _, h⟩ := h
    cases h
    simp [tensors_tup]
  echo := by
    intro x x' s o n i o' n' i' _ _ _ _ h hsk h'
    rw [makeStreamable, streamable_fs] at h h'
    simp only [bind_eq_ok] at h h'
    obtain ⟨_, _, h⟩ := h
    obtain ⟨_, _, h'⟩ := h'
    cases h; cases h'
    cases s with
    | leaf l => simp at hsk
    | node k ss =>
      simp only [skel_node, List.map_nil, PyVal.node.injEq, List.map_eq_nil_iff] at hsk
      obtain ⟨rfl, rfl⟩ := hsk
      rfl

theorem Operator.Contract.mono {op : Operator α} {D D' : Val α → Prop} (h : op.Contract D)
    (hD : ∀ x, D' x → D x) : op.Contract D' where
  fresh x o n i hx hd := h.fresh x o n i hx (hD _ hd)
  tensors x o n i hx hd := h.tensors x o n i hx (hD _ hd)
  echo x x' s o n i o' n' i' hx hd hx' hd' := h.echo x x' s o n i o' n' i' hx (hD _ hd) hx' (hD _ hd')

theorem Fork_ok {c : Nat} {args : List (Val α)} {o : Val α} (h : (match args with
    | [x] => .ok (.tup (List.replicate c x))
    | _ => .error .typeError : Res (Val α)) = .ok o) : ∃ x, args = [x] ∧ o = .tup (List.replicate c x) := by
  split at h <;> cases h
  exact ⟨_, rfl, rfl⟩

theorem Fork_sane (c : Nat) : (Fork c : Operator α).Sane := by
  unfold Fork
  refine makeStreamable_sane ?_
  intro args o hw h
  obtain ⟨x, rfl, rfl⟩ := Fork_ok h
  rw [WF_tup]
  intro y hy
  rw [List.mem_replicate] at hy
  rw [hy.2]
  exact hw x (by simp)

theorem Fork_uniform (c : Nat) : (Fork c : Operator α).Uniform := by
  unfold Fork
  refine makeStreamable_uniform ?_
  intro args args' o o' hs h h'
  obtain ⟨x, rfl, rfl⟩ := Fork_ok h
  obtain ⟨x', rfl, rfl⟩ := Fork_ok h'
  simp at hs
  simp [hs]

theorem Identity_ok {args : List (Val α)} {o : Val α} (h : (match args with
    | [x] => .ok x
    | _ => .error .typeError : Res (Val α)) = .ok o) : args = [o] := by
  split at h <;> cases h
  rfl

theorem Identity_sane : (Identity : Operator α).Sane := by
  unfold Identity
  refine makeStreamable_sane ?_
  intro args o hw h
  rw [Identity_ok h] at hw
  exact hw o (by simp)

theorem Identity_uniform : (Identity : Operator α).Uniform := by
  unfold Identity
  refine makeStreamable_uniform ?_
  intro args args' o o' hs h h'
  rw [Identity_ok h, Identity_ok h'] at hs
  simpa using hs.symm

theorem pyIndex_map {A B : Type} (f : A → B) (l : List A) (i : Int) :
    pyIndex (l.map f) i = f <$> pyIndex l i := by
  simp only [pyIndex, List.length_map, List.getElem?_map]
  generalize (if i < 0 then (l.length : Int) + i else i) = j
  split
  · rfl
  · cases l[j.toNat]? <;> rfl

theorem pyIndex_mem {A : Type} {l : List A} {i : Int} {x : A} (h : pyIndex l i = .ok x) : x ∈ l := by
  simp only [pyIndex] at h
  generalize (if i < 0 then (l.length : Int) + i else i) = j at h
  split at h
  · cases h
  · cases e : l[j.toNat]? with
    | none => rw [e] at h; cases h
    | some y =>
      rw [e] at h
      cases h
      exact List.mem_of_getElem? e

theorem Select_sane (idx : Indices) : (Select idx : Operator α).Sane := by
  unfold Select
  split
  · refine makeStreamable_sane ?_
    intro args o _ h
    cases h; simp
  · refine makeStreamable_sane ?_
    intro args o hw h
    simp only [bind_eq_ok] at h
    obtain ⟨l, h1, h2⟩ := h
    cases h2
    rw [WF_node]
    refine ⟨by simp, fun x hx => ?_⟩
    obtain ⟨k, hk, rfl⟩ := List.mem_iff_getElem.1 hx
    obtain ⟨h3, h4⟩ := mapM_eq_ok_iff_get.1 h1
    exact hw _ (pyIndex_mem (h4 k (by omega)))
  · refine makeStreamable_sane ?_
    intro args o hw h
    exact hw _ (pyIndex_mem h)

theorem pyIndex_skel {args args' : List (Val α)} {i : Int} {o o' : Val α} (hs : args.map skel = args'.map skel)
    (h : pyIndex args i = .ok o) (h' : pyIndex args' i = .ok o') : o'.skel = o.skel := by
  have e := pyIndex_map skel args i
  have e' := pyIndex_map skel args' i
  rw [hs, e', h, h'] at e
  simpa using e

theorem Select_uniform (idx : Indices) : (Select idx : Operator α).Uniform := by
  unfold Select
  split
  · refine makeStreamable_uniform ?_
    intro args args' o o' _ h h'
    cases h; cases h'; rfl
  · refine makeStreamable_uniform ?_
    intro args args' o o' hs h h'
    simp only [bind_eq_ok] at h h'
    obtain ⟨l, h1, h2⟩ := h
    obtain ⟨l', h1', h2'⟩ := h'
    cases h2; cases h2'
    obtain ⟨h3, h4⟩ := mapM_eq_ok_iff_get.1 h1
    obtain ⟨h3', h4'⟩ := mapM_eq_ok_iff_get.1 h1'
    simp only [skel_node, PyVal.node.injEq, true_and]
    refine List.ext_getElem (by simp; omega) fun k a b => ?_
    simp only [List.getElem_map]
    exact pyIndex_skel hs (h4 k (by simp at b; omega)) (h4' k (by simp at b; omega))
  · refine makeStreamable_uniform ?_
    intro args args' o o' hs h h'
    exact pyIndex_skel hs h h'


/-! ### operators on tensors with tensor states -/

theorem bufferOp_regular {step : {s : List Nat} → (Idx s → α) → Option Int → Option (List (Idx s → α)) →
    Res ((Idx s → α) × (Int × List (Idx s → α)) × (Int × List (Idx s → α)))}
    (h1 : ∀ {s} (v : Idx s → α) o n i, step v none none = .ok (o, n, i) → step v (some i.1) (some i.2) = .ok (o, n, i))
    (h2 : ∀ {s} (v : Idx s → α) it b o n i, step v (some it) (some b) = .ok (o, n, i) → i = (it, b)) :
    Regular (bufferOp @step) 1 (.leaf ()) := by
  refine StepReg.regular (m := 2) ⟨?_, ?_, ?_⟩ ?_
  · intro args o n i hw h
    simp only [bind_eq_ok] at h
    obtain ⟨_, -, t, -, it, -, buf, -, ⟨o, n, i⟩, -, h⟩ := h
    cases h
    simp [WF_tup]
  · intro args o n i hw h
    obtain ⟨l, rfl⟩ := hw.one
    simp only [bind_eq_ok, req_zero, opt_succ, opt_nil, Except.ok.injEq, decF_ok] at h
    obtain ⟨_, -, t, h0, _, rfl, _, rfl, ⟨o, n, i⟩, h6, h⟩ := h
    cases h0; cases h
    refine ⟨_, by rfl, rfl, by simp [tensors_tup], ?_⟩
    have := h1 _ _ _ _ h6
    simp [arity, this]
  · intro args ss o n i hw _ hs _ h
    obtain ⟨l, rfl⟩ := hw.one
    obtain ⟨s1, s2, rfl⟩ := List.length_eq_two.1 hs
    simp only [bind_eq_ok, List.cons_append, List.nil_append, req_zero, opt_succ, opt_zero, Except.ok.injEq,
      decI_ok, decBuf_ok] at h
    obtain ⟨_, -, t, -, _, ⟨it, rfl, rfl⟩, _, ⟨buf, rfl, rfl⟩, ⟨o, n, i⟩, h6, h⟩ := h
    cases h
    rw [h2 _ _ _ _ _ _ h6]
  · intro args o n i hw h
    simp only [bind_eq_ok] at h
    obtain ⟨_, -, t, -, it, -, buf, -, ⟨o, n, i⟩, -, h⟩ := h
    cases h
    simp

section
variable [TFNum α]

theorem smaStep_fresh {E : Type} [Arith E] {p : Int} {v : E} {o n i} (h : smaStep p v none none = .ok (o, n, i)) :
    smaStep p v (some i.1) (some i.2) = .ok (o, n, i) := by
  simp only [smaStep, bind_eq_ok] at h
  obtain ⟨b, _, h⟩ := h
  cases h
  simp [smaStep]
theorem smaStep_echo {E : Type} [Arith E] {p : Int} {v : E} {it b o n i}
    (h : smaStep p v (some it) (some b) = .ok (o, n, i)) : i = (it, b) := by
  simp only [smaStep, pure_eq_ok, ok_bind] at h
  cases h
  rfl
theorem msdStep_fresh {E : Type} [Arith E] {p : Int} {v : E} {o n i} (h : msdStep p v none none = .ok (o, n, i)) :
    msdStep p v (some i.1) (some i.2) = .ok (o, n, i) := by
  simp only [msdStep, bind_eq_ok] at h
  obtain ⟨b, _, h⟩ := h
  cases h
  simp [msdStep]
theorem msdStep_echo {E : Type} [Arith E] {p : Int} {v : E} {it b o n i}
    (h : msdStep p v (some it) (some b) = .ok (o, n, i)) : i = (it, b) := by
  simp only [msdStep, pure_eq_ok, ok_bind] at h
  cases h
  rfl

theorem SMA_regular (p : Int) : Regular (SMA p : Operator α) 1 (.leaf ()) :=
  bufferOp_regular (fun _ _ _ _ h => smaStep_fresh h) (fun _ _ _ _ _ _ h => smaStep_echo h)
theorem MSD_regular (p : Int) : Regular (MSD p : Operator α) 1 (.leaf ()) :=
  bufferOp_regular (fun _ _ _ _ h => msdStep_fresh h) (fun _ _ _ _ _ _ h => msdStep_echo h)

theorem returnOp_regular (f : α → α → α) (p : Int) : Regular (returnOp f p) 1 (.leaf ()) := by
  refine StepReg.regular (m := 2) ⟨?_, ?_, ?_⟩ ?_
  · intro args o n i hw h
    simp only [bind_eq_ok] at h
    obtain ⟨_, -, t, -, it, -, buf, -, ⟨o, n, i⟩, -, h⟩ := h
    cases h
    simp [WF_tup]
  · intro args o n i hw h
    obtain ⟨l, rfl⟩ := hw.one
    simp only [bind_eq_ok, req_zero, opt_succ, opt_nil, Except.ok.injEq, decS_ok] at h
    obtain ⟨_, -, t, h0, _, rfl, _, rfl, ⟨o, n, i⟩, h6, h⟩ := h
    cases h0; cases h
    refine ⟨_, by rfl, rfl, by simp [tensors_tup], ?_⟩
    simp only [returnStep, bind_eq_ok] at h6
    obtain ⟨b, -, pv, h7, h⟩ := h6
    cases h
    simp [arity, returnStep, h7]
  · intro args ss o n i hw _ hs _ h
    obtain ⟨l, rfl⟩ := hw.one
    obtain ⟨s1, s2, rfl⟩ := List.length_eq_two.1 hs
    simp only [bind_eq_ok, List.cons_append, List.nil_append, req_zero, opt_succ, opt_zero, Except.ok.injEq,
      decI_ok, decSBuf_ok] at h
    obtain ⟨_, -, t, -, _, ⟨it, rfl, rfl⟩, _, ⟨buf, rfl, rfl⟩, ⟨o, n, i⟩, h6, h⟩ := h
    simp only [returnStep, pure_eq_ok, ok_bind, bind_eq_ok] at h6
    obtain ⟨pv, -, h6⟩ := h6
    cases h6; cases h
    rfl
  · intro args o n i hw h
    simp only [bind_eq_ok] at h
    obtain ⟨_, -, t, -, it, -, buf, -, ⟨o, n, i⟩, -, h⟩ := h
    cases h
    simp

theorem Return_regular (p : Int) : Regular (Return p : Operator α) 1 (.leaf ()) := returnOp_regular _ _
theorem LogReturn_regular (p : Int) : Regular (LogReturn p : Operator α) 1 (.leaf ()) := returnOp_regular _ _

theorem localExtremum_regular (redF : List α → α) (redI : List Int → Int) (p : Int) : Regular (localExtremum redF redI p) 1 (.leaf ()) := by
  refine StepReg.regular (m := 2) ⟨?_, ?_, ?_⟩ ?_
  · intro args o n i hw h
    simp only [bind_eq_ok] at h
    obtain ⟨_, -, l, -, h⟩ := h
    split at h <;>
    · simp only [localArgs, bind_eq_ok] at h
      obtain ⟨t, -, it, -, buf, -, ⟨o, n, i⟩, -, h⟩ := h
      cases h
      simp [WF_tup]
  · intro args o n i hw h
    obtain ⟨l, rfl⟩ := hw.one
    simp only [bind_eq_ok, req_zero, decLeaf_ok] at h
    obtain ⟨_, -, _, e, h⟩ := h
    cases e
    split at h
    · simp only [localArgs, bind_eq_ok, req_zero, opt_succ, opt_nil, Except.ok.injEq, decI_ok] at h
      obtain ⟨t, h0, _, rfl, _, rfl, ⟨o, n, i⟩, h6, h⟩ := h
      cases h0; cases h
      refine ⟨_, by rfl, rfl, by simp [tensors_tup], ?_⟩
      simp only [localExtremumStep, bind_eq_ok] at h6
      obtain ⟨b, -, h⟩ := h6
      cases h
      simp [arity, localArgs, localExtremumStep]
      rw [decIBuf_vIBuf, ok_bind]
    · rename_i hl
      simp only [localArgs, bind_eq_ok, req_zero, opt_succ, opt_nil, Except.ok.injEq, decS_ok] at h
      obtain ⟨t, h0, _, rfl, _, rfl, ⟨o, n, i⟩, h6, h⟩ := h
      cases h0; cases h
      refine ⟨_, by rfl, rfl, by simp [tensors_tup], ?_⟩
      simp only [localExtremumStep, bind_eq_ok] at h6
      obtain ⟨b, -, h⟩ := h6
      cases h
      simp [arity, localArgs, localExtremumStep]
  · intro args ss o n i hw _ hs _ h
    obtain ⟨l, rfl⟩ := hw.one
    obtain ⟨s1, s2, rfl⟩ := List.length_eq_two.1 hs
    simp only [bind_eq_ok, List.cons_append, List.nil_append, req_zero] at h
    obtain ⟨_, -, _, -, h⟩ := h
    split at h <;>
    · simp only [localArgs, bind_eq_ok, req_zero, opt_succ, opt_zero, Except.ok.injEq,
        decI_ok, decSBuf_ok, decIBuf_ok, localExtremumStep, pure_eq_ok, ok_bind] at h
      obtain ⟨t, -, _, ⟨it, rfl, rfl⟩, _, ⟨buf, rfl, rfl⟩, ⟨o, n, i⟩, h6, h⟩ := h
      cases h6; cases h
      rfl
  · intro args o n i hw h
    simp only [bind_eq_ok] at h
    obtain ⟨_, -, l, -, h⟩ := h
    split at h <;>
    · simp only [localArgs, bind_eq_ok] at h
      obtain ⟨t, -, it, -, buf, -, ⟨o, n, i⟩, -, h⟩ := h
      cases h
      simp

theorem LocalMinimum_regular (p : Int) : Regular (LocalMinimum p : Operator α) 1 (.leaf ()) :=
  localExtremum_regular _ _ _
theorem LocalMaximum_regular (p : Int) : Regular (LocalMaximum p : Operator α) 1 (.leaf ()) :=
  localExtremum_regular _ _ _

theorem globalExtremum_regular (bF : α → α → Bool) (bI : Int → Int → Bool) : Regular (globalExtremum bF bI) 1 (.leaf ()) := by
  refine StepReg.regular (m := 2) ⟨?_, ?_, ?_⟩ ?_
  · intro args o n i hw h
    simp only [bind_eq_ok] at h
    obtain ⟨_, -, l, -, h⟩ := h
    split at h <;>
    · simp only [globalArgs, bind_eq_ok] at h
      obtain ⟨t, -, it, -, buf, -, h⟩ := h
      cases h
      simp [WF_tup]
  · intro args o n i hw h
    obtain ⟨l, rfl⟩ := hw.one
    simp only [bind_eq_ok, req_zero, decLeaf_ok] at h
    obtain ⟨_, -, _, e, h⟩ := h
    cases e
    split at h <;>
    · simp only [globalArgs, bind_eq_ok, req_zero, opt_succ, opt_nil, Except.ok.injEq, decS_ok, decI_ok] at h
      obtain ⟨t, h0, _, rfl, _, rfl, h⟩ := h
      cases h0; cases h
      refine ⟨_, by rfl, rfl, by simp [tensors_tup], ?_⟩
      simp [arity, globalArgs, globalStep]
  · intro args ss o n i hw _ hs _ h
    obtain ⟨l, rfl⟩ := hw.one
    obtain ⟨s1, s2, rfl⟩ := List.length_eq_two.1 hs
    simp only [bind_eq_ok, List.cons_append, List.nil_append, req_zero] at h
    obtain ⟨_, -, _, -, h⟩ := h
    split at h <;>
    · simp only [globalArgs, bind_eq_ok, req_zero, opt_succ, opt_zero, Except.ok.injEq, decS_ok, decI_ok, decB_ok, pure_eq_ok, ok_bind] at h
      obtain ⟨t, -, _, ⟨m, rfl, rfl⟩, _, ⟨b, rfl, rfl⟩, h⟩ := h
      simp only [globalStep, Option.getD_some, Prod.mk.injEq] at h
      exact h.2.2.symm
  · intro args o n i hw h
    simp only [bind_eq_ok] at h
    obtain ⟨_, -, l, -, h⟩ := h
    split at h <;>
    · simp only [globalArgs, bind_eq_ok] at h
      obtain ⟨t, -, it, -, buf, -, h⟩ := h
      cases h
      simp

theorem GlobalMinimum_regular : Regular (GlobalMinimum : Operator α) 1 (.leaf ()) := globalExtremum_regular _ _
theorem GlobalMaximum_regular : Regular (GlobalMaximum : Operator α) 1 (.leaf ()) := globalExtremum_regular _ _

theorem windowStat_fresh {stat : List α → α} {p : Int} {v : α} {o n i}
    (h : windowStatStep stat p v none none = .ok (o, n, i)) :
    windowStatStep stat p v (some i.1) (some i.2) = .ok (o, n, i) := by
  simp only [windowStatStep, bind_eq_ok] at h
  obtain ⟨b, -, h⟩ := h
  cases h
  simp [windowStatStep]
theorem windowStat_echo {stat : List α → α} {p : Int} {v : α} {b it o n i}
    (h : windowStatStep stat p v (some b) (some it) = .ok (o, n, i)) : i = (b, it) := by
  simp only [windowStatStep, pure_eq_ok, ok_bind] at h
  cases h; rfl

theorem SharpeRatio_regular (p : Int) : Regular (SharpeRatio p : Operator α) 2 (.leaf ()) := by
  refine StepReg.regular (m := 2) ⟨?_, ?_, ?_⟩ ?_
  · intro args o n i hw h
    simp only [bind_eq_ok] at h
    obtain ⟨_, -, t, -, t', -, it, -, buf, -, ⟨o, n, i⟩, -, h⟩ := h
    cases h
    simp [WF_tup]
  · intro args o n i hw h
    obtain ⟨l, l', rfl⟩ := hw.two
    simp only [bind_eq_ok, req_zero, req_succ, opt_succ, opt_nil, Except.ok.injEq, decS_ok] at h
    obtain ⟨_, -, t, h0, t', h0', _, rfl, _, rfl, ⟨o, n, i⟩, h6, h⟩ := h
    cases h0; cases h0'; cases h
    refine ⟨_, by rfl, rfl, by simp [tensors_tup], ?_⟩
    simp [arity, windowStat_fresh h6]
  · intro args ss o n i hw _ hs _ h
    obtain ⟨l, l', rfl⟩ := hw.two
    obtain ⟨s1, s2, rfl⟩ := List.length_eq_two.1 hs
    simp only [bind_eq_ok, List.cons_append, List.nil_append, req_zero, opt_succ, opt_zero, Except.ok.injEq,
      decI_ok, decSBuf_ok] at h
    obtain ⟨_, -, t, -, t', -, _, ⟨buf, rfl, rfl⟩, _, ⟨it, rfl, rfl⟩, ⟨o, n, i⟩, h6, h⟩ := h
    cases h
    rw [windowStat_echo h6]
  · intro args o n i hw h
    simp only [bind_eq_ok] at h
    obtain ⟨_, -, t, -, t', -, it, -, buf, -, ⟨o, n, i⟩, -, h⟩ := h
    cases h
    simp

theorem Skewness_regular (p : Int) : Regular (Skewness p : Operator α) 1 (.leaf ()) := by
  refine StepReg.regular (m := 2) ⟨?_, ?_, ?_⟩ ?_
  · intro args o n i hw h
    simp only [bind_eq_ok] at h
    obtain ⟨_, -, t, -, it, -, buf, -, ⟨o, n, i⟩, -, h⟩ := h
    cases h
    simp [WF_tup]
  · intro args o n i hw h
    obtain ⟨l, rfl⟩ := hw.one
    simp only [bind_eq_ok, req_zero, opt_succ, opt_nil, Except.ok.injEq, decS_ok] at h
    obtain ⟨_, -, t, h0, _, rfl, _, rfl, ⟨o, n, i⟩, h6, h⟩ := h
    cases h0; cases h
    refine ⟨_, by rfl, rfl, by simp [tensors_tup], ?_⟩
    simp [arity, windowStat_fresh h6]
  · intro args ss o n i hw _ hs _ h
    obtain ⟨l, rfl⟩ := hw.one
    obtain ⟨s1, s2, rfl⟩ := List.length_eq_two.1 hs
    simp only [bind_eq_ok, List.cons_append, List.nil_append, req_zero, opt_succ, opt_zero, Except.ok.injEq,
      decI_ok, decSBuf_ok] at h
    obtain ⟨_, -, t, -, _, ⟨buf, rfl, rfl⟩, _, ⟨it, rfl, rfl⟩, ⟨o, n, i⟩, h6, h⟩ := h
    cases h
    rw [windowStat_echo h6]
  · intro args o n i hw h
    simp only [bind_eq_ok] at h
    obtain ⟨_, -, t, -, it, -, buf, -, ⟨o, n, i⟩, -, h⟩ := h
    cases h
    simp

theorem Drawdown_regular : Regular (Drawdown : Operator α) 1 (.tup [.leaf (), .leaf ()]) := by
  refine StepReg.regular (m := 2) ⟨?_, ?_, ?_⟩ ?_
  · intro args o n i hw h
    simp only [bind_eq_ok] at h
    obtain ⟨_, -, t, -, it, -, buf, -, h⟩ := h
    cases h
    simp [WF_tup]
  · intro args o n i hw h
    obtain ⟨l, rfl⟩ := hw.one
    simp only [bind_eq_ok, req_zero, opt_succ, opt_nil, Except.ok.injEq, decS_ok] at h
    obtain ⟨_, -, t, h0, _, rfl, _, rfl, h⟩ := h
    cases h0; cases h
    refine ⟨_, by rfl, rfl, by simp [tensors_tup], ?_⟩
    simp [arity]
  · intro args ss o n i hw _ hs _ h
    obtain ⟨l, rfl⟩ := hw.one
    obtain ⟨s1, s2, rfl⟩ := List.length_eq_two.1 hs
    simp only [bind_eq_ok, List.cons_append, List.nil_append, req_zero, opt_succ, opt_zero, Except.ok.injEq,
      decI_ok, decS_ok] at h
    obtain ⟨_, -, t, -, _, ⟨buf, rfl, rfl⟩, _, ⟨it, rfl, rfl⟩, h⟩ := h
    cases h
    rfl
  · intro args o n i hw h
    simp only [bind_eq_ok] at h
    obtain ⟨_, -, t, -, it, -, buf, -, h⟩ := h
    cases h
    simp

theorem HeikinAshi_regular : Regular (HeikinAshi : Operator α) 4 (.tup [.leaf (), .leaf (), .leaf (), .leaf ()]) := by
  refine StepReg.regular (m := 2) ⟨?_, ?_, ?_⟩ ?_
  · intro args o n i hw h
    simp only [bind_eq_ok] at h
    obtain ⟨_, -, _, -, _, -, _, -, _, -, _, -, _, -, h⟩ := h
    cases h
    simp [WF_tup]
  · intro args o n i hw h
    obtain ⟨l1, l2, l3, l4, rfl⟩ := hw.four
    simp only [bind_eq_ok, req_zero, req_succ, opt_succ, opt_nil, Except.ok.injEq, decS_ok] at h
    obtain ⟨_, -, _, h0, _, h1, _, h2, _, h3, _, rfl, _, rfl, h⟩ := h
    cases h0; cases h1; cases h2; cases h3; cases h
    refine ⟨_, by rfl, rfl, by simp [tensors_tup], ?_⟩
    simp [arity]
  · intro args ss o n i hw _ hs _ h
    obtain ⟨l1, l2, l3, l4, rfl⟩ := hw.four
    obtain ⟨s1, s2, rfl⟩ := List.length_eq_two.1 hs
    simp only [bind_eq_ok, List.cons_append, List.nil_append, req_zero, opt_succ, opt_zero, Except.ok.injEq,
      decI_ok, decS_ok] at h
    obtain ⟨_, -, _, -, _, -, _, -, _, -, _, ⟨buf, rfl, rfl⟩, _, ⟨it, rfl, rfl⟩, h⟩ := h
    cases h
    rfl
  · intro args o n i hw h
    simp only [bind_eq_ok] at h
    obtain ⟨_, -, _, -, _, -, _, -, _, -, _, -, _, -, h⟩ := h
    cases h
    simp

theorem ZeroCrossoverSignal_regular : Regular (ZeroCrossoverSignal : Operator α) 1 (.leaf ()) := by
  refine StepReg.regular (m := 2) ⟨?_, ?_, ?_⟩ ?_
  · intro args o n i hw h
    simp only [bind_eq_ok] at h
    obtain ⟨_, -, t, -, it, -, buf, -, h⟩ := h
    cases h
    simp [WF_tup]
  · intro args o n i hw h
    obtain ⟨l, rfl⟩ := hw.one
    simp only [bind_eq_ok, req_zero, opt_succ, opt_nil, Except.ok.injEq, decF_ok] at h
    obtain ⟨_, -, t, h0, _, rfl, _, rfl, h⟩ := h
    cases h0; cases h
    refine ⟨_, by rfl, rfl, by simp [tensors_tup], ?_⟩
    simp [arity]
  · intro args ss o n i hw _ hs _ h
    obtain ⟨l, rfl⟩ := hw.one
    obtain ⟨s1, s2, rfl⟩ := List.length_eq_two.1 hs
    simp only [bind_eq_ok, List.cons_append, List.nil_append, req_zero, opt_succ, opt_zero, Except.ok.injEq,
      decB_ok, decFs_ok] at h
    obtain ⟨_, -, t, -, _, ⟨buf, rfl, rfl⟩, _, ⟨it, rfl, rfl⟩, h⟩ := h
    cases h
    rfl
  · intro args o n i hw h
    simp only [bind_eq_ok] at h
    obtain ⟨_, -, t, -, it, -, buf, -, h⟩ := h
    cases h
    simp

theorem Correlation_regular (p : Int) : Regular (Correlation p : Operator α) 2 (.leaf ()) := by
  refine StepReg.regular (m := 3) ⟨?_, ?_, ?_⟩ ?_
  · intro args o n i hw h
    simp only [bind_eq_ok] at h
    obtain ⟨_, -, _, -, _, -, _, -, _, -, _, -, ⟨o, n, i⟩, -, h⟩ := h
    cases h
    simp [WF_tup]
  · intro args o n i hw h
    obtain ⟨l, l', rfl⟩ := hw.two
    simp only [bind_eq_ok, req_zero, req_succ, opt_succ, opt_nil, Except.ok.injEq, decF_ok] at h
    obtain ⟨_, -, t, h0, t', h0', _, rfl, _, rfl, _, rfl, ⟨o, n, i⟩, h6, h⟩ := h
    cases h0; cases h0'; cases h
    refine ⟨_, by rfl, rfl, by simp [tensors_tup], ?_⟩
    simp only [correlationStep, bind_eq_ok] at h6
    obtain ⟨b, h7, b', h8, c, h9, h⟩ := h6
    cases h
    have h9' : correlationOrZero p 0 (roll t.val b) (roll t'.val b') = .ok o := h9
    simp [arity, correlationStep, h9']
  · intro args ss o n i hw _ hs _ h
    obtain ⟨l, l', rfl⟩ := hw.two
    obtain ⟨s1, s2, s3, rfl⟩ := List.length_eq_three.1 hs
    simp only [bind_eq_ok, List.cons_append, List.nil_append, req_zero, opt_succ, opt_zero, Except.ok.injEq,
      decI_ok, decBuf_ok, correlationStep, pure_eq_ok, ok_bind] at h
    obtain ⟨_, -, t, -, t', -, _, ⟨_, rfl, rfl⟩, _, ⟨_, rfl, rfl⟩, _, ⟨_, rfl, rfl⟩, ⟨o, n, i⟩, h6, h⟩ := h
    simp only [bind_eq_ok] at h6
    obtain ⟨c, -, h6⟩ := h6
    cases h6; cases h
    rfl
  · intro args o n i hw h
    simp only [bind_eq_ok] at h
    obtain ⟨_, -, _, -, _, -, _, -, _, -, _, -, ⟨o, n, i⟩, -, h⟩ := h
    cases h
    simp

end
end TS
