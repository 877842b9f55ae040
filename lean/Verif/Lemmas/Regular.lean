import Verif.Lemmas.Decode
/-
Regularity of operators given by a `step(*inputs, *state)`: what has to be checked about the step.
-/
namespace TS
open PyVal
variable {α : Type}

/-- the positional arguments made of the state -/
def stArgs : Option (Val α) → List (Val α)
  | none => []
  | some s => unpackArgs s

/-- `a` tensors -/
def ArgsOK (a : Nat) (args : List (Val α)) : Prop := args.length = a ∧ ∀ x ∈ args, ∃ l, x = .leaf l

/-- A step with `a` inputs and a state that is a tuple of `m` values. -/
structure StepReg (step : List (Val α) → Res (Step α)) (a m : Nat) : Prop where
  wf : ∀ args o n i, (∀ x ∈ args, x.WF) → step args = .ok (o, n, i) → o.WF ∧ n.WF ∧ i.WF
  fresh : ∀ args o n i, ArgsOK a args → step args = .ok (o, n, i) →
    ∃ is, is.length = m ∧ i = .tup is ∧ Tensors i ∧ step (args ++ is) = .ok (o, n, i)
  echo : ∀ args ss o n i, ArgsOK a args → (∀ x ∈ ss, x.WF) → ss.length = m →
    (∃ args' o' n' is', ArgsOK a args' ∧ step args' = .ok (o', n', .tup is') ∧ ss.map skel = is'.map skel) →
    step (args ++ ss) = .ok (o, n, i) → i = .tup ss

/-- The structure of the outputs is the constant `sk`. -/
def StepOut (step : List (Val α) → Res (Step α)) (sk : PyVal Unit) : Prop :=
  ∀ args o n i, (∀ x ∈ args, x.WF) → step args = .ok (o, n, i) → o.skel = sk

theorem ArgsOK.wf {a : Nat} {args : List (Val α)} (h : ArgsOK a args) : ∀ x ∈ args, x.WF := by
  intro x hx
  obtain ⟨l, rfl⟩ := h.2 x hx
  simp

theorem unpackArgs_WF {v : Val α} (hv : v.WF) : ∀ x ∈ unpackArgs v, x.WF := by
  intro x hx
  cases v with
  | leaf l => simp [unpackArgs] at hx; rw [hx]; exact hv
  | node k xs =>
    cases k <;> simp only [unpackArgs] at hx
    · exact ((WF_node _ _).1 hv).2 x hx
    · exact ((WF_node _ _).1 hv).2 x hx
    · simp at hx; rw [hx]; exact hv

theorem stArgs_WF {st : Option (Val α)} (hs : ∀ s ∈ st, s.WF) : ∀ x ∈ stArgs st, x.WF := by
  cases st with
  | none => simp [stArgs]
  | some s => exact unpackArgs_WF (hs s rfl)

theorem streamable_fs (step : List (Val α) → Res (Step α)) (x : Val α) (st : Option (Val α)) :
    (streamable step).forwardStep x st = step (unpackArgs x ++ stArgs st) := by
  cases st <;> rfl

theorem args_WF {x : Val α} {st : Option (Val α)} (hx : x.WF) (hs : ∀ s ∈ st, s.WF) :
    ∀ y ∈ unpackArgs x ++ stArgs st, y.WF := by
  intro y hy
  rcases List.mem_append.1 hy with h | h
  · exact unpackArgs_WF hx y h
  · exact stArgs_WF hs y h

/-- Operators whose outputs have one fixed structure are uniform. -/
theorem uniform_of_const {op : Operator α} (sk : PyVal Unit)
    (h : ∀ x st o n i, x.WF → (∀ s ∈ st, s.WF) → op.forwardStep x st = .ok (o, n, i) → o.skel = sk)
    (hs : op.Sane) : op.Uniform := by
  intro x x' st st' o s i o' s' i' hx hst h1 h2 hsk hsk'
  have hw := hs x st o s i hx hst h1
  rw [h x st o s i hx hst h1]
  refine h x' (some st') o' s' i' ((WF_of_skel_eq hsk).1 hx) ?_ h2
  intro t ht
  cases ht
  refine (WF_of_skel_eq hsk').1 ?_
  cases st with
  | none => exact hw.2.2
  | some s => exact hst s rfl

/-- The structure of the outputs is a constant. -/
def Operator.OutSkel (op : Operator α) (sk : PyVal Unit) : Prop :=
  ∀ x st o n i, x.WF → (∀ s ∈ st, s.WF) → op.forwardStep x st = .ok (o, n, i) → o.skel = sk

theorem StepOut.outSkel {step : List (Val α) → Res (Step α)} {sk : PyVal Unit} (h : StepOut step sk) :
    (streamable step).OutSkel sk := by
  intro x st o n i hx hst hh
  rw [streamable_fs] at hh
  exact h _ _ _ _ (args_WF hx hst) hh

namespace StepReg
variable {step : List (Val α) → Res (Step α)} {a m : Nat} {sk : PyVal Unit}

theorem sane (h : StepReg step a m) : (streamable step).Sane := by
  intro x st o s i hx hst hh
  rw [streamable_fs] at hh
  exact h.wf _ _ _ _ (args_WF hx hst) hh

theorem uniform (h : StepReg step a m) (ho : StepOut step sk) : (streamable step).Uniform :=
  uniform_of_const sk ho.outSkel h.sane

theorem contract (h : StepReg step a m) : (streamable step).Contract (TensorArgs a) where
  fresh := by
    intro x o n i hx hD hh
    rw [streamable_fs] at hh ⊢
    simp only [stArgs, List.append_nil] at hh
    obtain ⟨is, _, rfl, _, h3⟩ := h.fresh _ _ _ _ hD hh
    exact h3
  tensors := by
    intro x o n i hx hD hh
    rw [streamable_fs] at hh
    simp only [stArgs, List.append_nil] at hh
    obtain ⟨is, _, _, h3, _⟩ := h.fresh _ _ _ _ hD hh
    exact h3
  echo := by
    intro x x' s o n i o' n' i' hx hD hx' hD' hh' hsk hh
    rw [streamable_fs] at hh hh'
    simp only [stArgs, List.append_nil] at hh'
    have hi := h.wf _ _ _ _ (unpackArgs_WF hx') hh'
    obtain ⟨is, h1, rfl, h3, h4⟩ := h.fresh _ _ _ _ hD' hh'
    have hsw : s.WF := (WF_of_skel_eq hsk).2 hi.2.2
    cases s with
    | leaf l => simp at hsk
    | node k ss =>
      simp only [skel_node, PyVal.node.injEq] at hsk
      obtain ⟨rfl, hsk⟩ := hsk
      have hl : ss.length = m := by simpa [h1] using congrArg List.length hsk
      exact h.echo _ ss _ _ _ hD (unpackArgs_WF (v := .node .tuple ss) hsw) hl
        ⟨_, _, _, is, hD', hh', hsk⟩ hh

end StepReg

theorem WF_tup {xs : List (Val α)} : (PyVal.tup xs).WF ↔ ∀ x ∈ xs, x.WF := by
  rw [PyVal.tup, WF_node]; simp

theorem tensors_tup {xs : List (Val α)} : Tensors (.tup xs) ↔ ∀ x ∈ xs, Tensors x := by
  simp only [Tensors, flatten_node, List.mem_flatMap]
  exact ⟨fun h x hx l hl => h l ⟨x, hx, hl⟩, fun h l ⟨x, hx, hl⟩ => h x hx l hl⟩

@[simp] theorem tensors_f (t : Tensor α) : Tensors (.leaf (.f t) : Val α) := by simp [Tensors]
@[simp] theorem tensors_i (t : Tensor Int) : Tensors (.leaf (.i t) : Val α) := by simp [Tensors]
@[simp] theorem tensors_b (t : Tensor Bool) : Tensors (.leaf (.b t) : Val α) := by simp [Tensors]

namespace Operator.Contract
variable {op : Operator α} {D : Val α → Prop}

theorem call_fresh (h : op.Contract D) (hs : op.Sane) {x o n i : Val α} (hx : x.WF) (hD : D x)
    (hc : call op x none false = .ok (o, n, i)) : call op x (some i) false = .ok (o, n, i) := by
  obtain ⟨h1, -, h3⟩ := (call_step_ok hx (by simp)).1 hc
  have hw := hs x none o n i hx (by simp) h3
  exact (call_step_ok hx (by rintro _ ⟨⟩; exact hw.2.2)).2
    ⟨h1, by rintro _ ⟨⟩; exact h.tensors x o n i hx hD h3, h.fresh x o n i hx hD h3⟩

theorem call_tensors (h : op.Contract D) {x o n i : Val α} (hx : x.WF) (hD : D x)
    (hc : call op x none false = .ok (o, n, i)) : Tensors i := by
  obtain ⟨h1, -, h3⟩ := (call_step_ok hx (by simp)).1 hc
  exact h.tensors x o n i hx hD h3

theorem call_echo (h : op.Contract D) (hs : op.Sane) {x x' s o n i o' n' i' : Val α} (hx : x.WF) (hD : D x)
    (hx' : x'.WF) (hD' : D x') (hc' : call op x' none false = .ok (o', n', i')) (hsk : s.skel = i'.skel)
    (hc : call op x (some s) false = .ok (o, n, i)) : i = s := by
  obtain ⟨-, -, h3'⟩ := (call_step_ok hx' (by simp)).1 hc'
  have hw := hs x' none o' n' i' hx' (by simp) h3'
  obtain ⟨-, -, h3⟩ := (call_step_ok hx (by rintro _ ⟨⟩; exact (WF_of_skel_eq hsk).2 hw.2.2)).1 hc
  exact h.echo x x' s o n i o' n' i' hx hD hx' hD' h3' hsk h3

end Operator.Contract

theorem Operator.Sane.call {op : Operator α} (h : op.Sane) {x : Val α} {st : Option (Val α)} {o n i : Val α}
    (hx : x.WF) (hs : ∀ s ∈ st, s.WF) (hc : TS.call op x st false = .ok (o, n, i)) : o.WF ∧ n.WF ∧ i.WF :=
  h x st o n i hx hs ((call_step_ok hx hs).1 hc).2.2

theorem Operator.OutSkel.call {op : Operator α} {sk : PyVal Unit} (h : op.OutSkel sk) {x : Val α}
    {st : Option (Val α)} {o n i : Val α} (hx : x.WF) (hs : ∀ s ∈ st, s.WF)
    (hc : TS.call op x st false = .ok (o, n, i)) : o.skel = sk :=
  h x st o n i hx hs ((call_step_ok hx hs).1 hc).2.2

end TS
