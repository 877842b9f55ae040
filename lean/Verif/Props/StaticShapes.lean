import Verif.Lemmas.StaticShapes
import Verif.Props.Progress
/-
C81: shapes of states; which periods the operators accept.
-/
namespace TS
open PyVal
variable {α : Type}
set_option linter.unusedSimpArgs false

/-- **C81, static shapes only restrict**: what can be streamed when all shapes are known while the graph is built gives the same outputs and
states when they are not. -/
theorem C81_static_sound {op : Operator α} {inputs : Val α} {st : Option (Val α)} {r : Step α} (h : callStatic op inputs st = .ok r) :
    call op inputs st = .ok r := by
  cases st with
  | none =>
    simp only [callStatic, call, bind_eq_ok, if_true, pure_eq_ok, ok_bind] at h ⊢
    obtain ⟨x, h1, h3⟩ := h
    exact ⟨x, h1, callStreamedStatic_sound h3⟩
  | some s =>
    simp only [callStatic, call, bind_eq_ok, if_true, pure_eq_ok, ok_bind] at h ⊢
    obtain ⟨x, h1, st', h2, h3⟩ := h
    exact ⟨x, h1, st', h2, callStreamedStatic_sound h3⟩

/-- **C81 The shapes of a state must not change**: with shapes known while the graph is built, streaming succeeds exactly when streaming with
unknown shapes does and every state on the way has the shapes of the initial state. -/
theorem C81_static_exact {op : Operator α} (hsane : op.Sane) (hu : op.Uniform) {inputs : Val α} (hw : inputs.WF) {xs : List (Val α)} (hin : IsSeries inputs xs)
    {st : Option (Val α)} (hst : ∀ s ∈ st, s.WF) (outs sf s0 : Val α) :
    callStatic op inputs st = .ok (outs, sf, s0) ↔
    call op inputs st = .ok (outs, sf, s0) ∧ ∀ tr, stepAll op xs s0 = .ok tr → ∀ e ∈ tr, SameShapes e.2 s0 := by
  have main : call op inputs st = .ok (outs, sf, s0) → (callStatic op inputs st = .ok (outs, sf, s0) ↔
      ∀ tr, stepAll op xs s0 = .ok tr → ∀ e ∈ tr, SameShapes e.2 s0) := by
    intro h
    obtain ⟨hti, hts⟩ := call_ok_tensors hw hst h
    obtain ⟨hl, x, xs', hin', -⟩ := (C01_streaming_eq_stepping hsane hu hw hst _ _ _).1 h
    obtain rfl := hin.det hl hin'
    rw [call_eq true hw hti fun s hs => ⟨hst s hs, hts s hs⟩, if_pos rfl] at h
    obtain ⟨o0, n0, i0, os, sty, oty, h0, rfl, hs0, -, -⟩ := callStreamed_sound hsane hu hw hl hin (by simp) hst h
    have hsw : (st.getD i0).WF := by
      cases st with
      | none => exact (hsane _ _ _ _ _ (hin.mem_WF hw x (by simp)) hst h0).2.2
      | some s => exact hst s rfl
    rw [callStatic_eq hw hti fun s hs => ⟨hst s hs, hts s hs⟩, callStreamedStatic_eq hw hl hin (by simp)]
    rw [callStreamed_eq hw hl hin (by simp)] at h
    simp only [h0, ok_bind, bind_eq_ok] at h ⊢
    have key := streamLoopStatic_ok hsane hw hti (x :: xs') 0 (fun j hj => by simpa using hin.slice j hj) (st.getD i0) hsw ((toType_ok hsw).2 hs0)
    obtain ⟨arr, h2, ⟨s1, a1⟩, h3, h4⟩ := h
    constructor
    · rintro ⟨arr', h2', ⟨s1', a1'⟩, h3', h4'⟩
      exact ((key _ _ _).1 h3').2
    · intro hk
      exact ⟨arr, h2, (s1, a1), (key _ _ _).2 ⟨h3, hk⟩, h4⟩
  constructor
  · intro h
    have h' := C81_static_sound h
    exact ⟨h', (main h').1 h⟩
  · rintro ⟨h, h'⟩
    exact (main h).2 h'

/-- Operators that never fail on a signature keep the shapes of their state. -/
theorem callStatic_steady {op : Operator α} (hsane : op.Sane) (hu : op.Uniform) {X O S} (h : op.Steady X O S) {v : Val α} {n : Nat} (hv : SeriesOf X v n) :
    callStatic op v none = call op v none ∧ ∃ r, call op v none = .ok r := by
  obtain ⟨I, hI, hf, hn⟩ := h
  obtain ⟨hw, hl, xs, hin, hx, rfl, hX⟩ := hv
  obtain ⟨z, sf, s0, os, h1, -, -, -, -, hs0⟩ := steady_call hI hf hn hw hl hin hx hX none (by simp)
  refine ⟨?_, _, h1⟩
  rw [h1, C81_static_exact hsane hu hw hin (by simp)]
  refine ⟨h1, ?_⟩
  have key : ∀ (xs : List (Val α)) (s : Val α), (∀ x ∈ xs, x.WF ∧ HasSig x X) → I s → ∀ tr, stepAll op xs s = .ok tr → ∀ e ∈ tr, I e.2 := by
    intro xs
    induction xs with
    | nil => intro s _ _ tr htr; cases htr; simp
    | cons x xs ih =>
      intro s hx hs tr htr e he
      obtain ⟨o, n, i, tr', b1, b2, rfl⟩ := stepAll_cons_ok.1 htr
      obtain ⟨o', n', i', c1, -, c2, -⟩ := hn x s (hx x (by simp)).1 (hx x (by simp)).2 hs
      rw [call_eq false (hx x (by simp)).1 (hx x (by simp)).2.tensors (by simpa using ⟨(hI s hs).1, (hI s hs).2.tensors⟩)] at b1
      simp only [Bool.false_eq_true, if_false, c1] at b1
      cases b1
      rcases List.mem_cons.1 he with rfl | he
      · exact c2
      · exact ih n (fun y hy => hx y (by simp [hy])) c2 _ b2 e he
  intro tr htr e he
  exact (hI _ (key xs s0 (fun x hx => ⟨hin.mem_WF hw x hx, hX x hx⟩) hs0 tr htr e he)).2.sameShapes (hI _ hs0).2

/-- **C81, well-typed operators keep the shapes of their state**: knowing the shapes makes no difference. -/
theorem C81_typed [TFNum α] {op : Operator α} {X O S} (h : Typed op X O S) {v : Val α} {n : Nat} (hv : SeriesOf X v n) :
    callStatic op v none = call op v none ∧ ∃ r, call op v none = .ok r := callStatic_steady h.regular.1 h.regular.2 h.steady hv
example := C81_typed (α := XR ℚ) (C56_momentum_typed (p := 2) (by norm_num) []) (v := series [4, 3, 2]) (n := 3)
  ⟨(nums_ok _).1, (nums_ok _).2.1, _, (nums_ok _).2.2, by simp, rfl, by simp only [List.mem_map]; rintro _ ⟨a, -, rfl⟩; rfl⟩
example := C81_static_exact (op := SMA (0 : Int)) (Lib.basic (Basic.sma (α := XR ℚ) 0)).ok.sane (Lib.basic (Basic.sma (α := XR ℚ) 0)).ok.uniform (nums_ok [XR.fin (4 : ℚ), XR.fin (3 : ℚ)]).1
  (nums_ok [XR.fin (4 : ℚ), XR.fin (3 : ℚ)]).2.2 (st := none) (by simp)

/-- The state of SMA(0) grows from no sample to one: it is rejected when the shapes are known, and gives quotients by 0 when they are not. -/
example : callStatic (SMA 0) (series [1, 2]) none = .error .valueError := by decide +kernel
example : (call (SMA 0) (series [1, 2]) none).isOk = true := by decide +kernel
example : callStatic (SMA 2) (series [1, 2, 4]) none = call (SMA 2) (series [1, 2, 4]) none := by decide +kernel
/-- A state with a buffer of another length is accepted, and kept. -/
example : (callStatic (SMA 2) (series [1, 2, 4]) (some (.tup [vI 1, vSBuf [.fin 1, .fin 1, .fin 1]]))).isOk = true := by decide +kernel
example := C81_static_sound (op := SMA 2) (inputs := series [1, 2, 4]) (st := none) (r := (series [0, (3/2 : ℚ), 3], .tup [vI 3, vSBuf [.fin 4, .fin 2]], .tup [vI 0, vSBuf [.fin 0, .fin 0]])) (by decide +kernel)
end TS
