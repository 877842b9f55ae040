import Verif.Lemmas.Streams
import Verif.Lemmas.Shipped
/-
When a call fails: if the steps of an operator fail on the histories outside `V`, a successful call has stayed in `V`.
-/
namespace TS
open PyVal
variable {α A : Type} {op : Operator α} {V : List A → Prop} {enc : A → Val α} {out st : List A → Val α}

theorem Tracks.steps_sound (T : Tracks op V enc out st)
    (hfail : ∀ h x, (h = [] ∨ V h) → ¬ V (h ++ [x]) → ∀ r, op.forwardStep (enc x) (some (st h)) ≠ .ok r) {sty : PyVal DType} {xs : List A} {os : List (Val α)} {sf : Val α} :
    ∀ {h : List A}, (h = [] ∨ V h) → stepsTyped op sty (xs.map enc) (st h) = .ok (os, sf) → ∀ k, 0 < k → k ≤ xs.length → V (h ++ xs.take k) := by
  induction xs generalizing os with
  | nil => intro h _ _ k h1 h2; simp at h2; omega
  | cons x xs ih =>
    intro h h0 hs k h1 h2
    obtain ⟨o, n, i, os', e1, -, e3, -⟩ := stepsTyped_cons_ok.1 hs
    have hv : V (h ++ [x]) := by
      by_contra hv
      exact hfail h x h0 hv _ e1
    rw [T.next h x hv] at e1
    cases e1
    match k with
    | 1 => simpa using hv
    | k + 2 =>
      have := ih (.inr hv) e3 (k + 1) (by omega) (by simpa using h2)
      simpa using this

/-- A successful fresh call over a series has stayed in `V` at every prefix. -/
theorem Tracks.sound (T : Tracks op V enc out st) {D E : PyVal Unit → Prop} (hlib : LibOK op D E)
    (hfirst : ∀ x, ¬ V [x] → ∀ r, op.forwardStep (enc x) none ≠ .ok r)
    (hfail : ∀ h x, (h = [] ∨ V h) → ¬ V (h ++ [x]) → ∀ r, op.forwardStep (enc x) (some (st h)) ≠ .ok r) {v : Val α} {xs : List A} (hx : xs ≠ [])
    (hw : v.WF) (hl : flatten v ≠ []) (hin : IsSeries v (xs.map enc)) {r : Step α} (h : call op v none = .ok r) :
    ∀ k, 0 < k → k ≤ xs.length → V (xs.take k) := by
  rw [call_eq true hw hin.tensors (by simp)] at h
  obtain ⟨outs, sf, s0⟩ := r
  obtain ⟨o0, n0, i0, os, sty, oty, h1, h2, -, -, h5, -, -⟩ := callStreamed_sound hlib.sane hlib.uniform hw hl hin (by simpa using hx) (by simp) h
  obtain ⟨x, t, rfl⟩ := List.exists_cons_of_ne_nil hx
  simp only [List.map_cons, List.head_cons] at h1
  have hv : V [x] := by
    by_contra hv
    exact hfirst x hv _ h1
  rw [T.first x hv] at h1
  cases h1
  simp only [Option.getD_none] at h2
  subst h2
  intro k hk1 hk2
  have := T.steps_sound hfail (.inl rfl) h5 k hk1 hk2
  simpa using this

end TS
