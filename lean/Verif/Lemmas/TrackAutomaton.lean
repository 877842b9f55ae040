import Verif.Lemmas.Stateless
import Verif.Spec.Automaton
/-
Automata: one step, and automata as functions of the history.
-/
namespace TS
open PyVal
variable {α A : Type}

theorem tfCase_find {ts : List (Transition α)} {g : Transition α → Bool} {o : Transition α → Val α} {q : Int} {d : Val α} :
    tfCase (ts.map fun t => (decide (q = t.source) && g t, (o t, t.target))) (d, q) =
      match ts.find? fun t => decide (q = t.source) && g t with
      | some t => (o t, t.target)
      | none => (d, q) := by
  induction ts with
  | nil => rfl
  | cons t ts ih =>
    simp only [List.map_cons, tfCase, List.find?_cons]
    cases decide (q = t.source) && g t
    · simpa using ih
    · rfl

/-- What a successful step of an automaton does. -/
theorem automaton_step {ts : List (Transition α)} {q : Int} {d : List (Val α) → Res (Val α)} {x : Val α}
    {st : Option (Val α)} {o n i : Val α} (h : (Automaton ts q d).forwardStep x st = .ok (o, n, i)) :
    ∃ args prev, asSeq x = .ok args ∧ (∀ s ∈ st, s = vI prev) ∧ (st = none → prev = q) ∧ i = vI prev ∧ Moves ts d args prev o n := by
  have key : ∀ (prev : Int) (args : List (Val α)), (do
      let cases ← ts.mapM fun t => do
        let g ← t.guard args
        let out ← t.action args
        pure (decide (prev = t.source) && g, (out, t.target))
      let defValue ← d args
      let ty ← toType defValue
      let tys ← cases.mapM fun c => toType c.2.1
      if cases.isEmpty then .error .valueError
      else if tys.any (· ≠ ty) then .error .structure
      else
        let (action, next) := tfCase cases (defValue, prev)
        .ok (action, vI next, vI prev) : Res (Step α)) = .ok (o, n, i) → i = vI prev ∧ Moves ts d args prev o n := by
    intro prev args h
    simp only [bind_eq_ok] at h
    obtain ⟨cs, hcs, dv, hdv, ty, hty, tys, htys, h⟩ := h
    by_cases hemp : cs.isEmpty = true
    · rw [if_pos hemp] at h; cases h
    rw [if_neg hemp] at h
    by_cases hany : tys.any (· ≠ ty) = true
    · rw [if_pos hany] at h; cases h
    rw [if_neg hany] at h
    simp only [Except.ok.injEq, Prod.mk.injEq] at h
    obtain ⟨rfl, rfl, rfl⟩ := h
    refine ⟨rfl, ?_⟩
    clear htys hemp hany
    rw [mapM_eq_ok_iff] at hcs
    have : ∀ (pre : List (Transition α)) (rest : List (Transition α)) (cs : List (Bool × Val α × Int)), ts = pre ++ rest →
        (∀ u ∈ pre, ¬ Enabled args prev u) →
        List.Forall₂ (fun t c => (do let g ← t.guard args; let out ← t.action args; pure (decide (prev = t.source) && g, (out, t.target)) : Res _) = .ok c) rest cs →
        Moves ts d args prev (tfCase cs (dv, prev)).1 (vI (tfCase cs (dv, prev)).2) := by
      intro pre rest
      induction rest generalizing pre with
      | nil =>
        intro cs e hpre hf
        cases hf
        exact .inr ⟨by rw [e]; simpa using hpre, hdv, rfl⟩
      | cons t rest ih =>
        intro cs e hpre hf
        cases hf with
        | @cons _ c _ cs h1 h2 =>
          simp only [bind_eq_ok] at h1
          obtain ⟨g, hg, out, hout, h1⟩ := h1
          cases h1
          by_cases hb : (decide (prev = t.source) && g) = true
          · rw [tfCase, if_pos hb]
            simp only [Bool.and_eq_true, decide_eq_true_eq] at hb
            exact .inl ⟨pre, t, rest, e, ⟨hb.1.symm, by rw [hg, hb.2]⟩, hpre, hout, rfl⟩
          · rw [tfCase, if_neg hb]
            refine ih (pre ++ [t]) _ (by simp [e]) ?_ h2
            intro u hu
            simp only [List.mem_append, List.mem_singleton] at hu
            rcases hu with hu | rfl
            · exact hpre u hu
            · rintro ⟨h3, h4⟩
              rw [hg] at h4
              cases h4
              exact hb (by simp [h3])
    exact this [] ts cs rfl (by simp) hcs
  cases st with
  | none =>
    simp only [Automaton, metaStreamable, automatonStep] at h
    rw [pure_eq_ok, ok_bind, bind_eq_ok] at h
    obtain ⟨args, ha, h⟩ := h
    obtain ⟨h1, h2⟩ := key q args h
    exact ⟨args, q, ha, by simp, by simp, h1, h2⟩
  | some s =>
    simp only [Automaton, metaStreamable, automatonStep] at h
    rw [bind_eq_ok] at h
    obtain ⟨prev, hp, h⟩ := h
    rw [bind_eq_ok] at h
    obtain ⟨args, ha, h⟩ := h
    obtain ⟨h1, h2⟩ := key prev args h
    refine ⟨args, prev, ha, ?_, by simp, h1, h2⟩
    rintro _ ⟨⟩
    exact decI_ok.1 hp

/-- When the functions of the automaton succeed with results of one type, so does the step. -/
theorem automaton_total {ts : List (Transition α)} (hts : ts ≠ []) {q : Int} {d : List (Val α) → Res (Val α)} {args : List (Val α)} {x : Val α}
    (hx : asSeq x = .ok args) {g : Transition α → Bool} {a : Transition α → Val α} {dv : Val α} {ty : PyVal DType}
    (hg : ∀ t ∈ ts, t.guard args = .ok (g t)) (ha : ∀ t ∈ ts, t.action args = .ok (a t) ∧ (a t).WF ∧ HasType (a t) ty)
    (hd : d args = .ok dv ∧ dv.WF ∧ HasType dv ty) (st : Option Int) :
    (Automaton ts q d).forwardStep x (st.map vI) =
      (match ts.find? fun t => decide (st.getD q = t.source) && g t with
      | some t => .ok (a t, vI t.target, vI (st.getD q))
      | none => .ok (dv, vI (st.getD q), vI (st.getD q))) := by
  have h1 : ∀ p : Int, (ts.mapM fun t => (do
      let g ← t.guard args
      let out ← t.action args
      pure (decide (p = t.source) && g, (out, t.target)) : Res _)) = .ok (ts.map fun t => (decide (p = t.source) && g t, (a t, t.target))) := by
    intro p
    rw [mapM_eq_ok_iff, ← List.map_id ts, List.map_map]
    exact Forall₂.of_map fun t ht => by simp [hg t (by simpa using ht), ha t (by simpa using ht)]
  have h2 : ∀ p : Int, ((ts.map fun t => (decide (p = t.source) && g t, (a t, t.target))).mapM fun c => toType c.2.1) = .ok (ts.map fun _ => ty) := by
    intro p
    rw [mapM_eq_ok_iff]
    exact Forall₂.of_map fun t ht => (toType_ok (ha t ht).2.1).2 (ha t ht).2.2
  have h3 : toType dv = .ok ty := (toType_ok hd.2.1).2 hd.2.2
  have key : ∀ p : Int, (do
      let cases ← ts.mapM fun t => do
        let g ← t.guard args
        let out ← t.action args
        pure (decide (p = t.source) && g, (out, t.target))
      let defValue ← d args
      let ty ← toType defValue
      let tys ← cases.mapM fun c => toType c.2.1
      if cases.isEmpty then .error .valueError
      else if tys.any (· ≠ ty) then .error .structure
      else
        let (action, next) := tfCase cases (defValue, p)
        .ok (action, vI next, vI p) : Res (Step α)) =
      (match ts.find? fun t => decide (p = t.source) && g t with
      | some t => .ok (a t, vI t.target, vI p)
      | none => .ok (dv, vI p, vI p)) := by
    intro p
    rw [h1 p, ok_bind, hd.1, ok_bind, h3, ok_bind, h2 p, ok_bind, if_neg (by simpa using hts), if_neg (by simp)]
    rw [tfCase_find]
    cases ts.find? fun t => decide (p = t.source) && g t <;> rfl
  cases st with
  | none =>
    simp only [Automaton, metaStreamable, automatonStep, Option.map_none, Option.getD_none]
    rw [pure_eq_ok, ok_bind, hx, ok_bind]
    exact key q
  | some p =>
    simp only [Automaton, metaStreamable, automatonStep, Option.map_some, Option.getD_some, decI_vI]
    rw [ok_bind, hx, ok_bind]
    exact key p

end TS
