import Verif.Lemmas.TrackAverages
import Verif.Lemmas.TrackCommon
import Verif.Lemmas.TrackMarket
import Verif.Lemmas.TrackMarket2
import Verif.Lemmas.GradedTyped
import Verif.Model.Int32
import Verif.Spec.Overflow
/-
Operators with int32 counters.
-/
namespace TS
open PyVal
variable {α : Type}

@[simp] theorem wrap32_wrap32 (n : Int) : wrap32 (wrap32 n) = wrap32 n := by simp [wrap32]
@[simp] theorem wrap32_add_one (n : Int) : wrap32 (wrap32 n + 1) = wrap32 (n + 1) := by simp [wrap32]
@[simp] theorem wrap32_zero : wrap32 0 = 0 := by decide
@[simp] theorem wrap32_one : wrap32 1 = 1 := by decide

theorem wrap32_of_small {n : Int} (h : n.natAbs < 2 ^ 31) : wrap32 n = n := by
  rw [wrap32, Int.bmod_eq_of_le] <;> omega

/-- the counter at sample `i` -/
theorem wrap32_nat (i : Nat) : wrap32 i = if i % 2 ^ 32 < 2 ^ 31 then ((i % 2 ^ 32 : Nat) : Int) else ((i % 2 ^ 32 : Nat) : Int) - 2 ^ 32 := by
  rw [wrap32, Int.bmod_def]
  split <;> split <;> omega

theorem wrap32_lt {c i : Nat} : wrap32 i < c ↔ Cold c i := by
  rw [wrap32_nat, Cold]
  split <;> omega

@[simp] theorem wrapVal_leaf (l : Leaf α) : wrapVal (.leaf l) = .leaf l.wrap32 := rfl
@[simp] theorem wrapVal_node (k : Kind) (xs : List (Val α)) : wrapVal (.node k xs) = .node k (xs.map wrapVal) := by
  rw [wrapVal, PyVal.map, maps_eq]; rfl
@[simp] theorem wrapVal_tup (xs : List (Val α)) : wrapVal (.tup xs) = .tup (xs.map wrapVal) := wrapVal_node _ _
@[simp] theorem Leaf.wrap32_f (t : Tensor α) : (Leaf.f t).wrap32 = .f t := rfl
@[simp] theorem Leaf.wrap32_b (t : Tensor Bool) : (Leaf.b t : Leaf α).wrap32 = .b t := rfl
@[simp] theorem Leaf.wrap32_i (t : Tensor Int) : (Leaf.i t : Leaf α).wrap32 = .i ⟨t.shape, fun c => TS.wrap32 (t.val c)⟩ := rfl
@[simp] theorem wrapVal_vI (n : Int) : wrapVal (vI n : Val α) = vI (wrap32 n) := rfl
@[simp] theorem wrapVal_vSBuf (l : List α) : wrapVal (vSBuf l) = vSBuf l := rfl

theorem int32_step {op : Operator α} {x : Val α} {st : Option (Val α)} {o n i : Val α} (h : op.forwardStep x st = .ok (o, n, i)) :
    op.int32.forwardStep x st = .ok (wrapVal o, wrapVal n, wrapVal i) := by simp [Operator.int32, h]

theorem wrapVal_of_small {v : Val α} (h : Holds (fun n => n.natAbs < 2 ^ 31) v) : wrapVal v = v := by
  rw [wrapVal]
  refine (PyVal.map_congr (g := id) _ fun l hl => ?_).trans (PyVal.map_id v)
  have := h l hl
  cases l with
  | i t =>
    obtain ⟨s, t⟩ := t
    have e : (fun c => TS.wrap32 (t c)) = t := funext fun c => wrap32_of_small (this c)
    simp only [Leaf.wrap32_i, e, id]
  | _ => rfl

/-- An operator whose ints stay small need not know about int32. -/
theorem Tracks.int32_same {A : Type} {op : Operator α} {V : List A → Prop} {enc : A → Val α} {out st : List A → Val α} (T : Tracks op V enc out st)
    (ho : ∀ h, wrapVal (out h) = out h) (hs : ∀ h, wrapVal (st h) = st h) : Tracks op.int32 V enc out st := by
  refine ⟨fun x hx => ?_, fun h x hx => ?_, T.enc_ok, T.out_ok, T.st_ok⟩
  · rw [int32_step (T.first x hx), ho, hs, hs]
  · rw [int32_step (T.next h x hx), ho, hs, hs]

/-- Steps whose ints stay small. -/
theorem int32_steps [TFNum α] {M : Nat} {op : Operator α} {X O S} {I : Nat → Val α → Prop} {Q : Nat → Int → Prop} {c : Nat} (hQ : ∀ k n, Q k n → n.natAbs ≤ M + k)
    (hI : ∀ k s, I k s → Fits Q S k s)
    (hn : ∀ k x st, Fits Q X (k + 1) x → (∀ s ∈ st, I k s) → ∃ o n i, op.forwardStep x st = .ok (o, n, i) ∧ Fits Q O (k + 1) o ∧ I (k + 1) n ∧ I k i) (g : Grading c Q) :
    ∀ {xs : List (Val α)} {k : Nat} {s : Val α}, M + k + xs.length < 2 ^ 31 → (∀ x ∈ xs, Fits Q X (k + 1) x) → I k s →
      stepsTyped op.int32 (S.map Prod.fst) xs s = stepsTyped op (S.map Prod.fst) xs s := by
  intro xs
  induction xs with
  | nil => intro k s _ _ hs; rfl
  | cons x xs ih =>
    intro k s hb hx hs
    simp only [List.length_cons] at hb
    obtain ⟨o, n, i, h1, ho, hn', hi⟩ := hn k x (some s) (hx x (by simp)) (by rintro _ ⟨⟩; exact hs)
    have e := ih (k := k + 1) (by omega) (fun y hy => (hx y (by simp [hy])).mono g (by omega)) hn'
    have w : ∀ {T j} {v : Val α}, Fits Q T j v → j ≤ k + 1 → wrapVal v = v := fun hv hj =>
      wrapVal_of_small (hv.2.2.mono fun n hn => by have := hQ _ n hn; omega)
    have h1' := int32_step h1
    rw [w ho (by omega), w (hI _ _ hn') (by omega), w (hI _ _ hi) (by omega)] at h1'
    have e1 : ∀ r, stepsTyped op.int32 (S.map Prod.fst) (x :: xs) s = .ok r ↔ stepsTyped op (S.map Prod.fst) (x :: xs) s = .ok r := by
      rintro ⟨os, sf⟩
      rw [stepsTyped_cons_ok, stepsTyped_cons_ok]
      simp only [h1, h1', Except.ok.injEq, Prod.mk.injEq]
      constructor <;>
      · rintro ⟨o', n', i', os', ⟨rfl, rfl, rfl⟩, b, d, f⟩
        exact ⟨_, _, _, os', ⟨rfl, rfl, rfl⟩, b, by first | rwa [e] at d | rwa [← e] at d, f⟩
    obtain ⟨os, sf, r, -⟩ := graded_steps hI hn g (xs := x :: xs) (k := k) hx hs
    rw [r, (e1 _).2 r]

/-- `buffer[:iteration + 1]` at a counter that wraps around. -/
theorem take_reach {E : Type} {z : E} {p c : Nat} (hp : p ≤ 2 ^ 31) (h1 : p ≤ c + 1) (h2 : c ≤ p) (h : List E) (x : E) :
    (if wrap32 h.length < c then pyTake (padded z p (h ++ [x])) (wrap32 h.length + 1) else padded z p (h ++ [x])) = window (reach p h.length) (h ++ [x]) := by
  have hm := Nat.mod_le h.length (2 ^ 32)
  have hb : h.length % 2 ^ 32 < 2 ^ 32 := Nat.mod_lt _ (by decide)
  rw [wrap32_nat, reach]
  generalize h.length % 2 ^ 32 = i at *
  have hl : (h ++ [x]).length = h.length + 1 := by simp
  by_cases hi : i < 2 ^ 31
  · rw [if_pos hi, if_pos hi]
    by_cases hc : i < c
    · rw [if_pos (by omega), pyTake, if_neg (by omega), show ((i : Int) + 1).toNat = i + 1 by omega, Nat.min_eq_left (by omega),
        take_padded (by omega) (by omega)]
    · rw [if_neg (by omega), Nat.min_eq_right (by omega), padded_eq_window (by omega)]
  · rw [if_neg hi, if_neg hi]
    by_cases hlast : i = 2 ^ 32 - 1
    · rw [if_pos (by omega), if_pos hlast, pyTake, if_neg (by omega), show Int.toNat ((i : Int) - 2 ^ 32 + 1) = 0 by omega]
      simp [window]
    · rw [if_pos (by omega), if_neg hlast, pyTake, if_pos (by omega), padded_length,
        show Int.toNat ((p : Int) + ((i : Int) - 2 ^ 32 + 1)) = p + (i + 1) - 2 ^ 32 by omega, take_padded (by omega) (by omega)]

theorem cold_len {c n : Nat} (h : ¬ Cold c n) : c ≤ n := by
  have := Nat.mod_le n (2 ^ 32)
  simp only [Cold, not_or] at h
  omega

/-- From a step of the operator at any counter to its int32 version. -/
theorem counted32 {A : Type} {op : Operator α} {enc : A → Val α} {out : List A → Val α} {st : Int → List A → Val α}
    (hw : ∀ n h, wrapVal (st n h) = st (wrap32 n) h) (h0 : ∀ x, op.forwardStep (enc x) none = op.forwardStep (enc x) (some (st 0 [])))
    {res : Int → List A → A → Val α} (hs : ∀ n h x, op.forwardStep (enc x) (some (st n h)) = .ok (res n h x, st (n + 1) (h ++ [x]), st n h))
    (hr : ∀ h x, wrapVal (res (wrap32 h.length) h x) = out (h ++ [x]))
    (he : ∀ x, (enc x).WF ∧ Tensors (enc x)) (ho : ∃ ty, ∀ h, h ≠ [] → (out h).WF ∧ HasSig (out h) ty) (ht : ∃ ty, ∀ n h, (st n h).WF ∧ HasType (st n h) ty) :
    Tracks op.int32 Any enc out fun h => st (wrap32 h.length) h := by
  have next : ∀ h x, op.int32.forwardStep (enc x) (some (st (wrap32 h.length) h)) =
      .ok (out (h ++ [x]), st (wrap32 (h ++ [x]).length) (h ++ [x]), st (wrap32 h.length) h) := by
    intro h x
    rw [int32_step (hs _ h x), hw, hw, hr, wrap32_add_one, wrap32_wrap32, List.length_append, List.length_singleton, Int.natCast_add, Int.natCast_one]
  refine ⟨fun x _ => ?_, fun h x _ => next h x, he, ho, ?_⟩
  · have := next [] x
    rw [List.length_nil, Int.natCast_zero, wrap32_zero, List.nil_append] at this
    rw [List.length_nil, Int.natCast_zero, wrap32_zero, ← this]
    simp only [Operator.int32, h0]
  · obtain ⟨ty, h⟩ := ht
    exact ⟨ty, fun k => h _ k⟩

end TS
