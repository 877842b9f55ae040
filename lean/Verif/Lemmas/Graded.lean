import Verif.Lemmas.MapSteady
import Verif.Spec.Counters
/-
Steady operators whose ints satisfy, after `k` steps, a condition that may depend on `k`.
-/
namespace TS
open PyVal
variable {α : Type}
set_option linter.unusedSimpArgs false
set_option linter.unusedSectionVars false

/-- the ints of a tensor satisfy `Q` -/
def IntsOK (Q : Int → Prop) : Leaf α → Prop
  | .i t => ∀ c, Q (t.val c)
  | _ => True

/-- all ints of a value satisfy `Q` -/
def Holds (Q : Int → Prop) (v : Val α) : Prop := ∀ l ∈ flatten v, IntsOK Q l

theorem holds_tup {Q : Int → Prop} {xs : List (Val α)} : Holds Q (.tup xs) ↔ ∀ x ∈ xs, Holds Q x := by
  simp only [Holds, PyVal.tup, flatten, flattens_eq, List.mem_flatMap]
  exact ⟨fun h x hx l hl => h l ⟨x, hx, hl⟩, fun h l ⟨x, hx, hl⟩ => h x hx l hl⟩

@[simp] theorem holds_leaf {Q : Int → Prop} {l : Leaf α} : Holds Q (.leaf l) ↔ IntsOK Q l := by simp [Holds, flatten]

theorem Holds.mono {Q Q' : Int → Prop} (h : ∀ n, Q n → Q' n) {v : Val α} (hv : Holds Q v) : Holds Q' v := fun l hl => by
  have := hv l hl
  cases l with
  | i t => exact fun c => h _ (this c)
  | _ => trivial

/-- slices of a series -/
theorem IntsOK.index {Q : Int → Prop} {l : Leaf α} {n : Nat} (hn : l.size0 = .ok n) : IntsOK Q l ↔ ∀ i < n, ∀ u, l.index i = .ok u → IntsOK Q u := by
  cases l with
  | gen => simp [Leaf.size0] at hn
  | f t | b t =>
    refine ⟨fun _ i hi u hu => ?_, fun _ => trivial⟩
    simp only [Leaf.index] at hu
    cases e : t.index i <;> rw [e] at hu <;> cases hu
    trivial
  | i t =>
    obtain ⟨sh, v⟩ := t
    cases sh with
    | nil => simp [Leaf.size0, Tensor.size0] at hn
    | cons k sh =>
      simp only [Leaf.size0, Tensor.size0, Except.ok.injEq] at hn
      subst hn
      constructor
      · intro h i hi u hu
        simp only [Leaf.index, Tensor.index, hi, dite_true] at hu
        cases hu
        exact fun c => h (⟨i, hi⟩, c)
      · rintro h ⟨i, c⟩
        have := h i i.2 (.i ⟨sh, fun c => v (i, c)⟩) (by simp only [Leaf.index, Tensor.index, i.2, dite_true]; rfl)
        exact this c

theorem holds_series {Q : Int → Prop} {v : Val α} {xs : List (Val α)} (h : IsSeries v xs) : Holds Q v ↔ ∀ x ∈ xs, Holds Q x := by
  have key : ∀ i (hi : i < xs.length), ∃ hl : (flatten v).length = (flatten xs[i]).length, ∀ j (hj : j < (flatten v).length),
      (flatten v)[j].index i = .ok ((flatten xs[i])[j]'(by omega)) := by
    intro i hi
    have h2 := (sliceAt_ok.1 (h.slice i hi)).2
    rw [mapM_eq_ok_iff_get] at h2
    exact ⟨h2.1, fun j hj => h2.2 j hj⟩
  constructor
  · intro hv x hx l hl
    obtain ⟨i, hi, rfl⟩ := List.mem_iff_getElem.1 hx
    obtain ⟨j, hj, rfl⟩ := List.mem_iff_getElem.1 hl
    obtain ⟨e, he⟩ := key i hi
    exact (IntsOK.index (h.size _ (List.getElem_mem (by omega)))).1 (hv _ (List.getElem_mem (by omega : j < _))) i hi _ (he j (by omega))
  · intro hx l hl
    obtain ⟨j, hj, rfl⟩ := List.mem_iff_getElem.1 hl
    refine (IntsOK.index (h.size _ hl)).2 fun i hi u hu => ?_
    obtain ⟨e, he⟩ := key i hi
    rw [he j hj] at hu
    cases hu
    exact hx _ (List.getElem_mem hi) _ (List.getElem_mem _)

/-- What is demanded of the condition: it may only weaken with time, and it holds of what counters reach. -/
structure Grading (c : Nat) (Q : Nat → Int → Prop) : Prop where
  mono : ∀ k n, Q k n → Q (k + 1) n
  base : ∀ k n, n.natAbs ≤ max c 1 + k → Q k n

theorem Grading.zero {c : Nat} {Q : Nat → Int → Prop} (g : Grading c Q) (k : Nat) : Q k 0 := g.base k 0 (by simp)

theorem Grading.le {c : Nat} {Q : Nat → Int → Prop} (g : Grading c Q) {c' : Nat} (h : c' ≤ c) : Grading c' Q :=
  ⟨g.mono, fun k n hn => g.base k n (by omega)⟩

theorem Grading.mono_le {c : Nat} {Q : Nat → Int → Prop} (g : Grading c Q) {k k' : Nat} (h : k ≤ k') {n : Int} (hn : Q k n) : Q k' n := by
  induction h with
  | refl => exact hn
  | step _ ih => exact g.mono _ _ ih

/-- a value of a signature whose ints satisfy the condition -/
def Fits (Q : Nat → Int → Prop) (T : PyVal (DType × List Nat)) (k : Nat) (v : Val α) : Prop := v.WF ∧ HasSig v T ∧ Holds (Q k) v

def Operator.Graded (op : Operator α) (Q : Nat → Int → Prop) (X O S : PyVal (DType × List Nat)) : Prop :=
  ∃ I : Nat → Val α → Prop, (∀ k s, I k s → Fits Q S k s) ∧ (∀ k s, I k s → I (k + 1) s) ∧
    ∀ k x st, Fits Q X (k + 1) x → (∀ s ∈ st, I k s) → ∃ o n i, op.forwardStep x st = .ok (o, n, i) ∧ Fits Q O (k + 1) o ∧ I (k + 1) n ∧ I k i

theorem holds_true (v : Val α) : Holds (fun _ => True) v := fun l _ => by cases l <;> simp [IntsOK]

/-- steady is graded with no condition -/
theorem graded_true {op : Operator α} {X O S} : op.Graded (fun _ _ => True) X O S ↔ op.Steady X O S := by
  constructor
  · rintro ⟨I, hI, hm, hs⟩
    refine ⟨fun s => ∃ k, I k s, fun s ⟨k, h⟩ => ⟨(hI k s h).1, (hI k s h).2.1⟩, fun x hw hx => ?_, fun x s hw hx ⟨k, h⟩ => ?_⟩
    · obtain ⟨o, n, i, a, b, c, d⟩ := hs 0 x none ⟨hw, hx, holds_true _⟩ (by simp)
      exact ⟨o, n, i, a, ⟨b.1, b.2.1⟩, ⟨_, c⟩, ⟨_, d⟩⟩
    · obtain ⟨o, n, i, a, b, c, d⟩ := hs k x (some s) ⟨hw, hx, holds_true _⟩ (by rintro _ ⟨⟩; exact h)
      exact ⟨o, n, i, a, ⟨b.1, b.2.1⟩, ⟨_, c⟩, ⟨_, d⟩⟩
  · rintro ⟨I, hI, hf, hn⟩
    refine ⟨fun _ s => I s, fun _ s h => ⟨(hI s h).1, (hI s h).2, holds_true _⟩, fun _ _ h => h, fun k x st hx hst => ?_⟩
    cases st with
    | none =>
      obtain ⟨o, n, i, a, b, c, d⟩ := hf x hx.1 hx.2.1
      exact ⟨o, n, i, a, ⟨b.1, b.2, holds_true _⟩, c, d⟩
    | some s =>
      obtain ⟨o, n, i, a, b, c, d⟩ := hn x s hx.1 hx.2.1 (hst s rfl)
      exact ⟨o, n, i, a, ⟨b.1, b.2, holds_true _⟩, c, d⟩

theorem Fits.mono {c : Nat} {Q : Nat → Int → Prop} (g : Grading c Q) {T} {k k' : Nat} (h : k ≤ k') {v : Val α} (hv : Fits Q T k v) : Fits Q T k' v :=
  ⟨hv.1, hv.2.1, hv.2.2.mono fun _ => g.mono_le h⟩

/-- Operators that are functions of the history. -/
theorem Tracks.graded {A : Type} {op : Operator α} {enc : A → Val α} {out st : List A → Val α} (T : Tracks op Any enc out st) {c : Nat} {Q : Nat → Int → Prop}
    (g : Grading c Q) {X} (hX : ∀ x : Val α, HasSig x X → ∃ a, x = enc a) {O} (hO : ∀ h, h ≠ [] → HasSig (out h) O) {S} (hS : ∀ h, HasSig (st h) S)
    (pO : ∀ k h, h ≠ [] → h.length ≤ k → (∀ a ∈ h, Holds (Q k) (enc a)) → Holds (Q k) (out h))
    (pS : ∀ k h, h.length ≤ k → (∀ a ∈ h, Holds (Q k) (enc a)) → Holds (Q k) (st h)) : op.Graded Q X O S := by
  obtain ⟨_, ho⟩ := T.out_ok
  obtain ⟨_, hs⟩ := T.st_ok
  refine ⟨fun k s => ∃ h, s = st h ∧ h.length ≤ k ∧ ∀ a ∈ h, Holds (Q k) (enc a), ?_, ?_, ?_⟩
  · rintro k _ ⟨h, rfl, hl, hh⟩; exact ⟨(hs h).1, hS h, pS k h hl hh⟩
  · rintro k _ ⟨h, rfl, hl, hh⟩; exact ⟨h, rfl, by omega, fun a ha => (hh a ha).mono (g.mono k)⟩
  · rintro k x st' ⟨hw, hx, hxp⟩ hst
    obtain ⟨a, rfl⟩ := hX x hx
    cases st' with
    | none =>
      exact ⟨_, _, _, T.first a trivial, ⟨(ho _ (by simp)).1, hO _ (by simp), pO _ _ (by simp) (by simp) (by simpa using hxp)⟩, ⟨_, rfl, by simp, by simpa using hxp⟩, ⟨[], rfl, by simp, by simp⟩⟩
    | some s =>
      obtain ⟨h, rfl, hl, hh⟩ := hst s rfl
      have hh' : ∀ b ∈ h ++ [a], Holds (Q (k + 1)) (enc b) := by
        intro b hb
        rcases List.mem_append.1 hb with hb | hb
        · exact (hh b hb).mono (g.mono k)
        · rw [List.mem_singleton.1 hb]; exact hxp
      exact ⟨_, _, _, T.next h a trivial, ⟨(ho _ (by simp)).1, hO _ (by simp), pO _ _ (by simp) (by simp; omega) hh'⟩, ⟨_, rfl, by simp; omega, hh'⟩, ⟨h, rfl, hl, hh⟩⟩

section
variable [TFNum α] {c : Nat} {Q : Nat → Int → Prop}

theorem Fits.tensors {T} {k : Nat} {v : Val α} (h : Fits Q T k v) : v.WF ∧ Tensors v := ⟨h.1, h.2.1.tensors⟩

/-- single steps of the operators of a family -/
theorem graded_family {ops : List (Operator α)} {X O S : Nat → PyVal (DType × List Nat)} (h : ∀ j (hj : j < ops.length), ops[j].Graded Q (X j) (O j) (S j)) :
    ∃ I : Nat → Nat → Val α → Prop, (∀ j, j < ops.length → ∀ k s, I j k s → Fits Q (S j) k s) ∧ (∀ j, j < ops.length → ∀ k s, I j k s → I j (k + 1) s) ∧
      (∀ j (hj : j < ops.length) k x st, Fits Q (X j) (k + 1) x → (∀ s ∈ st, I j k s) →
        ∃ o n i, call ops[j] x st false = .ok (o, n, i) ∧ Fits Q (O j) (k + 1) o ∧ I j (k + 1) n ∧ I j k i) := by
  choose! I hI using h
  refine ⟨I, fun j hj => (hI j hj).1, fun j hj => (hI j hj).2.1, fun j hj k x st hx hs => ?_⟩
  rw [call_eq (op := ops[j]) false hx.1 hx.tensors.2 (st := st) (fun s h => ((hI j hj).1 k s (hs s h)).tensors)]
  simpa using (hI j hj).2.2 k x st hx hs

theorem chain_graded {ops : List (Operator α)} {T : Nat → PyVal (DType × List Nat)} {k : Nat} {I : Nat → Nat → Val α → Prop}
    (hI : ∀ j (hj : j < ops.length) x st, Fits Q (T j) (k + 1) x → (∀ s ∈ st, I j k s) →
        ∃ o n i, call ops[j] x st false = .ok (o, n, i) ∧ Fits Q (T (j + 1)) (k + 1) o ∧ I j (k + 1) n ∧ I j k i) :
    ∀ {sts : List (Option (Val α))}, sts.length = ops.length → (∀ j (hj : j < sts.length), ∀ s ∈ sts[j], I j k s) → ∀ {x : Val α}, Fits Q (T 0) (k + 1) x →
      ∃ o ns is, composeLoop (ops.zip sts) x = .ok (o, ns, is) ∧ Fits Q (T ops.length) (k + 1) o ∧ (ns.length = ops.length ∧ ∀ j (hj : j < ns.length), I j (k + 1) ns[j]) ∧
        (is.length = ops.length ∧ ∀ j (hj : j < is.length), I j k is[j]) := by
  induction ops generalizing T I with
  | nil => intro sts hl hs x hx; exact ⟨x, [], [], rfl, hx, by simp, by simp⟩
  | cons op ops ih =>
    intro sts hl hs x hx
    cases sts with
    | nil => simp at hl
    | cons st sts =>
      obtain ⟨o, n, i, h1, ho, hn, hi⟩ := hI 0 (by simp) x st hx (hs 0 (by simp))
      obtain ⟨o', ns, is, h2, ho', hns, his⟩ := ih (T := fun j => T (j + 1)) (I := fun j => I (j + 1))
        (fun j hj => hI (j + 1) (by simpa using hj)) (sts := sts) (by simpa using hl) (fun j hj => hs (j + 1) (by simpa using hj)) ho
      refine ⟨o', n :: ns, i :: is, composeLoop_cons_ok.2 ⟨_, _, _, _, _, h1, h2, rfl, rfl⟩, ho', ⟨by simp [hns.1], ?_⟩, ⟨by simp [his.1], ?_⟩⟩
      · intro j hj
        cases j with
        | zero => exact hn
        | succ j => exact hns.2 j (by simpa using hj)
      · intro j hj
        cases j with
        | zero => exact hi
        | succ j => exact his.2 j (by simpa using hj)

theorem forall₂_range {A : Type} {R : Val α → A → Prop} {ss : List (Val α)} {S : Nat → A} (h : ∀ k (hk : k < ss.length), R ss[k] (S k)) :
    List.Forall₂ R ss ((List.range ss.length).map S) := by
  rw [List.forall₂_iff_get]
  exact ⟨by simp, fun i h1 h2 => by simpa using h i h1⟩

theorem fits_tup {n : Nat} {S : Nat → PyVal (DType × List Nat)} {k : Nat} {ss : List (Val α)} (hl : ss.length = n)
    (hs : ∀ j (hj : j < ss.length), Fits Q (S j) k ss[j]) : Fits Q (.tup ((List.range n).map S)) k (.tup ss) := by
  subst hl
  refine ⟨WF_tup.2 ?_, hasSig_tup (forall₂_range fun j hj => (hs j hj).2.1), holds_tup.2 ?_⟩
  all_goals
    intro s hs'
    obtain ⟨j, hj, rfl⟩ := List.mem_iff_getElem.1 hs'
    first | exact (hs j hj).1 | exact (hs j hj).2.2

theorem Compose_graded {ops : List (Operator α)} {T S : Nat → PyVal (DType × List Nat)} (hne : ops ≠ [])
    (h : ∀ j (hj : j < ops.reverse.length), ops.reverse[j].Graded Q (T j) (T (j + 1)) (S j)) :
    (Compose ops).Graded Q (T 0) (T ops.length) (.tup ((List.range ops.length).map S)) := by
  obtain ⟨ops, rfl⟩ : ∃ l, ops = l.reverse := ⟨ops.reverse, by simp⟩
  simp only [List.reverse_reverse, List.length_reverse] at h ⊢
  have hne' : ops ≠ [] := by simpa using hne
  obtain ⟨I, hI, hm, hstep⟩ := graded_family (ops := ops) (X := T) (O := fun k => T (k + 1)) (S := S) h
  have hz : ∀ {sts : List (Option (Val α))}, sts.length = ops.length → ops.zip sts ≠ [] := by
    intro sts hl e
    have := congrArg List.length e
    simp [hl] at this
    exact hne' this
  refine ⟨fun k s => ∃ ss, s = .tup ss ∧ ss.length = ops.length ∧ ∀ j (hj : j < ss.length), I j k ss[j], ?_, ?_, ?_⟩
  · rintro k _ ⟨ss, rfl, hl, hs⟩
    exact fits_tup hl fun j hj => hI j (by omega) k _ (hs j hj)
  · rintro k _ ⟨ss, rfl, hl, hs⟩
    exact ⟨ss, rfl, hl, fun j hj => hm j (by omega) _ _ (hs j hj)⟩
  · intro k x st hx hst
    obtain ⟨sts, e, hl, hs⟩ : ∃ sts, opStates ops.length st = .ok sts ∧ sts.length = ops.length ∧ ∀ j (hj : j < sts.length), ∀ s ∈ sts[j], I j k s := by
      cases st with
      | none => exact ⟨_, opStates_none _, by simp, by simp⟩
      | some s =>
        obtain ⟨ss, rfl, hl, hs⟩ := hst s rfl
        exact ⟨_, opStates_tup _ _, by simp [hl], fun j hj => by simp only [List.getElem_map]; rintro _ ⟨⟩; exact hs j (by simpa using hj)⟩
    obtain ⟨o, ns, is, h1, ho, hns, his⟩ := chain_graded (fun j hj => hstep j hj k) hl hs hx
    exact ⟨o, _, _, compose_ok.2 ⟨_, o, ns, is, e, hz hl, h1, rfl⟩, ho, ⟨_, rfl, hns⟩, ⟨_, rfl, his⟩⟩

theorem bank_graded {ops : List (Operator α)} {X O : Nat → PyVal (DType × List Nat)} {k : Nat} {I : Nat → Nat → Val α → Prop}
    (hI : ∀ j (hj : j < ops.length) x st, Fits Q (X j) (k + 1) x → (∀ s ∈ st, I j k s) →
        ∃ o n i, call ops[j] x st false = .ok (o, n, i) ∧ Fits Q (O j) (k + 1) o ∧ I j (k + 1) n ∧ I j k i) :
    ∀ {sts : List (Option (Val α))} {xs : List (Val α)}, sts.length = ops.length → xs.length = ops.length → (∀ j (hj : j < sts.length), ∀ s ∈ sts[j], I j k s) →
      (∀ j (hj : j < xs.length), Fits Q (X j) (k + 1) xs[j]) →
      ∃ os ns is, joinLoop (ops.zip (xs.zip sts)) = .ok (os, ns, is) ∧ (os.length = ops.length ∧ ∀ j (hj : j < os.length), Fits Q (O j) (k + 1) os[j]) ∧
        (ns.length = ops.length ∧ ∀ j (hj : j < ns.length), I j (k + 1) ns[j]) ∧ (is.length = ops.length ∧ ∀ j (hj : j < is.length), I j k is[j]) := by
  induction ops generalizing X O I with
  | nil => intro sts xs hl hl' _ _; exact ⟨[], [], [], rfl, by simp, by simp, by simp⟩
  | cons op ops ih =>
    intro sts xs hl hl' hs hx
    cases sts with
    | nil => simp at hl
    | cons st sts =>
      cases xs with
      | nil => simp at hl'
      | cons x xs =>
        obtain ⟨o, n, i, h1, ho, hn, hi⟩ := hI 0 (by simp) x st (hx 0 (by simp)) (hs 0 (by simp))
        obtain ⟨os, ns, is, h2, hos, hns, his⟩ := ih (X := fun j => X (j + 1)) (O := fun j => O (j + 1)) (I := fun j => I (j + 1))
          (fun j hj => hI (j + 1) (by simpa using hj)) (sts := sts) (xs := xs) (by simpa using hl) (by simpa using hl') (fun j hj => hs (j + 1) (by simpa using hj))
          (fun j hj => hx (j + 1) (by simpa using hj))
        refine ⟨o :: os, n :: ns, i :: is, joinLoop_cons_ok.2 ⟨_, _, _, _, _, _, h1, h2, rfl, rfl, rfl⟩, ⟨by simp [hos.1], ?_⟩, ⟨by simp [hns.1], ?_⟩, ⟨by simp [his.1], ?_⟩⟩
        · intro j hj
          cases j with
          | zero => exact ho
          | succ j => exact hos.2 j (by simpa using hj)
        · intro j hj
          cases j with
          | zero => exact hn
          | succ j => exact hns.2 j (by simpa using hj)
        · intro j hj
          cases j with
          | zero => exact hi
          | succ j => exact his.2 j (by simpa using hj)

theorem Join_graded {ops : List (Operator α)} {X O S : Nat → PyVal (DType × List Nat)}
    (h : ∀ j (hj : j < ops.length), ops[j].Graded Q (X j) (O j) (S j)) :
    (Join ops).Graded Q (.tup ((List.range ops.length).map X)) (.tup ((List.range ops.length).map O)) (.tup ((List.range ops.length).map S)) := by
  obtain ⟨I, hI, hm, hstep⟩ := graded_family h
  refine ⟨fun k s => ∃ ss, s = .tup ss ∧ ss.length = ops.length ∧ ∀ j (hj : j < ss.length), I j k ss[j], ?_, ?_, ?_⟩
  · rintro k _ ⟨ss, rfl, hl, hs⟩
    exact fits_tup hl fun j hj => hI j (by omega) k _ (hs j hj)
  · rintro k _ ⟨ss, rfl, hl, hs⟩
    exact ⟨ss, rfl, hl, fun j hj => hm j (by omega) _ _ (hs j hj)⟩
  · rintro k x st ⟨hw, hx, hq⟩ hst
    obtain ⟨sts, e, hl, hs⟩ : ∃ sts, opStates ops.length st = .ok sts ∧ sts.length = ops.length ∧ ∀ j (hj : j < sts.length), ∀ s ∈ sts[j], I j k s := by
      cases st with
      | none => exact ⟨_, opStates_none _, by simp, by simp⟩
      | some s =>
        obtain ⟨ss, rfl, hl, hs⟩ := hst s rfl
        exact ⟨_, opStates_tup _ _, by simp [hl], fun j hj => by simp only [List.getElem_map]; rintro _ ⟨⟩; exact hs j (by simpa using hj)⟩
    obtain ⟨xs, rfl, hx'⟩ := hasSig_tup_inv hx
    obtain ⟨hxl, hx'⟩ := List.forall₂_iff_get.1 hx'
    simp only [List.length_map, List.length_range] at hxl
    obtain ⟨os, ns, is, h1, hos, hns, his⟩ := bank_graded (fun j hj => hstep j hj k) (sts := sts) (xs := xs) hl hxl hs (fun j hj => ⟨WF_tup.1 hw _ (List.getElem_mem hj), by
      simpa using hx' j hj (by simpa [← hxl] using hj), holds_tup.1 hq _ (List.getElem_mem hj)⟩)
    exact ⟨.tup os, _, _, join_ok.2 ⟨sts, xs, os, ns, is, e, rfl, h1, rfl⟩, fits_tup hos.1 hos.2, ⟨_, rfl, hns⟩, ⟨_, rfl, his⟩⟩

theorem holds_zero (g : Grading c Q) (k : Nat) (v : Val α) : Holds (Q k) (v.map zeroLeaf) := by
  intro l hl
  rw [flatten_map, List.mem_map] at hl
  obtain ⟨l, -, rfl⟩ := hl
  cases l with
  | i t => exact fun _ => g.zero k
  | _ => trivial

/-- FFill -/
theorem FFill_graded (g : Grading c Q) {op : Operator α} {X O S} (h : op.Graded Q X O S) (hX : AllFloat X) (hO : Passable O) (hS : S = PyVal.unit ∨ Passable S) :
    (FFill op).Graded Q X O (.tup [O, S]) := by
  obtain ⟨I, hI, hm, hstep⟩ := h
  have hT : ∀ k s, I k s → s.WF ∧ HasType s (S.map Prod.fst) := fun k s h => ⟨(hI k s h).1, (hI k s h).2.1.hasType⟩
  have hS' : S.map Prod.fst = PyVal.unit ∨ Passable (S.map Prod.fst) := by
    rcases hS with rfl | hS
    · exact .inl rfl
    · exact .inr ((passable_skel (by simp [PyVal.skel_map])).2 hS)
  have hO' : Passable (O.map Prod.fst) := (passable_skel (by simp [PyVal.skel_map])).2 hO
  have key : ∀ k x st p po st', Fits Q X (k + 1) x → (∀ t ∈ st, I k t) → Fits Q O k p →
      (∀ o, o.WF → HasSig o O → (po = none ∧ p = o.map zeroLeaf) ∨ po = some p) →
      ((st' = none ∧ po = none ∧ st = none) ∨ ∃ s a b, st' = some s ∧ getItem 0 s = .ok a ∧ getItem 1 s = .ok b ∧ po = some a ∧ st = some b) →
      ∃ o' n' i', (FFill op).forwardStep x st' = .ok (o', n', i') ∧ Fits Q O (k + 1) o' ∧
      (∃ q t, n' = .tup [q, t] ∧ Fits Q O (k + 1) q ∧ I (k + 1) t) ∧ (∃ q t, i' = .tup [q, t] ∧ Fits Q O k q ∧ I k t) := by
    intro k x st p po st' hx hst hp hpo hst'
    obtain ⟨o, n, i, h, ho, hIn, hIi⟩ := hstep k x st hx hst
    have hIs : I k (st.getD i) := by
      cases st with
      | none => exact hIi
      | some t => exact hst _ rfl
    have hcall : call op x st false = .ok (o, n, i) := by
      rw [call_eq false hx.1 hx.tensors.2 (fun s hs => (hI k s (hst s hs)).tensors)]
      simpa using h
    have hpo' : (po = none ∧ mapFn (fn1 zerosLike) o [o] = .ok p) ∨ po = some p := by
      rcases hpo o ho.1 ho.2.1 with ⟨h1, h2⟩ | h
      · exact .inl ⟨h1, by rw [h2, zerosLike_total ho.1 ho.2.1.tensors]⟩
      · exact .inr h
    have hp' := hp.mono g (Nat.le_succ k)
    refine ⟨if hasZero x then p else o, .tup [if hasZero x then p else o, if hasZero x then st.getD i else n], .tup [p, i],
      ffill_ok.2 ⟨hasZero x, po, st, o, n, i, p, _, _, anyValue_total hx.1 (floats_of_sig hx.2.1 hX), hst', hcall, hpo',
        tfCond_total hp.1 ho.1 hp.2.1.hasType ho.2.1.hasType hO', ?_, rfl⟩, ?_, ⟨_, _, rfl, ?_, ?_⟩, ⟨_, _, rfl, hp, hIi⟩⟩
    · exact ffillState_total (hT _ _ hIi) (hT _ _ hIs) (hT _ _ hIn) hS'
    · split <;> assumption
    · split <;> assumption
    · split
      · exact hm _ _ hIs
      · exact hIn
  refine ⟨fun k s => ∃ q t, s = .tup [q, t] ∧ Fits Q O k q ∧ I k t, ?_, ?_, ?_⟩
  · rintro k _ ⟨q, t, rfl, hq, ht⟩
    have := hI k t ht
    exact ⟨by simp [WF_tup, hq.1, this.1], hasSig_tup (.cons hq.2.1 (.cons this.2.1 .nil)), holds_tup.2 (by simp [hq.2.2, this.2.2])⟩
  · rintro k _ ⟨q, t, rfl, hq, ht⟩
    exact ⟨q, t, rfl, hq.mono g (Nat.le_succ k), hm _ _ ht⟩
  · intro k x st hx hst
    cases st with
    | none =>
      obtain ⟨o, n, i, h, ho, -⟩ := hstep k x none hx (by simp)
      refine key k x none (o.map zeroLeaf) none none hx (by simp) ⟨(WF_of_skel_eq (by simp)).2 ho.1, ho.2.1.map_same zeroLeaf_sig, holds_zero g k o⟩
        (fun o' _ ho' => .inl ⟨rfl, by rw [zeros_of_sig ho.2.1, zeros_of_sig ho']⟩) (.inl ⟨rfl, rfl, rfl⟩)
    | some s =>
      obtain ⟨q, t, rfl, hq, ht⟩ := hst s rfl
      exact key k x (some t) q (some q) _ hx (by rintro _ ⟨⟩; exact ht) hq (fun _ _ _ => .inr rfl) (.inr ⟨_, q, t, rfl, rfl, rfl, rfl, rfl⟩)

/-- Map -/
theorem Map_graded {op : Operator α} (hop : op.Sane) {X O S} (h : op.Graded Q X O S) (hX : flatten X ≠ []) {m : Nat} (hm : 0 < m) :
    (Map op (m : Int)).Graded Q (tMany m X) (tMany m O) (.tup [tMany m S]) := by
  obtain ⟨I, hI, hmono, hstep⟩ := h
  have hcall : ∀ k x st, Fits Q X (k + 1) x → (∀ s ∈ st, I k s) → ∃ o n i, call op x st false = .ok (o, n, i) ∧ Fits Q O (k + 1) o ∧ I (k + 1) n ∧ I k i := by
    intro k x st hx hs
    rw [call_eq false hx.1 hx.tensors.2 fun s h => (hI k s (hs s h)).tensors]
    simpa using hstep k x st hx hs
  have wf_of : ∀ {v : Val α} {xs : List (Val α)}, IsSeries v xs → xs ≠ [] → (∀ x ∈ xs, x.WF) → v.WF := by
    intro v xs h hne hx
    have h0 := h.slice 0 (List.length_pos_iff.2 hne)
    exact (sliceAt_WF h0).1 (hx _ (List.getElem_mem _))
  have rowsFit : ∀ {k : Nat} {T} {v : Val α} {xs : List (Val α)}, IsSeries v xs → xs.length = m → (∀ x ∈ xs, Fits Q T k x) → Fits Q (tMany m T) k v := by
    intro k T v xs hv hl hx
    have hne : xs ≠ [] := by rintro rfl; simp at hl; omega
    have := hv.hasSig hne fun x h => (hx x h).2.1
    rw [hl] at this
    exact ⟨wf_of hv hne fun x h => (hx x h).1, this, (holds_series hv).2 fun x h => (hx x h).2.2⟩
  have rows : ∀ {k : Nat} {T} {v : Val α}, Fits Q (tMany m T) k v → ∃ xs, xs.length = m ∧ IsSeries v xs ∧ ∀ x ∈ xs, Fits Q T k x := by
    intro k T v hv
    obtain ⟨xs, hxl, hxs, hxX⟩ := exists_rows_of_sig hv.2.1
    exact ⟨xs, hxl, hxs, fun x h => ⟨hxs.mem_WF hv.1 x h, hxX x h, (holds_series hxs).1 hv.2.2 x h⟩⟩
  -- one step over the rows
  have key : ∀ k x st init prev ss ov nx, Fits Q (tMany m X) (k + 1) x → (∀ s ∈ st, s.WF) → (∀ x0, sliceAt 0 x = .ok x0 → call op x0 none false = .ok (ov, nx, init)) →
      HasSig ov O → MapPrev (m : Int) init st prev → IsSeries prev ss → ss.length = m → (∀ s ∈ ss, I k s) →
      ∃ o n i, (Map op (m : Int)).forwardStep x st = .ok (o, n, i) ∧ Fits Q (tMany m O) (k + 1) o ∧
        (∃ N ns, n = .tup [N] ∧ IsSeries N ns ∧ ns.length = m ∧ ∀ s ∈ ns, I (k + 1) s) ∧ (∃ N ns, i = .tup [N] ∧ IsSeries N ns ∧ ns.length = m ∧ ∀ s ∈ ns, I k s) := by
    intro k x st init prev ss ov nx hx hst h0 hov hprev hss hsl hIs
    obtain ⟨xs, hxl, hxs, hxX⟩ := rows hx
    have hrow : ∀ p ∈ xs.zip ss, ∃ q : Val α × Val α, mapRow op p = .ok q ∧ Fits Q O (k + 1) q.1 ∧ I (k + 1) q.2 := by
      rintro ⟨a, s⟩ hp
      obtain ⟨ha, hs⟩ := List.of_mem_zip hp
      obtain ⟨o, n, i, h1, h2, h3, -⟩ := hcall k a (some s) (hxX a ha) (by rintro _ ⟨⟩; exact hIs s hs)
      exact ⟨(o, n), mapRow_ok.2 ⟨i, h1⟩, h2, h3⟩
    choose! g hg using hrow
    have hzl : (xs.zip ss).length = m := by simp [hxl, hsl]
    have hzne : xs.zip ss ≠ [] := by intro e; rw [e] at hzl; simp at hzl; omega
    have mem1 : ∀ o ∈ ((xs.zip ss).map g).map (·.1), Fits Q O (k + 1) o := by
      simp only [List.map_map, List.mem_map]; rintro _ ⟨p, hp, rfl⟩; exact (hg p hp).2.1
    have mem2 : ∀ s ∈ ((xs.zip ss).map g).map (·.2), I (k + 1) s := by
      simp only [List.map_map, List.mem_map]; rintro _ ⟨p, hp, rfl⟩; exact (hg p hp).2.2
    obtain ⟨o, ho, -⟩ := exists_series (os := ((xs.zip ss).map g).map (·.1)) fun o h => (mem1 o h).2.1
    obtain ⟨n, hn', -⟩ := exists_series (os := ((xs.zip ss).map g).map (·.2)) fun s h => (hI _ s (mem2 s h)).2.1
    have hprevS : HasSig prev (tMany m S) := (rowsFit hss hsl fun s h => hI k s (hIs s h)).2.1
    have z1 : (xs.zip ss).map (·.1) = xs := List.map_fst_zip (by omega)
    have z2 : (xs.zip ss).map (·.2) = ss := List.map_snd_zip (by omega)
    have hflat : flatten x ≠ [] := by
      intro e
      have := length_flatten_of_skel_eq hx.2.1.skel
      rw [e, length_flatten_of_skel_eq (tMany_skel m X)] at this
      exact hX (List.length_eq_zero_iff.1 this.symm)
    obtain ⟨x0, hx0⟩ : ∃ x0, sliceAt 0 x = .ok x0 := ⟨_, hxs.slice 0 (by omega)⟩
    refine ⟨o, .tup [n], .tup [prev], (Map_ok hop hx.1 hst).2 ⟨xs.zip ss, x0, ov, nx, init, prev, O.map Prod.fst, (tMany m S).map Prod.fst, (xs.zip ss).map g, o, n,
      hzne, by simp [hflat], by rw [z1]; exact hxs, by rw [z2]; exact hss, hx0, h0 x0 hx0, hprev, hov.hasType, hprevS.hasType, ?_, ho, hn', rfl⟩,
      rowsFit ho (by simp [hzl]) mem1, ⟨n, _, rfl, hn', by simp [hzl], mem2⟩, ⟨prev, ss, rfl, hss, hsl, hIs⟩⟩
    rw [RowsOK, List.forall₂_map_right_iff]
    refine List.forall₂_same.2 fun p hp => ⟨(hg p hp).1, (hg p hp).2.1.2.1.hasType, ?_⟩
    have := (hI _ _ (hg p hp).2.2).2.1.hasType
    simpa [tMany, PyVal.map_map, Function.comp_def] using this
  have slice0 : ∀ (k : Nat) (x : Val α), Fits Q (tMany m X) k x → ∃ x0, sliceAt 0 x = .ok x0 ∧ Fits Q X k x0 := by
    intro k x hx
    obtain ⟨xs, hxl, hxs, hxX⟩ := rows hx
    exact ⟨_, hxs.slice 0 (by omega), hxX _ (List.getElem_mem _)⟩
  have stFits : ∀ {k : Nat} {N : Val α} {ns : List (Val α)}, IsSeries N ns → ns.length = m → (∀ s ∈ ns, I k s) → Fits Q (.tup [tMany m S]) k (.tup [N]) := by
    intro k N ns hN hl hs
    have := rowsFit hN hl fun s h => hI k s (hs s h)
    exact ⟨WF_tup.2 (by simpa using this.1), hasSig_tup (.cons this.2.1 .nil), holds_tup.2 (by simpa using this.2.2)⟩
  refine ⟨fun k s => ∃ N ns, s = .tup [N] ∧ IsSeries N ns ∧ ns.length = m ∧ ∀ s ∈ ns, I k s, ?_, ?_, ?_⟩
  · rintro k _ ⟨N, ns, rfl, hN, hl, hs⟩
    exact stFits hN hl hs
  · rintro k _ ⟨N, ns, rfl, hN, hl, hs⟩
    exact ⟨N, ns, rfl, hN, hl, fun s h => hmono _ _ (hs s h)⟩
  · intro k x st hx hst
    obtain ⟨x0, hx0, hX0⟩ := slice0 _ x hx
    obtain ⟨o, n, i, h1, h2, -, h4⟩ := hcall k x0 none hX0 (by simp)
    cases st with
    | none =>
      obtain ⟨w, hw1, hw2⟩ := tile_total (m := m) (hI k i h4).2.1.tensors
      exact key k x none i w _ o n hx (by simp) (fun y hy => by rw [hx0] at hy; cases hy; exact h1) h2.2.1 hw1 hw2 (by simp)
        (fun s hs => by rw [List.eq_of_mem_replicate hs]; exact h4)
    | some s =>
      obtain ⟨N, ns, rfl, hN, hl, hs⟩ := hst s rfl
      exact key k x _ i N ns o n hx (by rintro _ ⟨⟩; exact (stFits hN hl hs).1) (fun y hy => by rw [hx0] at hy; cases hy; exact h1) h2.2.1 rfl hN hl hs

end

/-! #### without bounds -/
section
variable [TFNum α]

theorem grading_true : Grading 0 (fun _ _ => True) := ⟨fun _ _ _ => trivial, fun _ _ _ => trivial⟩

theorem Compose_steady {ops : List (Operator α)} {T S : Nat → PyVal (DType × List Nat)} (hne : ops ≠ [])
    (h : ∀ k (hk : k < ops.reverse.length), ops.reverse[k].Steady (T k) (T (k + 1)) (S k)) :
    (Compose ops).Steady (T 0) (T ops.length) (.tup ((List.range ops.length).map S)) :=
  graded_true.1 (Compose_graded hne fun k hk => graded_true.2 (h k hk))

theorem Join_steady {ops : List (Operator α)} {X O S : Nat → PyVal (DType × List Nat)}
    (h : ∀ k (hk : k < ops.length), ops[k].Steady (X k) (O k) (S k)) :
    (Join ops).Steady (.tup ((List.range ops.length).map X)) (.tup ((List.range ops.length).map O)) (.tup ((List.range ops.length).map S)) :=
  graded_true.1 (Join_graded fun k hk => graded_true.2 (h k hk))

/-- FFill of a steady operator is steady. -/
theorem FFill_steady {op : Operator α} {X O S} (h : op.Steady X O S) (hX : AllFloat X) (hO : Passable O) (hS : S = PyVal.unit ∨ Passable S) :
    (FFill op).Steady X O (.tup [O, S]) :=
  graded_true.1 (FFill_graded grading_true (graded_true.2 h) hX hO hS)

/-- Map of a steady operator is steady. -/
theorem Map_steady {op : Operator α} (hop : op.Sane) {X O S} (h : op.Steady X O S) (hX : flatten X ≠ []) {m : Nat} (hm : 0 < m) :
    (Map op (m : Int)).Steady (tMany m X) (tMany m O) (.tup [tMany m S]) :=
  graded_true.1 (Map_graded hop (graded_true.2 h) hX hm)

end

end TS
