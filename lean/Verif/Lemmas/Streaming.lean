import Verif.Spec.Streaming
import Mathlib.Data.List.Forall2
/-
The streaming loop unfolded into a fold over the slices.
-/
namespace TS
open PyVal

section generic
variable {A B C : Type}

theorem mapM_eq_ok_iff {f : A → Res C} {xs : List A} {ys : List C} :
    xs.mapM f = .ok ys ↔ List.Forall₂ (fun x y => f x = .ok y) xs ys := by
  induction xs generalizing ys with
  | nil => simp [eq_comm]
  | cons x xs ih =>
    simp only [List.mapM_cons, bind_eq_ok, pure_eq_ok, Except.ok.injEq]
    constructor
    · rintro ⟨a, ha, b, hb, rfl⟩
      exact .cons ha (ih.1 hb)
    · intro h
      cases h with
      | cons h1 h2 => exact ⟨_, h1, _, ih.2 h2, rfl⟩

theorem mapM_eq_ok_iff_get {f : A → Res C} {xs : List A} {ys : List C} :
    xs.mapM f = .ok ys ↔ ∃ h : xs.length = ys.length, ∀ i (hi : i < xs.length), f xs[i] = .ok (ys[i]'(h ▸ hi)) := by
  rw [mapM_eq_ok_iff, List.forall₂_iff_get]
  constructor
  · rintro ⟨h, h'⟩
    exact ⟨h, fun i hi => h' i hi (h ▸ hi)⟩
  · rintro ⟨h, h'⟩
    exact ⟨h, fun i hi _ => h' i hi⟩

theorem zipM_eq_ok_iff (f : A → B → Res C) (v : PyVal A) : ∀ (w : PyVal B) (u : PyVal C),
    v.skel = w.skel →
    (zipM f v w = .ok u ↔ u.skel = v.skel ∧
      ((flatten v).zip (flatten w)).mapM (fun p => f p.1 p.2) = .ok (flatten u)) := by
  induction v using PyVal.ind with
  | leaf t =>
    intro w u hs
    cases w with
    | node k ys => simp at hs
    | leaf t' => cases u <;> simp [bind_eq_ok]
  | node k xs ih =>
    intro w u hs
    cases w with
    | leaf t => simp at hs
    | node k' zs =>
      simp only [skel_node, PyVal.node.injEq] at hs
      obtain ⟨rfl, hs⟩ := hs
      cases u with
      | leaf c => simp [bind_eq_ok]
      | node k' us =>
        have key : ∀ (zs : List (PyVal B)) (us : List (PyVal C)), xs.map skel = zs.map skel →
            (zipMs f xs zs = .ok us ↔ us.map skel = xs.map skel ∧
              ((xs.flatMap flatten).zip (zs.flatMap flatten)).mapM (fun p => f p.1 p.2) =
                .ok (us.flatMap flatten)) := by
          clear hs
          induction xs with
          | nil => intro zs us _; cases us <;> simp
          | cons x xs ihx =>
            intro zs us hz
            cases zs with
            | nil => simp at hz
            | cons z zs =>
            simp only [List.map_cons, List.cons.injEq] at hz
            have hl : (flatten x).length = (flatten z).length := length_flatten_of_skel_eq hz.1
            have ihx' := ihx (fun z hz => ih z (by simp [hz]))
            cases us with
            | nil => simp [bind_eq_ok]
            | cons u us =>
              simp only [zipMs_cons, bind_eq_ok, pure_eq_ok, Except.ok.injEq, List.cons.injEq,
                List.map_cons, List.flatMap_cons, List.zip_append hl, List.mapM_append]
              constructor
              · rintro ⟨_, h1, _, h2, rfl, rfl⟩
                obtain ⟨a1, a2⟩ := (ih x (by simp) _ _ hz.1).1 h1
                obtain ⟨b1, b2⟩ := (ihx' _ _ hz.2).1 h2
                exact ⟨⟨a1, b1⟩, _, a2, _, b2, rfl⟩
              · rintro ⟨⟨h1, h2⟩, a, ha, b, hb, h3⟩
                have hl' : a.length = (flatten u).length := by
                  rw [length_flatten_of_skel_eq h1, length_of_mapM_ok ha]; simp [hl]
                obtain ⟨rfl, rfl⟩ := List.append_inj h3 hl'
                exact ⟨u, (ih x (by simp) _ _ hz.1).2 ⟨h1, ha⟩, us, (ihx' _ _ hz.2).2 ⟨h2, hb⟩, rfl, rfl⟩
        simp only [zipM_node, bind_eq_ok, Except.ok.injEq, PyVal.node.injEq, skel_node, flatten_node]
        constructor
        · rintro ⟨_, h, rfl, rfl⟩
          have := (key _ _ hs).1 h
          exact ⟨⟨rfl, this.1⟩, this.2⟩
        · rintro ⟨⟨rfl, h1⟩, h2⟩
          exact ⟨_, (key _ _ hs).2 ⟨h1, h2⟩, rfl, rfl⟩

end generic

/-! ### stacking -/
section stack
variable {β α : Type}

theorem Tensor.index_ext {t t' : Tensor β} {n : Nat} (hn : 0 < n) (h : t.size0 = .ok n) (h' : t'.size0 = .ok n)
    (hi : ∀ i < n, t.index i = t'.index i) : t = t' := by
  obtain ⟨s, v⟩ := t
  obtain ⟨s', v'⟩ := t'
  cases s with
  | nil => simp [Tensor.size0] at h
  | cons m s =>
  cases s' with
  | nil => simp [Tensor.size0] at h'
  | cons m' s' =>
    simp only [Tensor.size0, Except.ok.injEq] at h h'
    subst h; subst h'
    have h0 := hi 0 hn
    simp only [Tensor.index, hn, dif_pos, Except.ok.injEq, Tensor.mk.injEq] at h0
    obtain ⟨rfl, h0⟩ := h0
    congr 1
    funext ⟨⟨i, hlt⟩, c⟩
    have := hi i hlt
    simp only [Tensor.index, hlt, dif_pos, Except.ok.injEq, Tensor.mk.injEq, heq_eq_eq, true_and] at this
    exact congrFun this c

theorem Tensor.asShape_eq_ok {s : List Nat} {t : Tensor β} {v : Idx s → β} :
    t.asShape s = .ok v ↔ t = ⟨s, v⟩ := by
  obtain ⟨s', v'⟩ := t
  constructor
  · intro h
    unfold Tensor.asShape at h
    split at h
    · rename_i h'
      simp only at h'
      subst h'
      simpa using h
    · cases h
  · intro h
    cases h
    simp

theorem Tensor.stack_eq_ok {l : List (Tensor β)} (hl : l ≠ []) {t : Tensor β} :
    Tensor.stack l = .ok t ↔ t.size0 = .ok l.length ∧ ∀ i (h : i < l.length), t.index i = .ok l[i] := by
  cases l with
  | nil => exact absurd rfl hl
  | cons x l =>
    constructor
    · intro h
      simp only [Tensor.stack, bind_eq_ok, Except.ok.injEq] at h
      obtain ⟨vs, h1, rfl⟩ := h
      obtain ⟨hlen, h1⟩ := mapM_eq_ok_iff_get.1 h1
      refine ⟨by rw [Tensor.size0_pack, hlen], fun i hi => ?_⟩
      have := h1 i hi
      rw [Tensor.asShape_eq_ok] at this
      rw [Tensor.index_pack _ _ _ (hlen ▸ hi), this]
    · rintro ⟨h1, h2⟩
      obtain ⟨s, v⟩ := t
      cases s with
      | nil => simp [Tensor.size0] at h1
      | cons n s =>
      simp only [Tensor.size0, Except.ok.injEq, List.length_cons] at h1
      have hx : x.shape = s := by
        have := h2 0 (by simp)
        have hn : 0 < n := by omega
        simp only [Tensor.index, hn, dif_pos, Except.ok.injEq, List.getElem_cons_zero] at this
        rw [← this]
      subst hx
      have hm : (x :: l).mapM (Tensor.asShape x.shape) = .ok (List.ofFn fun i : Fin n => fun c => v (i, c)) := by
        rw [mapM_eq_ok_iff_get]
        refine ⟨by simp [h1], fun i hi => ?_⟩
        rw [Tensor.asShape_eq_ok]
        have := h2 i hi
        have hn : i < n := by simp at hi; omega
        simp only [Tensor.index, hn, dif_pos, Except.ok.injEq] at this
        rw [← this]
        simp
      simp only [Tensor.stack, hm, ok_bind, Except.ok.injEq]
      apply Tensor.index_ext (n := n) (by omega)
      · simp [Tensor.pack, Tensor.size0]
      · rfl
      · intro i hi
        rw [Tensor.index_pack _ _ _ (by simpa using hi)]
        simp [Tensor.index, hi]

theorem Leaf.stack_eq_ok {l : List (Leaf α)} (hl : l ≠ []) {t : Leaf α} :
    Leaf.stack l = .ok t ↔ t.size0 = .ok l.length ∧ ∀ i (h : i < l.length), t.index i = .ok l[i] := by
  have nil : ∀ {γ : Type} (mk : Tensor γ → Leaf α) (as : Leaf α → Res (Tensor γ)),
      (∀ x y, as x = .ok y ↔ x = mk y) → (∀ x y, mk x = mk y → x = y) → ∀ (t : Leaf α),
      ((do .ok (mk (← Tensor.stack (← l.mapM as))) : Res (Leaf α)) = .ok t ↔
        ∃ t', t = mk t' ∧ t'.size0 = .ok l.length ∧
          ∀ i (h : i < l.length), (t'.index i).map mk = .ok l[i]) := by
    intro γ mk as has hinj t
    constructor
    · intro h
      simp only [bind_eq_ok, Except.ok.injEq] at h
      obtain ⟨ts, h1, t', h2, rfl⟩ := h
      obtain ⟨hlen, h1⟩ := mapM_eq_ok_iff_get.1 h1
      have hts : ts ≠ [] := by
        intro e; subst e; simp at hlen; exact hl hlen
      obtain ⟨h3, h4⟩ := (Tensor.stack_eq_ok hts).1 h2
      refine ⟨t', rfl, by rw [h3, hlen], fun i hi => ?_⟩
      rw [h4 i (hlen ▸ hi), (has _ _).1 (h1 i hi)]
      rfl
    · rintro ⟨t', rfl, h1, h2⟩
      have h3 : ∀ i (hi : i < l.length), ∃ y, t'.index i = .ok y ∧ l[i] = mk y := by
        intro i hi
        have := h2 i hi
        cases hx : t'.index i with
        | error e => simp [hx, Except.map] at this
        | ok y => exact ⟨y, rfl, by simpa [hx, Except.map] using this.symm⟩
      choose y hy1 hy2 using h3
      have hm : l.mapM as = .ok (List.ofFn fun i : Fin l.length => y i i.2) := by
        rw [mapM_eq_ok_iff_get]
        refine ⟨by simp, fun i hi => ?_⟩
        rw [has, hy2 i hi]; simp
      have hne : (List.ofFn fun i : Fin l.length => y i i.2) ≠ [] := by
        intro e
        have := congrArg List.length e
        simp at this
        exact hl this
      have hst := (Tensor.stack_eq_ok hne (t := t')).2 ⟨by simp [h1], fun i hi => by simpa using hy1 i (by simpa using hi)⟩
      simp [hm, hst]
  cases l with
  | nil => exact absurd rfl hl
  | cons x l =>
    cases x with
    | f x =>
      rw [show Leaf.stack (.f x :: l) = (do .ok (.f (← Tensor.stack (← (.f x :: l).mapM asF)))) from rfl,
        nil .f asF (by intro x y; cases x <;> simp [asF]) (by intro x y h; simpa using h)]
      constructor
      · rintro ⟨t', rfl, h1, h2⟩; exact ⟨h1, h2⟩
      · rintro ⟨h1, h2⟩
        have h0 := h2 0 (by simp)
        cases t with
        | f t' => exact ⟨t', rfl, h1, h2⟩
        | i t' => simp only [List.getElem_cons_zero, index] at h0; cases hh : t'.index 0 <;> simp [hh] at h0
        | b t' => simp only [List.getElem_cons_zero, index] at h0; cases hh : t'.index 0 <;> simp [hh] at h0
        | gen => simp [size0] at h1
    | i x =>
      rw [show Leaf.stack (.i x :: l) = (do .ok (.i (← Tensor.stack (← (.i x :: l).mapM asI)))) from rfl,
        nil .i asI (by intro x y; cases x <;> simp [asI]) (by intro x y h; simpa using h)]
      constructor
      · rintro ⟨t', rfl, h1, h2⟩; exact ⟨h1, h2⟩
      · rintro ⟨h1, h2⟩
        have h0 := h2 0 (by simp)
        cases t with
        | i t' => exact ⟨t', rfl, h1, h2⟩
        | f t' => simp only [List.getElem_cons_zero, index] at h0; cases hh : t'.index 0 <;> simp [hh] at h0
        | b t' => simp only [List.getElem_cons_zero, index] at h0; cases hh : t'.index 0 <;> simp [hh] at h0
        | gen => simp [size0] at h1
    | b x =>
      rw [show Leaf.stack (.b x :: l) = (do .ok (.b (← Tensor.stack (← (.b x :: l).mapM asB)))) from rfl,
        nil .b asB (by intro x y; cases x <;> simp [asB]) (by intro x y h; simpa using h)]
      constructor
      · rintro ⟨t', rfl, h1, h2⟩; exact ⟨h1, h2⟩
      · rintro ⟨h1, h2⟩
        have h0 := h2 0 (by simp)
        cases t with
        | b t' => exact ⟨t', rfl, h1, h2⟩
        | f t' => simp only [List.getElem_cons_zero, index] at h0; cases hh : t'.index 0 <;> simp [hh] at h0
        | i t' => simp only [List.getElem_cons_zero, index] at h0; cases hh : t'.index 0 <;> simp [hh] at h0
        | gen => simp [size0] at h1
    | gen =>
      simp only [stack, reduceCtorEq, false_iff]
      rintro ⟨h1, h2⟩
      have h0 := h2 0 (by simp)
      cases t with
      | f t' => simp only [List.getElem_cons_zero, index] at h0; cases hh : t'.index 0 <;> simp [hh] at h0
      | b t' => simp only [List.getElem_cons_zero, index] at h0; cases hh : t'.index 0 <;> simp [hh] at h0
      | i t' => simp only [List.getElem_cons_zero, index] at h0; cases hh : t'.index 0 <;> simp [hh] at h0
      | gen => simp [size0] at h1

end stack
end TS
