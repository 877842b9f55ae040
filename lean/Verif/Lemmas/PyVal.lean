import Verif.Model.Helpers
/-
Lemmas about nested values, `map_fn` and `flatten`.
-/
namespace TS
open PyVal

variable {A B C D : Type}

namespace PyVal

mutual
/-- Structural traversal with errors (specification of one-argument `map_fn`). -/
def traverse (f : A → Res C) : PyVal A → Res (PyVal C)
  | .leaf a => do .ok (.leaf (← f a))
  | .node k xs => do .ok (.node k (← traverses f xs))
def traverses (f : A → Res C) : List (PyVal A) → Res (List (PyVal C))
  | [] => .ok []
  | x :: xs => do
    let y ← traverse f x
    let ys ← traverses f xs
    .ok (y :: ys)
end

mutual
/-- Structural traversal of two values of the same structure. -/
def zipM (f : A → B → Res C) : PyVal A → PyVal B → Res (PyVal C)
  | .leaf a, .leaf b => do .ok (.leaf (← f a b))
  | .node k xs, .node _ ys => do .ok (.node k (← zipMs f xs ys))
  | .leaf _, .node _ _ => .error .structure
  | .node _ _, .leaf _ => .error .structure
def zipMs (f : A → B → Res C) : List (PyVal A) → List (PyVal B) → Res (List (PyVal C))
  | x :: xs, y :: ys => do
    let z ← zipM f x y
    let zs ← zipMs f xs ys
    .ok (z :: zs)
  | _, _ => .ok []
end

/-! ### flatten -/

@[simp] theorem flatten_leaf (t : A) : flatten (.leaf t : PyVal A) = [t] := by simp [flatten]
theorem flattens_eq (xs : List (PyVal A)) : flattens xs = xs.flatMap flatten := by
  induction xs with
  | nil => simp [flattens]
  | cons x xs ih => simp [flattens, ih]
@[simp] theorem flatten_node (k : Kind) (xs : List (PyVal A)) :
    flatten (.node k xs) = xs.flatMap flatten := by simp [flatten, flattens_eq]

theorem flatten_map (f : A → B) (v : PyVal A) : flatten (v.map f) = (flatten v).map f := by
  induction v using PyVal.ind with
  | leaf t => simp
  | node k xs ih =>
    simp only [map_node, flatten_node, List.flatMap_map, List.map_flatMap]
    exact List.flatMap_congr ih

theorem map_map (f : A → B) (g : B → C) (v : PyVal A) : (v.map f).map g = v.map (g ∘ f) := by
  induction v using PyVal.ind with
  | leaf t => simp
  | node k xs ih => simp; intro a ha; exact ih a ha

theorem map_id (v : PyVal A) : v.map id = v := by
  induction v using PyVal.ind with
  | leaf t => simp
  | node k xs ih =>
    simp only [map_node]
    congr 1
    conv_rhs => rw [← List.map_id xs]
    exact List.map_congr_left ih

theorem map_congr {f g : A → B} (v : PyVal A) (h : ∀ a ∈ flatten v, f a = g a) : v.map f = v.map g := by
  induction v using PyVal.ind with
  | leaf t => simp at h; simp [h]
  | node k xs ih =>
    simp only [map_node]
    congr 1
    refine List.map_congr_left fun x hx => ih x hx fun a ha => h a ?_
    simp only [flatten_node, List.mem_flatMap]
    exact ⟨x, hx, ha⟩

@[simp] theorem skel_map (f : A → B) (v : PyVal A) : (v.map f).skel = v.skel := by
  simp [skel, map_map, Function.comp_def]

theorem WF_node (k : Kind) (xs : List (PyVal A)) : (PyVal.node k xs).WF ↔
    (∀ keys, k = .dict keys → keys.length = xs.length ∧ keys.Nodup) ∧ ∀ x ∈ xs, x.WF := by
  cases k <;> simp [WF, WFs_iff]

@[simp] theorem WF_leaf (t : A) : (PyVal.leaf t : PyVal A).WF := by simp [WF]

theorem WF_map (f : A → B) (v : PyVal A) : (v.map f).WF ↔ v.WF := by
  induction v using PyVal.ind with
  | leaf t => simp
  | node k xs ih =>
    simp only [map_node, WF_node, List.length_map, List.mem_map, forall_exists_index, and_imp,
      forall_apply_eq_imp_iff₂]
    refine and_congr Iff.rfl ?_
    exact forall₂_congr ih

theorem WF_skel (v : PyVal A) : v.skel.WF ↔ v.WF := WF_map _ v

theorem WF_of_skel_eq {v : PyVal A} {w : PyVal B} (h : v.skel = w.skel) : v.WF ↔ w.WF := by
  rw [← WF_skel v, h, WF_skel]

/-- Number of leaves only depends on the structure. -/
theorem length_flatten_skel (v : PyVal A) : (flatten v).length = (flatten v.skel).length := by
  simp [skel, flatten_map]

theorem length_flatten_of_skel_eq {v : PyVal A} {w : PyVal B} (h : v.skel = w.skel) :
    (flatten v).length = (flatten w).length := by
  rw [length_flatten_skel v, length_flatten_skel w, h]

/-- Structure and leaves determine the value. -/
theorem eq_of_skel_of_flatten (v : PyVal A) : ∀ w : PyVal A,
    v.skel = w.skel → flatten v = flatten w → v = w := by
  induction v using PyVal.ind with
  | leaf t =>
    intro w h1 h2
    cases w with
    | leaf t' => simpa using h2
    | node k ys => simp at h1
  | node k xs ih =>
    intro w h1 h2
    cases w with
    | leaf t' => simp at h1
    | node k' ys =>
      simp only [skel_node, PyVal.node.injEq] at h1
      obtain ⟨rfl, h1⟩ := h1
      simp only [flatten_node] at h2
      congr 1
      induction xs generalizing ys with
      | nil => cases ys with
        | nil => rfl
        | cons y ys => simp at h1
      | cons x xs ihx => cases ys with
        | nil => simp at h1
        | cons y ys =>
          simp only [List.map_cons, List.cons.injEq] at h1
          simp only [List.flatMap_cons] at h2
          obtain ⟨h2a, h2b⟩ := List.append_inj h2 (length_flatten_of_skel_eq h1.1)
          rw [ih x (by simp) y h1.1 h2a, ihx (fun z hz => ih z (by simp [hz])) ys h1.2 h2b]

/-- A structure can be filled with any leaves. -/
theorem exists_of_skel_flatten (w : PyVal A) : ∀ (l : List B), l.length = (flatten w).length →
    ∃ u : PyVal B, u.skel = w.skel ∧ flatten u = l := by
  induction w using PyVal.ind with
  | leaf t =>
    intro l hl
    match l, hl with
    | [x], _ => exact ⟨.leaf x, by simp, by simp⟩
  | node k xs ihx =>
    have : ∀ (xs : List (PyVal A)), (∀ x ∈ xs, ∀ l : List B, l.length = (flatten x).length →
        ∃ u : PyVal B, u.skel = x.skel ∧ flatten u = l) →
        ∀ l : List B, l.length = (xs.flatMap flatten).length →
        ∃ us : List (PyVal B), us.map skel = xs.map skel ∧ us.flatMap flatten = l := by
      intro xs
      induction xs with
      | nil => intro _ l hl; exact ⟨[], rfl, by simp at hl; simp [hl]⟩
      | cons x xs ih2 =>
        intro hx l hl
        simp only [List.flatMap_cons, List.length_append] at hl
        obtain ⟨u, hu1, hu2⟩ := hx x (by simp) (l.take (flatten x).length) (by simp; omega)
        obtain ⟨us, hus1, hus2⟩ := ih2 (fun y hy => hx y (by simp [hy])) (l.drop (flatten x).length)
          (by rw [List.length_drop]; omega)
        exact ⟨u :: us, by simp [hu1, hus1], by simp [hu2, hus2]⟩
    intro l hl
    simp only [flatten_node] at hl
    obtain ⟨us, hu1, hu2⟩ := this xs ihx l hl
    exact ⟨.node k us, by simp [hu1], by simp [hu2]⟩

/-! ### traverse -/

@[simp] theorem traverse_leaf (f : A → Res C) (a : A) :
    traverse f (.leaf a) = (do .ok (.leaf (← f a))) := by simp [traverse]
theorem traverses_eq (f : A → Res C) (xs : List (PyVal A)) : traverses f xs = xs.mapM (traverse f) := by
  induction xs with
  | nil => simp [traverses]
  | cons x xs ih => simp [traverses, ih]
@[simp] theorem traverse_node (f : A → Res C) (k : Kind) (xs : List (PyVal A)) :
    traverse f (.node k xs) = (do .ok (.node k (← xs.mapM (traverse f)))) := by
  simp [traverse, traverses_eq]

theorem mapM_ok_of_forall {f : A → Res C} {g : A → C} (xs : List A) (h : ∀ x ∈ xs, f x = .ok (g x)) :
    xs.mapM f = .ok (xs.map g) := by
  induction xs with
  | nil => simp
  | cons x xs ih =>
    simp [h x (by simp), ih (fun y hy => h y (by simp [hy]))]

theorem traverse_ok (f : A → Res C) (g : A → C) (v : PyVal A)
    (h : ∀ a ∈ flatten v, f a = .ok (g a)) : traverse f v = .ok (v.map g) := by
  induction v using PyVal.ind with
  | leaf t => simp at h; simp [h]
  | node k xs ih =>
    rw [traverse_node, mapM_ok_of_forall (g := map g)]
    · simp
    · intro x hx
      refine ih x hx fun a ha => h a ?_
      simp only [flatten_node, List.mem_flatMap]
      exact ⟨x, hx, ha⟩

theorem length_of_mapM_ok {f : A → Res C} {xs : List A} {ys : List C} (h : xs.mapM f = .ok ys) :
    ys.length = xs.length := by
  induction xs generalizing ys with
  | nil => simp at h; simp [← h]
  | cons x xs ih =>
    simp only [List.mapM_cons, bind_eq_ok, pure_eq_ok, Except.ok.injEq] at h
    obtain ⟨_, _, _, h2, rfl⟩ := h
    simp [ih h2]

/-- `traverse` succeeds with `w` exactly when `w` has the structure of `v` and the leaf images. -/
theorem traverse_eq_ok_iff (f : A → Res C) (v : PyVal A) : ∀ w : PyVal C,
    traverse f v = .ok w ↔ w.skel = v.skel ∧ (flatten v).mapM f = .ok (flatten w) := by
  induction v using PyVal.ind with
  | leaf t =>
    intro w
    cases w with
    | leaf c => simp [bind_eq_ok]
    | node k ys => simp [bind_eq_ok]
  | node k xs ih =>
    intro w
    cases w with
    | leaf c => simp [bind_eq_ok]
    | node k' ys =>
      have key : ∀ ys : List (PyVal C), xs.mapM (traverse f) = .ok ys ↔
          ys.map skel = xs.map skel ∧ (xs.flatMap flatten).mapM f = .ok (ys.flatMap flatten) := by
        induction xs with
        | nil => intro ys; cases ys <;> simp
        | cons x xs ihx =>
          intro ys
          have ihx' := ihx (fun z hz => ih z (by simp [hz]))
          cases ys with
          | nil => simp [bind_eq_ok]
          | cons y ys =>
            simp only [List.mapM_cons, bind_eq_ok, pure_eq_ok, Except.ok.injEq, List.cons.injEq,
              List.map_cons, List.flatMap_cons, List.mapM_append]
            constructor
            · rintro ⟨_, h1, _, h2, rfl, rfl⟩
              obtain ⟨a1, a2⟩ := (ih x (by simp) _).1 h1
              obtain ⟨b1, b2⟩ := (ihx' _).1 h2
              exact ⟨⟨a1, b1⟩, _, a2, _, b2, rfl⟩
            · rintro ⟨⟨h1, h2⟩, a, ha, b, hb, h3⟩
              have hl : a.length = (flatten y).length := by
                rw [length_flatten_of_skel_eq h1]
                exact (length_of_mapM_ok ha)
              obtain ⟨rfl, rfl⟩ := List.append_inj h3 hl
              exact ⟨y, (ih x (by simp) _).2 ⟨h1, ha⟩, ys, (ihx' _).2 ⟨h2, hb⟩, rfl, rfl⟩
      simp only [traverse_node, bind_eq_ok, Except.ok.injEq, PyVal.node.injEq, skel_node, flatten_node]
      constructor
      · rintro ⟨_, h, rfl, rfl⟩
        have := (key _).1 h
        exact ⟨⟨rfl, this.1⟩, this.2⟩
      · rintro ⟨⟨rfl, h1⟩, h2⟩
        exact ⟨_, (key _).2 ⟨h1, h2⟩, rfl, rfl⟩

end PyVal
end TS
