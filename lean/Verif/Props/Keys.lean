import Verif.Props.Helpers
import Mathlib.Data.List.Forall2
/-
C07, more arguments: `map_fn` on a dict looks the keys up in every argument; on a list or tuple every argument must be one of these.
-/
namespace TS
open PyVal
variable {A B C : Type}

/-- `v` is found under the key `k` in the dict `o`. -/
def Under (k : String) (o v : PyVal B) : Prop :=
  ∃ ks vs, ∃ i : Nat, o = .node (.dict ks) vs ∧ ks[i]? = some k ∧ vs[i]? = some v ∧ ∀ j, j < i → ks[j]? ≠ some k

theorem lookupKey_ok {k : String} {ks : List String} {vs : List (PyVal B)} {v : PyVal B} :
    lookupKey k ks vs = .ok v ↔ ∃ i : Nat, ks[i]? = some k ∧ vs[i]? = some v ∧ ∀ j, j < i → ks[j]? ≠ some k := by
  induction ks generalizing vs with
  | nil => simp [lookupKey]
  | cons k' ks ih =>
    cases vs with
    | nil => simp [lookupKey]
    | cons x vs =>
      rw [lookupKey]
      by_cases h : k = k'
      · subst h
        rw [if_pos rfl]
        constructor
        · intro e; exact ⟨0, by simp, by simpa using Except.ok.inj e, by simp⟩
        · rintro ⟨i, h1, h2, h3⟩
          cases i with
          | zero => simpa using h2
          | succ i => exact absurd (h3 0 (by omega)) (by simp)
      · rw [if_neg h, ih]
        constructor
        · rintro ⟨i, h1, h2, h3⟩
          refine ⟨i + 1, by simpa using h1, by simpa using h2, fun j hj => ?_⟩
          cases j with
          | zero => simpa using Ne.symm h
          | succ j => simpa using h3 j (by omega)
        · rintro ⟨i, h1, h2, h3⟩
          cases i with
          | zero => exact absurd (by simpa using h1.symm) h
          | succ i => exact ⟨i, by simpa using h1, by simpa using h2, fun j hj => by simpa using h3 (j + 1) (by omega)⟩

theorem getKey_ok {k : String} {o v : PyVal B} : getKey k o = .ok v ↔ Under k o v := by
  constructor
  · intro h
    match o, h with
    | .node (.dict ks) vs, h =>
      obtain ⟨i, h⟩ := lookupKey_ok.1 h
      exact ⟨ks, vs, i, rfl, h⟩
  · rintro ⟨ks, vs, i, rfl, h⟩
    exact lookupKey_ok.2 ⟨i, h⟩

theorem mapM_forall₂ {D E : Type} {g : D → Res E} {R : D → E → Prop} (h : ∀ d e, g d = .ok e ↔ R d e) (ds : List D) (es : List E) :
    ds.mapM g = .ok es ↔ List.Forall₂ R ds es := by
  induction ds generalizing es with
  | nil => cases es <;> simp [pure, Except.pure]
  | cons d ds ih =>
    rw [List.mapM_cons]
    constructor
    · intro hk
      obtain ⟨e, h1, hk⟩ := bind_eq_ok.1 hk
      obtain ⟨es', h2, hk⟩ := bind_eq_ok.1 hk
      cases hk
      exact .cons ((h _ _).1 h1) ((ih _).1 h2)
    · rintro (_ | ⟨h1, h2⟩)
      rw [(h _ _).2 h1, (ih _).2 h2]; rfl

theorem mapFnDict_ok (f : List (PyVal B) → Res C) (objs : List (PyVal B)) : ∀ (keys : List String) (xs : List (PyVal A)), keys.length = xs.length → ∀ ys,
    mapFnDict f keys xs objs = .ok ys ↔ ys.length = xs.length ∧ ∀ (i : Nat) k x y, keys[i]? = some k → xs[i]? = some x → ys[i]? = some y →
      ∃ args, List.Forall₂ (Under k) objs args ∧ mapFn f x args = .ok y
  | [], [], _, ys => by cases ys <;> simp [mapFnDict]
  | k :: keys, x :: xs, hl, ys => by
    rw [mapFnDict]
    constructor
    · intro h
      obtain ⟨args, h1, h⟩ := bind_eq_ok.1 h
      obtain ⟨y, h2, h⟩ := bind_eq_ok.1 h
      obtain ⟨ys', h3, h⟩ := bind_eq_ok.1 h
      cases h
      obtain ⟨e, h4⟩ := (mapFnDict_ok f objs keys xs (by simpa using hl) ys').1 h3
      refine ⟨by simpa using e, fun i k' x' y' a b c => ?_⟩
      cases i with
      | zero =>
        simp at a b c
        subst a b c
        exact ⟨args, (mapM_forall₂ (fun _ _ => getKey_ok) _ _).1 h1, h2⟩
      | succ i => exact h4 i k' x' y' (by simpa using a) (by simpa using b) (by simpa using c)
    · rintro ⟨e, h⟩
      cases ys with
      | nil => simp at e
      | cons y ys =>
        obtain ⟨args, h1, h2⟩ := h 0 k x y rfl rfl rfl
        have h3 := (mapFnDict_ok f objs keys xs (by simpa using hl) ys).2 ⟨by simpa using e, fun i k' x' y' a b c =>
          h (i + 1) k' x' y' (by simpa using a) (by simpa using b) (by simpa using c)⟩
        rw [(mapM_forall₂ (fun _ _ => getKey_ok) _ _).2 h1]
        simp only [bind, Except.bind, h2, h3]

/-- **C07 (dicts).**  `map_fn` on a dict gives a dict with the same keys.  Every value comes from what the arguments have under its key; the order of their keys
does not matter and further keys are dropped, but an argument that lacks a key, or is no dict, is an error. -/
theorem C07_map_fn_keys (f : List (PyVal B) → Res C) {keys : List String} {xs : List (PyVal A)} (hl : keys.length = xs.length) (objs : List (PyVal B)) (z : PyVal C) :
    mapFn f (.node (.dict keys) xs) objs = .ok z ↔
      ∃ ys, z = .node (.dict keys) ys ∧ ys.length = xs.length ∧ ∀ (i : Nat) k x y, keys[i]? = some k → xs[i]? = some x → ys[i]? = some y →
        ∃ args, List.Forall₂ (Under k) objs args ∧ mapFn f x args = .ok y := by
  rw [mapFn]
  constructor
  · intro h
    obtain ⟨ys, h1, h⟩ := bind_eq_ok.1 h
    cases h
    exact ⟨ys, rfl, (mapFnDict_ok f objs keys xs hl ys).1 h1⟩
  · rintro ⟨ys, rfl, h⟩
    rw [(mapFnDict_ok f objs keys xs hl ys).2 h]; rfl
example := C07_map_fn_keys (A := ℚ) (B := ℚ) (C := ℚ) (fn1 .ok) (keys := ["a", "b"]) (xs := [.leaf 1, .leaf 2]) rfl [.node (.dict ["b", "a", "c"]) [.leaf 3, .leaf 4, .leaf 5]]
  (.node (.dict ["a", "b"]) [.leaf 4, .leaf 3])
example : mapFn (fn1 .ok) (.node (.dict ["a", "b"]) [.leaf 1, .leaf 2] : PyVal Nat) [.node (.dict ["b", "a", "c"]) [.leaf 3, .leaf 4, .leaf 5]] =
    .ok (.node (.dict ["a", "b"]) [.leaf 4, .leaf 3] : PyVal Nat) := by decide +kernel

/-- **C07 (arguments of another kind).**  On a list or tuple an argument that is neither is an error. -/
theorem C07_map_fn_kinds (f : List (PyVal B) → Res C) {k : Kind} (hk : k = .list ∨ k = .tuple) (xs : List (PyVal A)) {objs : List (PyVal B)} {z : PyVal C}
    (h : mapFn f (.node k xs) objs = .ok z) : ∀ o ∈ objs, ∃ k' ys, o = .node k' ys ∧ (k' = .list ∨ k' = .tuple) := by
  have hd : ∀ keys, k ≠ .dict keys := by rcases hk with rfl | rfl <;> simp
  rw [mapFn_seq f k hd] at h
  obtain ⟨rows, h1, -⟩ := bind_eq_ok.1 h
  clear h
  intro o ho
  have : List.Forall₂ (fun o r => asSeq o = .ok r) objs rows := (mapM_forall₂ (fun _ _ => Iff.rfl) _ _).1 h1
  clear h1
  induction this with
  | nil => simp at ho
  | cons a _ ih =>
    rcases List.mem_cons.1 ho with rfl | ho
    · match o, a with
      | .node .list ys, _ => exact ⟨_, ys, rfl, .inl rfl⟩
      | .node .tuple ys, _ => exact ⟨_, ys, rfl, .inr rfl⟩
    · exact ih ho
example := C07_map_fn_kinds (A := ℚ) (B := ℚ) (C := ℚ) (fn1 .ok) (k := .tuple) (.inr rfl) [.leaf 3] (objs := [.node .list [.leaf 4]]) (z := .tup [.leaf 4]) rfl

end TS
