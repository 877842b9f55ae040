import Verif.Base.Err
/-
Python nested values: leaves inside tuples, lists and dicts.
-/
namespace TS

/-- Which Python container a node is.  A `dict` is represented by its keys next to its values; the
representation is canonical (keys sorted), because Python dict equality ignores insertion order (the three `isinstance` tests of helpers/map_fn.py:3-8). -/
inductive Kind where
  | tuple
  | list
  | dict (keys : List String)
  deriving DecidableEq, Repr

/-- A Python value made of nested containers with leaves of type `T` (helpers/map_fn.py:2-10,
helpers/flatten.py:2-12 walk exactly these values). -/
inductive PyVal (T : Type) where
  | leaf (t : T)
  | node (k : Kind) (xs : List (PyVal T))

namespace PyVal

/-- Python `()` (e.g. common/make_streamable.py:11). -/
abbrev unit {T : Type} : PyVal T := .node .tuple []
/-- Python tuple (e.g. meta/join.py:22). -/
abbrev tup {T : Type} (xs : List (PyVal T)) : PyVal T := .node .tuple xs

variable {T U : Type}

theorem ind {P : PyVal T → Prop} (leaf : ∀ t, P (.leaf t))
    (node : ∀ k xs, (∀ x ∈ xs, P x) → P (.node k xs)) (v : PyVal T) : P v := by
  induction v using PyVal.rec (motive_2 := fun xs => ∀ x ∈ xs, P x) with
  | leaf t => exact leaf t
  | node k xs ih => exact node k xs ih
  | nil x hx => cases hx
  | cons h t ih1 ih2 x hx =>
    rcases List.mem_cons.1 hx with h | h
    · exact h ▸ ih1
    · exact ih2 x h

mutual
/-- Decidable equality of nested values (not in the code, for evaluating examples; the comparison of types at streamable.py:13 uses it). -/
def decEq [DecidableEq T] : (a b : PyVal T) → Decidable (a = b)
  | .leaf x, .leaf y =>
    match decEqOf x y with
    | .isTrue h => .isTrue (by rw [h])
    | .isFalse h => .isFalse (by intro e; cases e; exact h rfl)
  | .leaf _, .node _ _ => .isFalse (by intro e; cases e)
  | .node _ _, .leaf _ => .isFalse (by intro e; cases e)
  | .node k xs, .node k' ys =>
    match decEqOf k k', decEqList xs ys with
    | .isTrue h, .isTrue h' => .isTrue (by rw [h, h'])
    | .isFalse h, _ => .isFalse (by intro e; cases e; exact h rfl)
    | _, .isFalse h => .isFalse (by intro e; cases e; exact h rfl)
where
  decEqOf {A : Type} [inst : DecidableEq A] (x y : A) : Decidable (x = y) := inst x y
/-- Decidable equality of lists of nested values (see streamable.py:13). -/
def decEqList [DecidableEq T] : (a b : List (PyVal T)) → Decidable (a = b)
  | [], [] => .isTrue rfl
  | [], _ :: _ => .isFalse (by intro e; cases e)
  | _ :: _, [] => .isFalse (by intro e; cases e)
  | x :: xs, y :: ys =>
    match decEq x y, decEqList xs ys with
    | .isTrue h, .isTrue h' => .isTrue (by rw [h, h'])
    | .isFalse h, _ => .isFalse (by intro e; cases e; exact h rfl)
    | _, .isFalse h => .isFalse (by intro e; cases e; exact h rfl)
end

instance [DecidableEq T] : DecidableEq (PyVal T) := decEq

mutual
/-- Well-formed: every dict has as many values as keys and no duplicate key (Python guarantees it of the dicts that reach helpers/map_fn.py:3). -/
def WF : PyVal T → Prop
  | .leaf _ => True
  | .node k xs => (match k with | .dict keys => keys.length = xs.length ∧ keys.Nodup | _ => True) ∧ WFs xs
/-- Well-formed lists of values (the elements of helpers/map_fn.py:5-8). -/
def WFs : List (PyVal T) → Prop
  | [] => True
  | x :: xs => WF x ∧ WFs xs
end

mutual
/-- The pure leaf-wise map (used in statements; the code's `map_fn` is modelled separately) (not in the code; compare helpers/map_fn.py:2-10). -/
def map (f : T → U) : PyVal T → PyVal U
  | .leaf t => .leaf (f t)
  | .node k xs => .node k (maps f xs)
/-- The map on lists of values (compare helpers/map_fn.py:5-8). -/
def maps (f : T → U) : List (PyVal T) → List (PyVal U)
  | [] => []
  | x :: xs => map f x :: maps f xs
end

/-- The structure of a value with its leaves erased (not in the code; what helpers/map_fn.py:2-10 preserves). -/
def skel (v : PyVal T) : PyVal Unit := v.map fun _ => ()

theorem maps_eq (f : T → U) (xs : List (PyVal T)) : maps f xs = xs.map (map f) := by
  induction xs with
  | nil => rfl
  | cons x xs ih => simp [maps, ih]

theorem WFs_iff (xs : List (PyVal T)) : WFs xs ↔ ∀ x ∈ xs, x.WF := by
  induction xs with
  | nil => simp [WFs]
  | cons x xs ih => simp [WFs, ih]

@[simp] theorem map_leaf (f : T → U) (t : T) : map f (.leaf t) = .leaf (f t) := by simp [map]
@[simp] theorem map_node (f : T → U) (k : Kind) (xs : List (PyVal T)) :
    map f (.node k xs) = .node k (xs.map (map f)) := by simp [map, maps_eq]
@[simp] theorem skel_leaf (t : T) : skel (.leaf t) = .leaf () := by simp [skel]
@[simp] theorem skel_node (k : Kind) (xs : List (PyVal T)) :
    skel (.node k xs) = .node k (xs.map skel) := by
  simp [skel]
  try (intro a _; rfl)

end PyVal
end TS
