import Verif.Base.Num
/-
helpers/map_fn.py, helpers/flatten.py, helpers/any_value.py, helpers/any_nan.py
-/
namespace TS
open PyVal

variable {A B C : Type}

/-- Iterating a Python value as `zip` does (helpers/map_fn.py:6,8).  A tensor is not iterable in graph
mode (`TypeError`).  Simplified: iterating a dict yields its key strings, which no caller can use; the
model raises the error at once. -/
def asSeq : PyVal B → Res (List (PyVal B))
  | .node .tuple xs => .ok xs
  | .node .list xs => .ok xs
  | .node (.dict _) _ => .error .typeError
  | .leaf _ => .error .typeError

/-- Association-list lookup of a dict (`x[kv[0]]`, helpers/map_fn.py:4). -/
def lookupKey (k : String) : List String → List (PyVal B) → Res (PyVal B)
  | k' :: ks, x :: xs => if k = k' then .ok x else lookupKey k ks xs
  | _, _ => .error .keyError

/-- `x[key]` with a string key (helpers/map_fn.py:4). -/
def getKey (k : String) : PyVal B → Res (PyVal B)
  | .node (.dict keys) xs => lookupKey k keys xs
  | .node _ _ => .error .typeError
  | .leaf _ => .error .typeError

/-- One row of `zip(*objs)`: the heads and the tails, or `none` when some sequence is exhausted (helpers/map_fn.py:6 and helpers/map_fn.py:8). -/
def zipRow : List (List B) → Option (List B × List (List B))
  | [] => some ([], [])
  | [] :: _ => none
  | (x :: xs) :: rows => (zipRow rows).map fun (hs, ts) => (x :: hs, xs :: ts)

mutual
/-- helpers/map_fn.py:2-10 `map_fn(obj, objs, apply_fn)`.  `obj` gives the structure, `objs` the
arguments.  dicts: helpers/map_fn.py:3-4; lists: 5-6; tuples: 7-8; leaves: 9-10. -/
def mapFn (f : List (PyVal B) → Res C) : PyVal A → List (PyVal B) → Res (PyVal C)
  | .leaf _, objs => do .ok (.leaf (← f objs))
  | .node (.dict keys) xs, objs => do .ok (.node (.dict keys) (← mapFnDict f keys xs objs))
  | .node .list xs, objs => do
      let rows ← objs.mapM asSeq
      .ok (.node .list (← mapFnSeq f xs rows))
  | .node .tuple xs, objs => do
      let rows ← objs.mapM asSeq
      .ok (.node .tuple (← mapFnSeq f xs rows))
/-- helpers/map_fn.py:6 and 8: `map(lambda e: map_fn(e[0], e[1:], apply_fn), zip(obj, *objs))`; `zip`
stops at the shortest sequence. -/
def mapFnSeq (f : List (PyVal B) → Res C) :
    List (PyVal A) → List (List (PyVal B)) → Res (List (PyVal C))
  | [], _ => .ok []
  | x :: xs, rows =>
    match zipRow rows with
    | none => .ok []
    | some (hs, ts) => do
      let y ← mapFn f x hs
      let ys ← mapFnSeq f xs ts
      .ok (y :: ys)
/-- helpers/map_fn.py:4: for each item of the dict `obj`, look the key up in every object of `objs`. -/
def mapFnDict (f : List (PyVal B) → Res C) :
    List String → List (PyVal A) → List (PyVal B) → Res (List (PyVal C))
  | k :: ks, x :: xs, objs => do
      let args ← objs.mapM (getKey k)
      let y ← mapFn f x args
      let ys ← mapFnDict f ks xs objs
      .ok (y :: ys)
  | _, _, _ => .ok []
end

/-- A one-argument Python function on leaves, as passed to `map_fn`.  On a container (possible only
when `obj` and `objs` have different structures) it raises (`apply_fn(*objs)`, helpers/map_fn.py:10). -/
def fn1 (f : A → Res C) : List (PyVal A) → Res C
  | [.leaf a] => f a
  | _ => .error .typeError

mutual
/-- helpers/flatten.py:2-12 `flatten(elems)`.  The order of dict values is the order of the canonical
key list (Python: insertion order). -/
def flatten : PyVal A → List A
  | .leaf t => [t]
  | .node _ xs => flattens xs
/-- helpers/flatten.py:4-5: the loop over the elements. -/
def flattens : List (PyVal A) → List A
  | [] => []
  | x :: xs => flatten x ++ flattens xs
end

section
variable {α : Type} [TFNum α]

/-- helpers/any_value.py:7-10 `tensor_has_value`.  The value is a float; comparing it with an int or
bool tensor is a dtype error. -/
def tensorHasValue (v : α) (l : Leaf α) : Res Bool := do
  let t ← l.asF
  .ok (t.elems.any fun x => TFNum.eq x v)

/-- helpers/any_value.py:12-25 `any_value(inputs, value)`. -/
def anyValue (inputs : Val α) (v : α) : Res Bool := do
  let has ← mapFn (fn1 (tensorHasValue v)) inputs [inputs]
  .ok ((flatten has).foldl (fun acc x => acc || x) false)

/-- helpers/any_nan.py:7-11 `tensor_has_nan`. -/
def tensorHasNan (l : Leaf α) : Res Bool := do
  let t ← l.asF
  .ok (t.elems.any TFNum.isNaN)

/-- helpers/any_nan.py:13-28 `any_nan(inputs)`. -/
def anyNan (inputs : Val α) : Res Bool := do
  let has ← mapFn (fn1 tensorHasNan) inputs [inputs]
  .ok ((flatten has).foldl (fun acc x => acc || x) false)

end
end TS
