import Verif.Base.PyVal
import Mathlib.Data.Fintype.Pi
import Mathlib.Data.Fintype.Prod
import Mathlib.Data.Fin.Basic
import Mathlib.Data.List.OfFn
/-
Tensors: a shape and one element per multi-index.  Ragged data is not representable.
-/
namespace TS

/-- Multi-indices of a tensor of the given shape (as in the shapes of finance/moving_average.py:15). -/
abbrev Idx : List Nat → Type
  | [] => Unit
  | n :: s => Fin n × Idx s

instance instDecEqIdx : (s : List Nat) → DecidableEq (Idx s)
  | [] => inferInstanceAs (DecidableEq Unit)
  | n :: s => letI := instDecEqIdx s; inferInstanceAs (DecidableEq (Fin n × Idx s))

instance instFintypeIdx : (s : List Nat) → Fintype (Idx s)
  | [] => inferInstanceAs (Fintype Unit)
  | n :: s => letI := instFintypeIdx s; inferInstanceAs (Fintype (Fin n × Idx s))

/-- All multi-indices in row-major order (the elements that `tf.reduce_any` sees, helpers/any_value.py:8). -/
def Idx.all : (s : List Nat) → List (Idx s)
  | [] => [()]
  | n :: s => (List.finRange n).flatMap fun i => (Idx.all s).map fun c => (i, c)

theorem Idx.mem_all : {s : List Nat} → (c : Idx s) → c ∈ Idx.all s
  | [], () => by simp [Idx.all]
  | n :: s, (i, c) => by
    simp only [Idx.all, List.mem_flatMap, List.mem_map]
    exact ⟨i, List.mem_finRange i, c, Idx.mem_all c, rfl⟩

/-- A tensor with its shape (the inputs and states of streamable.py:80-82). -/
structure Tensor (β : Type) where
  shape : List Nat
  val : Idx shape → β

namespace Tensor
variable {β γ : Type}

instance [DecidableEq β] : DecidableEq (Tensor β) := fun ⟨s, v⟩ ⟨s', v'⟩ =>
  if h : s = s' then
    if h' : h ▸ v = v' then .isTrue (by cases h; cases h'; rfl)
    else .isFalse (by intro e; cases e; exact h' rfl)
  else .isFalse (by intro e; cases e; exact h rfl)

/-- 0-dimensional tensor (e.g. finance/moving_average.py:13 `tf.constant(0)`). -/
abbrev scalar (b : β) : Tensor β := ⟨[], fun _ => b⟩

/-- View as a tensor of a prescribed shape (the static shape a step relies on, e.g. finance/moving_average.py:20). -/
def asShape (s : List Nat) (t : Tensor β) : Res (Idx s → β) :=
  if h : t.shape = s then .ok (h ▸ t.val) else .error .shape

@[simp] theorem asShape_mk (s : List Nat) (v : Idx s → β) : asShape s ⟨s, v⟩ = .ok v := by
  simp [asShape]

/-- Tensor made of a list of equally shaped slices along a new leading axis (e.g. finance/moving_average.py:15-16 and the output of `stack`, streamable.py:75). -/
def pack (s : List Nat) (l : List (Idx s → β)) : Tensor β :=
  ⟨l.length :: s, fun c => l.get c.1 c.2⟩

/-- The slices along the leading axis of a tensor whose slices have the prescribed shape (e.g. the buffer of finance/moving_average.py:14-18). -/
def unpack (s : List Nat) (t : Tensor β) : Res (List (Idx s → β)) :=
  match t with
  | ⟨[], _⟩ => .error .shape
  | ⟨n :: s', v⟩ =>
    if h : s' = s then .ok (List.ofFn fun i : Fin n => fun c => v (i, h ▸ c)) else .error .shape

@[simp] theorem unpack_pack (s : List Nat) (l : List (Idx s → β)) : unpack s (pack s l) = .ok l := by
  simp [unpack, pack]

/-- `tf.shape(x)[0]`; fails on 0-dimensional tensors (streamable.py:30). -/
def size0 (t : Tensor β) : Res Nat :=
  match t.shape with
  | [] => .error .indexError
  | n :: _ => .ok n

@[simp] theorem size0_pack (s : List Nat) (l : List (Idx s → β)) : size0 (pack s l) = .ok l.length := rfl

/-- `x[i]` (0 ≤ i) (streamable.py:38 and streamable.py:49). -/
def index (i : Nat) (t : Tensor β) : Res (Tensor β) :=
  match t with
  | ⟨[], _⟩ => .error .valueError
  | ⟨n :: s, v⟩ => if h : i < n then .ok ⟨s, fun c => v (⟨i, h⟩, c)⟩ else .error .indexError

theorem index_pack (s : List Nat) (l : List (Idx s → β)) (i : Nat) (h : i < l.length) :
    index i (pack s l) = .ok ⟨s, l[i]⟩ := by
  simp [index, pack, h]

/-- `tf.stack` / `TensorArray.stack` along a new leading axis: all shapes must agree.  Of no tensors at
all the result shape is unknown; that is an error (streamable.py:75). -/
def stack (l : List (Tensor β)) : Res (Tensor β) :=
  match l with
  | [] => .error .valueError
  | t :: _ => do .ok (pack t.shape (← l.mapM (asShape t.shape)))

/-- The list of all elements (helpers/any_value.py:8, helpers/any_nan.py:11). -/
def elems (t : Tensor β) : List β := (Idx.all t.shape).map t.val

/-- Elementwise map (e.g. helpers/any_nan.py:11). -/
def map (f : β → γ) (t : Tensor β) : Tensor γ := ⟨t.shape, fun c => f (t.val c)⟩

end Tensor

/-- dtypes.  `float` stands for float32 (the only float type the operators use for their constants),
`int` for int32 (modelled as unbounded integers), `bool` (streamable.py:18-21). -/
inductive DType where
  | float | int | bool
  deriving DecidableEq, Repr

/-- Leaves of the nested Python values handled by the library: tensors (Python numbers and lists are
represented by the tensor `tf.convert_to_tensor` makes of them), and Python generator objects
(returned by `Select(tuple)`, common/common.py:27), which no TensorFlow function accepts. -/
inductive Leaf (α : Type) where
  | f (t : Tensor α)
  | i (t : Tensor Int)
  | b (t : Tensor Bool)
  | gen

namespace Leaf
variable {α : Type}

/-- Equality of leaves (written without rewriting along equalities, so that the kernel evaluates it). -/
instance [DecidableEq α] : DecidableEq (Leaf α)
  | .f t, .f t' => decidable_of_iff (t = t') (by simp)
  | .i t, .i t' => decidable_of_iff (t = t') (by simp)
  | .b t, .b t' => decidable_of_iff (t = t') (by simp)
  | .gen, .gen => .isTrue rfl
  | .f _, .i _ | .f _, .b _ | .f _, .gen | .i _, .f _ | .i _, .b _ | .i _, .gen
  | .b _, .f _ | .b _, .i _ | .b _, .gen | .gen, .f _ | .gen, .i _ | .gen, .b _ => .isFalse (by simp)

/-- `x.dtype` (streamable.py:20). -/
def dtype : Leaf α → Res DType
  | .f _ => .ok .float
  | .i _ => .ok .int
  | .b _ => .ok .bool
  | .gen => .error .attributeError

/-- `tf.convert_to_tensor(x)` (streamable.py:80-82). -/
def toTensor : Leaf α → Res (Leaf α)
  | .gen => .error .typeError
  | l => .ok l

/-- `x.get_shape()` / `tf.shape(x)` (streamable.py:63-64). -/
def shape : Leaf α → Res (List Nat)
  | .f t => .ok t.shape
  | .i t => .ok t.shape
  | .b t => .ok t.shape
  | .gen => .error .typeError

/-- `tf.shape(x)[0]` (streamable.py:30). -/
def size0 : Leaf α → Res Nat
  | .f t => t.size0
  | .i t => t.size0
  | .b t => t.size0
  | .gen => .error .typeError

/-- `x[i]` (streamable.py:38 and streamable.py:49). -/
def index (k : Nat) : Leaf α → Res (Leaf α)
  | .f t => .f <$> t.index k
  | .i t => .i <$> t.index k
  | .b t => .b <$> t.index k
  | .gen => .error .typeError

/-- The float tensor of a leaf (e.g. the operand of finance/moving_average.py:20-21). -/
def asF : Leaf α → Res (Tensor α)
  | .f t => .ok t
  | _ => .error .dtype
/-- The int tensor of a leaf (e.g. the counter of finance/moving_average.py:19). -/
def asI : Leaf α → Res (Tensor Int)
  | .i t => .ok t
  | _ => .error .dtype
/-- The bool tensor of a leaf (e.g. the predicate of finance/signals/zero_crossover_signal.py:41). -/
def asB : Leaf α → Res (Tensor Bool)
  | .b t => .ok t
  | _ => .error .dtype

/-- `TensorArray.stack` of the written leaves: equal dtypes and shapes required (streamable.py:75). -/
def stack : List (Leaf α) → Res (Leaf α)
  | [] => .error .valueError
  | .f t :: ls => do .ok (.f (← Tensor.stack (← (.f t :: ls).mapM asF)))
  | .i t :: ls => do .ok (.i (← Tensor.stack (← (.i t :: ls).mapM asI)))
  | .b t :: ls => do .ok (.b (← Tensor.stack (← (.b t :: ls).mapM asB)))
  | .gen :: _ => .error .typeError

end Leaf

/-- The nested values passed to and returned by operators (streamable.py:78). -/
abbrev Val (α : Type) := PyVal (Leaf α)

end TS
