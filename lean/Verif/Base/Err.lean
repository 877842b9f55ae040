/-
Errors and the result monad.

Every Python exception and every TensorFlow error is a value of type `Err`; a modelled function that
may fail returns `Res A = Except Err A`.  TensorFlow 1.x distinguishes errors raised while the graph is
built from errors raised by `Session.run`; the model does not.
-/
namespace TS

/-- Failure kinds.  The constructor says what the Python / TensorFlow failure is (raised at streamable.py:13-14, streamable.py:35-36, streamable.py:93, and by Python or TensorFlow on the way). -/
inductive Err where
  /-- wrong number or kind of Python arguments, not iterable, ... (`TypeError`) -/
  | typeError
  /-- a value TensorFlow cannot convert (`ValueError`) -/
  | valueError
  /-- index out of range (`IndexError`, or `InvalidArgumentError` of `strided_slice`) -/
  | indexError
  /-- missing dictionary key (`KeyError`) -/
  | keyError
  /-- `attribute does not exist` (`AttributeError`) -/
  | attributeError
  /-- streamable.py:35-36 "inputs have different sizes." -/
  | sizeMismatch
  /-- streamable.py:13-14 "Provided state and model state has different types" -/
  | stateTypes
  /-- `tf.while_loop` / `tf.cond` / `tf.map_fn`: structures or dtypes of the two sides differ -/
  | structure
  /-- operand dtypes are incompatible -/
  | dtype
  /-- operand shapes are incompatible -/
  | shape
  /-- `tf.case(..., exclusive=True)` with more than one true predicate -/
  | exclusive
  /-- `TensorArray`: write out of range, double write or read of an unwritten slot -/
  | tensorArray
  /-- streamable.py:93 `raise Exception("Not implemented.")` -/
  | notImplemented
  /-- use of a local variable before assignment (`UnboundLocalError`) -/
  | unboundLocal
  deriving DecidableEq, Repr

/-- What a modelled call returns: a value or the error of, e.g., streamable.py:78-87 `__call__`. -/
abbrev Res (A : Type) := Except Err A

/-- Equality of results (written without rewriting along equalities, so that the kernel evaluates it). -/
instance (priority := high) {A : Type} [DecidableEq A] : DecidableEq (Res A)
  | .ok a, .ok b => decidable_of_iff (a = b) (by simp)
  | .error a, .error b => decidable_of_iff (a = b) (by simp)
  | .ok _, .error _ | .error _, .ok _ => .isFalse (by simp)

@[simp] theorem ok_bind {A B : Type} (a : A) (f : A → Res B) : ((Except.ok a : Res A) >>= f) = f a := rfl
@[simp] theorem error_bind {A B : Type} (e : Err) (f : A → Res B) :
    ((Except.error e : Res A) >>= f) = Except.error e := rfl
@[simp] theorem pure_eq_ok {A : Type} (a : A) : (pure a : Res A) = Except.ok a := rfl
@[simp] theorem throw_eq_error {A : Type} (e : Err) : (throw e : Res A) = Except.error e := rfl
@[simp] theorem map_ok {A B : Type} (f : A → B) (a : A) : f <$> (Except.ok a : Res A) = Except.ok (f a) := rfl
@[simp] theorem map_error {A B : Type} (f : A → B) (e : Err) :
    f <$> (Except.error e : Res A) = Except.error e := rfl

theorem bind_eq_ok {A B : Type} {x : Res A} {f : A → Res B} {b : B} :
    (x >>= f) = Except.ok b ↔ ∃ a, x = Except.ok a ∧ f a = Except.ok b := by
  cases x <;> simp

end TS
