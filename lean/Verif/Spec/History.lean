import Verif.Spec.Streaming
/-
Operators described by what they output after a history of samples.
-/
namespace TS
variable {A B : Type}

/-- The values of `y` along the samples `xs` that come after the history `h`: at position `i` the value
after `h` and the first `i + 1` samples of `xs`. -/
def scan (y : List A → B) (h xs : List A) : List B :=
  (List.range xs.length).map fun i => y (h ++ xs.take (i + 1))

/-- The last `p` samples of a history, newest first. -/
def window (p : Nat) (h : List A) : List A := h.reverse.take p

/-- The last `p` samples of a history, newest first, with `z` standing for the samples before its start. -/
def padded (z : A) (p : Nat) (h : List A) : List A := (h.reverse ++ List.replicate p z).take p

end TS
