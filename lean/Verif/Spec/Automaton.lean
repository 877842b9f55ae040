import Verif.Model.Common
/-
One move of an automaton.
-/
namespace TS
variable {α : Type}

/-- The transition can be taken: its source is the current state and its guard holds. -/
def Enabled (args : List (Val α)) (q : Int) (t : Transition α) : Prop := t.source = q ∧ t.guard args = .ok true

/-- From state `q`, on `args`, the automaton outputs `o` and moves to `n`: it takes the first listed
enabled transition, or outputs the default action and stays. -/
def Moves (ts : List (Transition α)) (default : List (Val α) → Res (Val α)) (args : List (Val α)) (q : Int) (o n : Val α) : Prop :=
  (∃ pre t post, ts = pre ++ t :: post ∧ Enabled args q t ∧ (∀ u ∈ pre, ¬ Enabled args q u) ∧ t.action args = .ok o ∧ n = vI t.target) ∨
  ((∀ u ∈ ts, ¬ Enabled args q u) ∧ default args = .ok o ∧ n = vI q)

end TS
