import Verif.Model.Streamable
import Verif.Model.Args
import Verif.Base.XR
/-
Spec for C94 to C105: what an operator outputs on a series, the rises and falls of a series, candles without width.
-/
namespace TS
variable {K : Type} [Field K] [LinearOrder K] [Transc K] [FloorRing K]

/-- `op`, called without a state on the inputs `x`, outputs the finite numbers `os`. -/
def Outputs (op : Operator (XR K)) (x : Val (XR K)) (os : List K) : Prop :=
  ∃ sf s0, call op x none = .ok (vSBuf (os.map XR.fin), sf, s0)

/-- a series of finite numbers -/
def numbers (xs : List K) : Val (XR K) := vSBuf (xs.map XR.fin)

/-- the rise from each sample to the next one, zero if it falls -/
def rises (xs : List K) : List K := List.zipWith (fun old new => max 0 (new - old)) xs xs.tail

/-- the fall from each sample to the next one, zero if it rises -/
def falls (xs : List K) : List K := List.zipWith (fun old new => max 0 (old - new)) xs xs.tail

/-- candles without any width -/
def flat (xs : List K) : Val (XR K) := .tup [numbers xs, numbers xs, numbers xs]

/-- two series of finite numbers, from the pairs of their samples -/
def pairs (zs : List (K × K)) : Val (XR K) := .tup [numbers (zs.map Prod.fst), numbers (zs.map Prod.snd)]

/-- Transforming all samples by `f` before the operator gives the same as transforming its outputs by `g`. -/
def PassesThrough {A B : Type} (op : Operator (XR K)) (ser : List A → Val (XR K)) (outs : List B → Val (XR K)) (f : A → A) (g : B → B) : Prop :=
  ∀ xs : List A, xs ≠ [] → ∃ os sf s0 sf' s0', call op (ser xs) none = .ok (outs os, sf, s0) ∧ call op (ser (xs.map f)) none = .ok (outs (os.map g), sf', s0')

/-- `v` is among the outputs of `op`, called without a state, for some non-empty inputs. -/
def CanOutput {A B : Type} (op : Operator (XR K)) (ser : List A → Val (XR K)) (outs : List B → Val (XR K)) (v : B) : Prop :=
  ∃ xs os sf s0, xs ≠ [] ∧ call op (ser xs) none = .ok (outs os, sf, s0) ∧ v ∈ os

/-- `os` are the outputs of `op`, called without a state, for some non-empty inputs. -/
def Image {A B : Type} (op : Operator (XR K)) (ser : List A → Val (XR K)) (outs : List B → Val (XR K)) (os : List B) : Prop :=
  ∃ xs sf s0, xs ≠ [] ∧ call op (ser xs) none = .ok (outs os, sf, s0)

/-- The first `n` numbers are zero. -/
def Silent (n : Nat) (os : List K) : Prop := ∀ i, i < n → ∀ o, os[i]? = some o → o = 0

/-- What can follow an output of RSI: from a series without gains and losses not-a-number, 0 and 100; afterwards a number from 0 to 100, different from 0 (from 100) if the previous one was. -/
def RsiNext (a b : XR K) : Prop :=
  (a = XR.nan ∧ (b = XR.nan ∨ b = XR.fin 0 ∨ b = XR.fin 100)) ∨ ∃ r s, a = XR.fin r ∧ b = XR.fin s ∧ 0 ≤ s ∧ s ≤ 100 ∧ (0 < r → 0 < s) ∧ (r < 100 → s < 100)

/-- Every sample `k` times. -/
def hold {A : Type} (k : Nat) (xs : List A) : List A := xs.flatMap (List.replicate k)

/-- The outputs of `op'` when every sample comes `k` times are those of `op`, each one `k` times. -/
def Slowed {A B : Type} (op op' : Operator (XR K)) (ser : List A → Val (XR K)) (outs : List B → Val (XR K)) (k : Nat) : Prop :=
  ∀ xs, xs ≠ [] → ∃ os sf s0 sf' s0', call op (ser xs) none = .ok (outs os, sf, s0) ∧ call op' (ser (hold k xs)) none = .ok (outs (hold k os), sf', s0')

/-- The last of `k` outputs of `op'` each, when every sample comes `k` times, are those of `op`. -/
def SlowedLast {A B : Type} (op op' : Operator (XR K)) (ser : List A → Val (XR K)) (outs : List B → Val (XR K)) (k : Nat) : Prop :=
  ∀ xs, xs ≠ [] → ∃ os os' sf s0 sf' s0', call op (ser xs) none = .ok (outs os, sf, s0) ∧ call op' (ser (hold k xs)) none = .ok (outs os', sf', s0') ∧ os'.length = k * os.length ∧
    ∀ g, os'[k * g + (k - 1)]? = os[g]?

/-- Each signal followed by `k - 1` zeros. -/
def once (k : Nat) (os : List Int) : List Int := os.flatMap fun o => o :: List.replicate (k - 1) 0

/-- Without the first `n` outputs, the outputs for the series of samples `ok` in reverse order are those for the series, each one transformed by `g`, in reverse order. -/
def Reverses {A B : Type} (op : Operator (XR K)) (ser : List A → Val (XR K)) (outs : List B → Val (XR K)) (ok : A → Prop) (n : Nat) (g : B → B) : Prop :=
  ∀ xs, xs ≠ [] → (∀ x ∈ xs, ok x) → ∃ os os' sf s0 sf' s0', call op (ser xs) none = .ok (outs os, sf, s0) ∧ call op (ser xs.reverse) none = .ok (outs os', sf', s0') ∧
    os.length = xs.length ∧ os'.length = xs.length ∧ os'.drop n = ((os.drop n).map g).reverse

/-- `ys` are every `k`-th element of `xs`, beginning with the one at index `j`. -/
def Every {A : Type} (k j : Nat) (xs ys : List A) : Prop := ∀ i, ys[i]? = xs[k * i + j]?

/-- The outputs of `op` for a series and those of `op'` for every `k`-th of its samples, beginning with the one at index `j`, are related by `rel` wherever there is one of each; `ok` restricts the samples. -/
def Subsamples {α A B : Type} (op op' : Operator α) (ser : List A → Val α) (outs : List B → Val α) (k j : Nat) (ok : A → Prop) (rel : B → B → Prop) : Prop :=
  ∀ xs ys, ys ≠ [] → Every k j xs ys → (∀ x ∈ xs, ok x) → ∃ os os' sf s0 sf' s0', call op (ser xs) none = .ok (outs os, sf, s0) ∧ call op' (ser ys) none = .ok (outs os', sf', s0') ∧
    os.length = xs.length ∧ os'.length = ys.length ∧ ∀ i (hi : i < os'.length), ∃ h : k * i + j < os.length, rel os[k * i + j] os'[i]

/-- For samples that are all `ok` the outputs are as many as the samples, and `f` of them is `g` of the samples. -/
def Totals {α A B T : Type} (op : Operator α) (ser : List A → Val α) (outs : List B → Val α) (ok : A → Prop) (f : List B → T) (g : List A → T) : Prop :=
  ∀ xs, xs ≠ [] → (∀ x ∈ xs, ok x) → ∃ os sf s0, call op (ser xs) none = .ok (outs os, sf, s0) ∧ os.length = xs.length ∧ f os = g xs

/-- The outputs for the series of all `f x y`, where `x` and `y` are the samples of two series of the same length, and the outputs for these two are related by `rel`, index by index. -/
def Combines {α A B : Type} (op : Operator α) (ser : List A → Val α) (outs : List B → Val α) (f : A → A → A) (rel : B → B → B → Prop) : Prop :=
  ∀ zs : List (A × A), zs ≠ [] → ∃ os os1 os2 sf s0 sf1 s01 sf2 s02, call op (ser (zs.map fun z => f z.1 z.2)) none = .ok (outs os, sf, s0) ∧
    call op (ser (zs.map Prod.fst)) none = .ok (outs os1, sf1, s01) ∧ call op (ser (zs.map Prod.snd)) none = .ok (outs os2, sf2, s02) ∧
    os.length = zs.length ∧ ∃ (h1 : os1.length = os.length) (h2 : os2.length = os.length), ∀ i (hi : i < os.length), rel os[i] os1[i] os2[i]

/-- Output `j` depends on sample `i`: two series that differ in no other sample than this one have different outputs `j`. -/
def Depends {α A B : Type} (op : Operator α) (ser : List A → Val α) (outs : List B → Val α) (i j : Nat) : Prop :=
  ∃ xs ys os os' sf s0 sf' s0', xs.length = ys.length ∧ (∀ k, k ≠ i → xs[k]? = ys[k]?) ∧ call op (ser xs) none = .ok (outs os, sf, s0) ∧ call op (ser ys) none = .ok (outs os', sf', s0') ∧ os[j]? ≠ os'[j]?

/-- The calls on `a` and on `b` leave the operator in states from which it outputs the same on every further series. -/
def SameFuture {α A : Type} (op : Operator α) (ser : List A → Val α) (a b : List A) : Prop :=
  ∃ o s i o' s' i', call op (ser a) none = .ok (o, s, i) ∧ call op (ser b) none = .ok (o', s', i') ∧
    ∀ xs, xs ≠ [] → ∃ out sf si sf' si', call op (ser xs) (some s) = .ok (out, sf, si) ∧ call op (ser xs) (some s') = .ok (out, sf', si')

end TS
