import Verif.Model.Args
import Verif.Spec.Streams
import Verif.Base.XR
/-
What it means that an operator respects a transformation of its inputs.
-/
namespace TS

/-- Streaming the series transformed by `f` outputs the series transformed by `g`. -/
def Commutes {α A B : Type} (op : Operator α) (ser : List A → Val α) (outs : List B → Val α) (f : A → A) (g : B → B) : Prop :=
  ∀ xs : List A, xs ≠ [] → ∃ (os : List B) (sf s0 sf' s0' : Val α),
    call op (ser xs) none = .ok (outs os, sf, s0) ∧ call op (ser (xs.map f)) none = .ok (outs (os.map g), sf', s0')

/-- What `op` outputs for a series, transformed by `g`, is what `op'` outputs for the series transformed by `f`. -/
def Transports {α A B A' B' : Type} (op op' : Operator α) (ser : List A → Val α) (outs : List B → Val α) (ser' : List A' → Val α) (outs' : List B' → Val α)
    (f : A → A') (g : B → B') : Prop :=
  ∀ xs : List A, xs ≠ [] → ∃ (os : List B) (sf s0 sf' s0' : Val α),
    call op (ser xs) none = .ok (outs os, sf, s0) ∧ call op' (ser' (xs.map f)) none = .ok (outs' (os.map g), sf', s0')

/-- `op'` on the negated series outputs the negated outputs of `op`. -/
abbrev Mirrors {α : Type} [TFNum α] (op op' : Operator α) : Prop := Transports op op' vSBuf vSBuf vSBuf vSBuf (fun x => - x) (fun x => - x)

/-- Multiplication by a number. -/
def XR.scale {K : Type} [Field K] [LinearOrder K] [Transc K] [FloorRing K] (c : K) (x : XR K) : XR K := XR.fin c * x

/-- Multiplication of a tensor by a number. -/
def scaleT {K : Type} [Field K] [LinearOrder K] [Transc K] [FloorRing K] {s : List Nat} (c : K) (t : Idx s → XR K) : Idx s → XR K :=
  fun i => XR.scale c (t i)

/-- Streaming the sum of two series outputs the sum of the outputs for the two series. -/
def Superposes {α A B : Type} [Add A] (op : Operator α) (ser : List A → Val α) (outs : List B → Val α) (plus : B → B → B) : Prop :=
  ∀ xs : List (A × A), xs ≠ [] → ∃ (os os' : List B) (sf s0 sf' s0' sf'' s0'' : Val α),
    call op (ser (xs.map Prod.fst)) none = .ok (outs os, sf, s0) ∧ call op (ser (xs.map Prod.snd)) none = .ok (outs os', sf', s0') ∧
    call op (ser (xs.map fun z => z.1 + z.2)) none = .ok (outs (List.zipWith plus os os'), sf'', s0'')

/-- Streaming a series all of whose samples are `x` outputs `f i` at index `i`. -/
def OnConstant {α A B : Type} (op : Operator α) (ser : List A → Val α) (outs : List B → Val α) (x : A) (f : Nat → B) : Prop :=
  ∀ n, 0 < n → ∃ sf s0 : Val α, call op (ser (List.replicate n x)) none = .ok (outs ((List.range n).map f), sf, s0)

/-- Streaming the series transformed by `f` outputs, at index `i`, `g i` of what comes out of the series itself. -/
def CommutesAt {α A B : Type} (op : Operator α) (ser : List A → Val α) (outs : List B → Val α) (f : A → A) (g : Nat → B → B) : Prop :=
  ∀ xs : List A, xs ≠ [] → ∃ (os : List B) (sf s0 sf' s0' : Val α),
    call op (ser xs) none = .ok (outs os, sf, s0) ∧ call op (ser (xs.map f)) none = .ok (outs (os.mapIdx g), sf', s0')

/-- Addition of a number. -/
def XR.plus {K : Type} [Field K] [LinearOrder K] [Transc K] [FloorRing K] (c : K) (x : XR K) : XR K := x + XR.fin c

/-- Addition of a tensor of numbers. -/
def plusT {K : Type} [Field K] [LinearOrder K] [Transc K] [FloorRing K] {s : List Nat} (c : Idx s → K) (t : Idx s → XR K) : Idx s → XR K :=
  fun i => XR.plus (c i) (t i)

/-- Streaming two series of finite numbers whose samples are in the relation `R` outputs two series of finite numbers in that relation. -/
def Preserves {K : Type} (R : K → K → Prop) (op : Operator (XR K)) : Prop :=
  ∀ zs : List (K × K), zs ≠ [] → (∀ z ∈ zs, R z.1 z.2) → ∃ (os : List (K × K)) (sf s0 sf' s0' : Val (XR K)),
    call op (vSBuf (zs.map fun z => XR.fin z.1)) none = .ok (vSBuf (os.map fun o => XR.fin o.1), sf, s0) ∧
    call op (vSBuf (zs.map fun z => XR.fin z.2)) none = .ok (vSBuf (os.map fun o => XR.fin o.2), sf', s0') ∧
    os.length = zs.length ∧ ∀ o ∈ os, R o.1 o.2

/-- Larger samples, larger outputs. -/
abbrev Isotone {K : Type} [LE K] (op : Operator (XR K)) : Prop := Preserves (· ≤ ·) op

/-- Samples that are off by at most `ε`, outputs that are off by at most `ε`. -/
abbrev Nonexpansive {K : Type} [Field K] [LinearOrder K] (op : Operator (XR K)) : Prop := ∀ ε : K, 0 ≤ ε → Preserves (fun a b => |a - b| ≤ ε) op

end TS
