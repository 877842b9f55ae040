import Verif.Spec.Typed
import Verif.Lemmas.Steady
import Verif.Lemmas.Stateless
import Verif.Lemmas.Graded
import Verif.Lemmas.Library
/-
Typed operators are steady.
-/
namespace TS
open PyVal
variable {α : Type}
set_option linter.unusedSimpArgs false
set_option linter.unusedSectionVars false

theorem hasSig_tF {x : Val α} {s : List Nat} (h : HasSig x (tF s)) : ∃ a, x = vF (s := s) a := by
  obtain ⟨y, rfl, hy⟩ := hasSig_leaf_inv h
  cases y <;> simp [Leaf.sig] at hy
  rename_i t; obtain ⟨s', v⟩ := t; simp only at hy; subst hy; exact ⟨v, rfl⟩

theorem hasSig_scalar {x : Val α} (h : HasSig x (tF [])) : ∃ a, x = vS a := by
  obtain ⟨a, rfl⟩ := hasSig_tF h
  exact ⟨a (), rfl⟩

/-- steady, with a fixed initial state -/
def Operator.Rooted (op : Operator α) (X O S : PyVal (DType × List Nat)) : Prop := op.Steady X O S ∧ ∃ i0, op.FromStart X i0

theorem Tracks.rooted {A : Type} {op : Operator α} {enc : A → Val α} {out st : List A → Val α} (T : Tracks op Any enc out st)
    {X} (hX : ∀ x : Val α, HasSig x X → ∃ a, x = enc a) {O} (hO : ∀ h, h ≠ [] → HasSig (out h) O) {S} (hS : ∀ h, HasSig (st h) S) :
    op.Rooted X O S := by
  refine ⟨T.steady hX hO hS, st [], fun x hw hx => ?_⟩
  obtain ⟨a, rfl⟩ := hX x hx
  exact ⟨_, _, T.first a trivial, T.next [] a trivial⟩

theorem makeStreamable_rooted {fn : List (Val α) → Res (Val α)} {X O}
    (h : ∀ x, x.WF → HasSig x X → ∃ o, fn (unpackArgs x) = .ok o ∧ o.WF ∧ HasSig o O) : (makeStreamable fn).Rooted X O PyVal.unit := by
  have e : unpackArgs (PyVal.unit : Val α) = [] := rfl
  refine ⟨⟨(· = PyVal.unit), ?_, ?_, ?_⟩, PyVal.unit, ?_⟩
  · rintro _ rfl; exact ⟨unit_ok.1, rfl⟩
  · intro x hw hx
    obtain ⟨o, h1, h2⟩ := h x hw hx
    exact ⟨o, _, _, by simp [makeStreamable, streamable, h1], h2, rfl, rfl⟩
  · rintro x _ hw hx rfl
    obtain ⟨o, h1, h2⟩ := h x hw hx
    exact ⟨o, PyVal.unit, PyVal.unit, by
      simp [makeStreamable, streamable, e, h1], h2, rfl, rfl⟩
  · intro x hw hx
    obtain ⟨o, h1, h2⟩ := h x hw hx
    exact ⟨o, _, by simp [makeStreamable, streamable, h1]; rfl, by simp [makeStreamable, streamable, e, h1]⟩

theorem Tracks.comap {A A' : Type} {op : Operator α} {enc : A → Val α} {out st : List A → Val α} (T : Tracks op Any enc out st) (f : A' → A) :
    Tracks op Any (fun a => enc (f a)) (fun h => out (h.map f)) (fun h => st (h.map f)) where
  first x _ := T.first (f x) trivial
  next h x _ := by simpa using T.next (h.map f) (f x) trivial
  enc_ok x := T.enc_ok _
  out_ok := by obtain ⟨ty, h⟩ := T.out_ok; exact ⟨ty, fun k hk => h _ (by simpa using hk)⟩
  st_ok := by obtain ⟨ty, h⟩ := T.st_ok; exact ⟨ty, fun k => h _⟩

/-- signatures of states -/
macro "sig" : tactic => `(tactic| simp [HasSig, Leaf.sig, Tensor.pack, PyVal.tup, padded, bufState, avgState, corrState, crossState, macdState,
  sbufState, extState, retState, rsiState, atrState, vSBuf, rrVal, haState, ddState, zcState])

section
variable [TFNum α]

theorem arith2_rooted (ff : α → α → α) (fi : Int → Int → Int) (s : List Nat) :
    (makeStreamable (lambda2 (arith2 ff fi)) : Operator α).Rooted (.tup [tF s, tF s]) (tF s) PyVal.unit := by
  refine makeStreamable_rooted fun x hw hx => ?_
  obtain ⟨y, z, rfl, hy, hz⟩ := hasSig_pair hx
  obtain ⟨a, rfl⟩ := hasSig_tF hy
  obtain ⟨b, rfl⟩ := hasSig_tF hz
  refine ⟨vF fun c => ff (a c) (b c), ?_, by simp, rfl⟩
  simp [PyVal.tup, unpackArgs, lambda2, decLeaf, arith2, broadcast_same]

theorem setDuring_rooted {value : Leaf α} {f : Leaf α → Leaf α} (hf : ∀ l, (f l).sig = l.sig) {X}
    (hset : ∀ x : Val α, HasSig x X → ∀ b, ∀ l ∈ flatten x, setLeaf value b l = .ok (if b then f l else l)) (period : Int) :
    (SetDuring value period).Rooted X X (.tup [tI []]) := by
  have h0 : ∀ x, (SetDuring value period).forwardStep x none = (SetDuring value period).forwardStep x (some (.tup [vI 0])) := fun x => rfl
  have key : ∀ x (k : Int), x.WF → HasSig x X → ∃ o n i, (SetDuring value period).forwardStep x (some (.tup [vI k])) = .ok (o, n, i) ∧ (o.WF ∧ HasSig o X) ∧
      (∃ k, n = .tup [vI k]) ∧ (∃ k, i = .tup [vI k]) := by
    intro x k hw hx
    refine ⟨_, _, _, setDuring_step hw (hset x hx) period k, ?_, ⟨_, rfl⟩, ⟨_, rfl⟩⟩
    split
    · exact ⟨(WF_of_skel_eq (by simp)).2 hw, hx.map_same hf⟩
    · exact ⟨hw, hx⟩
  refine ⟨⟨fun s => ∃ k, s = .tup [vI k], ?_, ?_, ?_⟩, .tup [vI 0], ?_⟩
  · rintro _ ⟨k, rfl⟩; exact ⟨by simp [WF_tup], rfl⟩
  · intro x hw hx
    rw [h0]; exact key x 0 hw hx
  · rintro x _ hw hx ⟨k, rfl⟩
    exact key x k hw hx
  · intro x hw hx
    rw [h0]
    exact ⟨_, _, setDuring_step hw (hset x hx) period 0, setDuring_step hw (hset x hx) period 0⟩

end

section
variable [TFNum α]

/-! #### initial states -/

/-- single steps of a rooted operator, without a state and from its initial state -/
theorem rooted_call {op : Operator α} {X O S} (h : op.Steady X O S) {i0 : Val α} (h0 : op.FromStart X i0) {x : Val α} (hw : x.WF) (hx : HasSig x X) :
    ∃ o n, call op x none false = .ok (o, n, i0) ∧ call op x (some i0) false = .ok (o, n, i0) ∧ o.WF ∧ HasSig o O ∧ (n.WF ∧ HasSig n S) ∧ i0.WF ∧ HasSig i0 S := by
  obtain ⟨o, n, h1, h2⟩ := h0 x hw hx
  obtain ⟨I, hI, hf, -⟩ := h
  obtain ⟨o', n', i', h3, ho, hn', hi'⟩ := hf x hw hx
  rw [h1] at h3; cases h3
  refine ⟨o, n, ?_, ?_, ho.1, ho.2, hI n hn', hI i0 hi'⟩
  all_goals obtain ⟨hi, hS⟩ := hI i0 hi'
  · rw [call_eq false hw hx.tensors (by simp)]; simpa using h1
  · rw [call_eq false hw hx.tensors (by rintro _ ⟨⟩; exact ⟨hi, hS.tensors⟩)]; simpa using h2

theorem chain_start {ops : List (Operator α)} {T : Nat → PyVal (DType × List Nat)} {i0 : Nat → Val α}
    (h : ∀ k (hk : k < ops.length) x, x.WF → HasSig x (T k) → ∃ o n, call ops[k] x none false = .ok (o, n, i0 k) ∧
      call ops[k] x (some (i0 k)) false = .ok (o, n, i0 k) ∧ o.WF ∧ HasSig o (T (k + 1))) :
    ∀ {x : Val α}, x.WF → HasSig x (T 0) → ∃ o ns, composeLoop (ops.zip (List.replicate ops.length none)) x = .ok (o, ns, (List.range ops.length).map i0) ∧
      composeLoop (ops.zip ((List.range ops.length).map fun k => some (i0 k))) x = .ok (o, ns, (List.range ops.length).map i0) := by
  induction ops generalizing T i0 with
  | nil => intro x hw hx; exact ⟨x, [], rfl, rfl⟩
  | cons op ops ih =>
    intro x hw hx
    obtain ⟨o, n, h1, h2, ho, hO⟩ := h 0 (by simp) x hw hx
    obtain ⟨o', ns, h3, h4⟩ := ih (T := fun k => T (k + 1)) (i0 := fun k => i0 (k + 1)) (fun k hk => h (k + 1) (by simpa using hk)) ho hO
    refine ⟨o', n :: ns, ?_, ?_⟩
    · simp only [List.length_cons, List.replicate_succ, List.zip_cons_cons, List.range_succ_eq_map, List.map_cons, List.map_map, Function.comp_def]
      exact composeLoop_cons_ok.2 ⟨_, _, _, _, _, h1, h3, rfl, rfl⟩
    · simp only [List.length_cons, List.zip_cons_cons, List.range_succ_eq_map, List.map_cons, List.map_map, Function.comp_def]
      exact composeLoop_cons_ok.2 ⟨_, _, _, _, _, h2, h4, rfl, rfl⟩

theorem Compose_start {ops : List (Operator α)} {T S : Nat → PyVal (DType × List Nat)} (hne : ops ≠ [])
    (h : ∀ k (hk : k < ops.reverse.length), ops.reverse[k].Rooted (T k) (T (k + 1)) (S k)) :
    ∃ i0, (Compose ops).FromStart (T 0) i0 := by
  obtain ⟨ops, rfl⟩ : ∃ l, ops = l.reverse := ⟨ops.reverse, by simp⟩
  simp only [List.reverse_reverse, List.length_reverse] at h ⊢
  have hne' : ops ≠ [] := by simpa using hne
  have h' := fun k hk => (h k hk).2
  haveI : Nonempty (Val α) := ⟨PyVal.unit⟩
  choose! i0 hi0 using h'
  have hz : ∀ {sts : List (Option (Val α))}, sts.length = ops.length → ops.zip sts ≠ [] := by
    intro sts hl e
    have := congrArg List.length e
    simp [hl] at this
    exact hne' this
  refine ⟨.tup ((List.range ops.length).map i0), fun x hw hx => ?_⟩
  obtain ⟨o, ns, h1, h2⟩ := chain_start (T := T) (i0 := i0) (fun k hk x hw hx => by
    obtain ⟨o, n, a, b, c, d, -⟩ := rooted_call (h k hk).1 (hi0 k hk) hw hx
    exact ⟨o, n, a, b, c, d⟩) hw hx
  exact ⟨o, _, compose_ok.2 ⟨_, o, ns, _, opStates_none _, hz (by simp), h1, rfl⟩,
    compose_ok.2 ⟨_, o, ns, _, by rw [opStates_tup, List.map_map]; rfl, hz (by simp), h2, rfl⟩⟩

theorem bank_start {ops : List (Operator α)} {X : Nat → PyVal (DType × List Nat)} {i0 : Nat → Val α}
    (h : ∀ k (hk : k < ops.length) x, x.WF → HasSig x (X k) → ∃ o n, call ops[k] x none false = .ok (o, n, i0 k) ∧
      call ops[k] x (some (i0 k)) false = .ok (o, n, i0 k)) :
    ∀ {xs : List (Val α)}, xs.length = ops.length → (∀ k (hk : k < xs.length), xs[k].WF ∧ HasSig xs[k] (X k)) →
      ∃ os ns, joinLoop (ops.zip (xs.zip (List.replicate ops.length none))) = .ok (os, ns, (List.range ops.length).map i0) ∧
      joinLoop (ops.zip (xs.zip ((List.range ops.length).map fun k => some (i0 k)))) = .ok (os, ns, (List.range ops.length).map i0) := by
  induction ops generalizing X i0 with
  | nil => intro xs _ _; exact ⟨[], [], rfl, rfl⟩
  | cons op ops ih =>
    intro xs hl hx
    cases xs with
    | nil => simp at hl
    | cons x xs =>
      obtain ⟨o, n, h1, h2⟩ := h 0 (by simp) x (hx 0 (by simp)).1 (hx 0 (by simp)).2
      obtain ⟨os, ns, h3, h4⟩ := ih (X := fun k => X (k + 1)) (i0 := fun k => i0 (k + 1)) (fun k hk => h (k + 1) (by simpa using hk)) (xs := xs) (by simpa using hl)
        (fun k hk => hx (k + 1) (by simpa using hk))
      refine ⟨o :: os, n :: ns, ?_, ?_⟩
      · simp only [List.length_cons, List.replicate_succ, List.zip_cons_cons, List.range_succ_eq_map, List.map_cons, List.map_map, Function.comp_def]
        exact joinLoop_cons_ok.2 ⟨_, _, _, _, _, _, h1, h3, rfl, rfl, rfl⟩
      · simp only [List.length_cons, List.zip_cons_cons, List.range_succ_eq_map, List.map_cons, List.map_map, Function.comp_def]
        exact joinLoop_cons_ok.2 ⟨_, _, _, _, _, _, h2, h4, rfl, rfl, rfl⟩

theorem Join_start {ops : List (Operator α)} {X O S : Nat → PyVal (DType × List Nat)}
    (h : ∀ k (hk : k < ops.length), ops[k].Rooted (X k) (O k) (S k)) :
    ∃ i0, (Join ops).FromStart (.tup ((List.range ops.length).map X)) i0 := by
  have h' := fun k hk => (h k hk).2
  haveI : Nonempty (Val α) := ⟨PyVal.unit⟩
  choose! i0 hi0 using h'
  refine ⟨.tup ((List.range ops.length).map i0), fun x hw hx => ?_⟩
  obtain ⟨xs, rfl, hx'⟩ := hasSig_tup_inv hx
  obtain ⟨hxl, hx'⟩ := List.forall₂_iff_get.1 hx'
  simp only [List.length_map, List.length_range] at hxl
  obtain ⟨os, ns, h1, h2⟩ := bank_start (X := X) (i0 := i0) (fun k hk x hw hx => by
    obtain ⟨o, n, a, b, -⟩ := rooted_call (h k hk).1 (hi0 k hk) hw hx
    exact ⟨o, n, a, b⟩) hxl (fun k hk => ⟨WF_tup.1 hw _ (List.getElem_mem hk), by simpa using hx' k hk (by simpa [← hxl] using hk)⟩)
  exact ⟨_, _, join_ok.2 ⟨_, xs, os, ns, _, opStates_none _, rfl, h1, rfl⟩,
    join_ok.2 ⟨_, xs, os, ns, _, by rw [opStates_tup, List.map_map]; rfl, rfl, h2, rfl⟩⟩

theorem FFill_start {op : Operator α} {X O S} (h : op.Rooted X O S) (hX : AllFloat X) (hO : Passable O) (hS : S = PyVal.unit ∨ Passable S) :
    ∃ i0, (FFill op).FromStart X i0 := by
  obtain ⟨hst, i0, hi0⟩ := h
  have hO' : Passable (O.map Prod.fst) := (passable_skel (by simp [PyVal.skel_map])).2 hO
  have hS' : S.map Prod.fst = PyVal.unit ∨ Passable (S.map Prod.fst) := by
    rcases hS with rfl | hS
    · exact .inl rfl
    · exact .inr ((passable_skel (by simp [PyVal.skel_map])).2 hS)
  have hwO : ∀ {o : Val α}, o.WF → HasSig o O → (O.map zeroOf : Val α).WF ∧ HasSig (O.map zeroOf : Val α) O := by
    intro o ho hs
    rw [← zeros_of_sig hs]
    exact ⟨(WF_of_skel_eq (by simp)).2 ho, hs.map_same zeroLeaf_sig⟩
  refine ⟨.tup [O.map zeroOf, i0], fun x hw hx => ?_⟩
  obtain ⟨o, n, h1, h2, ho, hO'', ⟨hn, hnS⟩, hi, hiS⟩ := rooted_call hst hi0 hw hx
  have hZ := hwO ho hO''
  have hz := anyValue_total hw (floats_of_sig hx hX)
  have hc : tfCond (hasZero x) (O.map zeroOf) o = .ok (if hasZero x then O.map zeroOf else o) := tfCond_total hZ.1 ho hZ.2.hasType hO''.hasType hO'
  have hs : ffillState (hasZero x) i0 i0 n = .ok (if hasZero x then i0 else n) :=
    ffillState_total ⟨hi, hiS.hasType⟩ ⟨hi, hiS.hasType⟩ ⟨hn, hnS.hasType⟩ hS'
  refine ⟨_, _, ffill_ok.2 ⟨hasZero x, none, none, o, n, i0, O.map zeroOf, _, _, hz, .inl ⟨rfl, rfl, rfl⟩, h1, .inl ⟨rfl, ?_⟩, hc, hs, rfl⟩,
    ffill_ok.2 ⟨hasZero x, some (O.map zeroOf), some i0, o, n, i0, O.map zeroOf, _, _, hz, .inr ⟨_, _, _, rfl, rfl, rfl, rfl, rfl⟩, h2, .inr rfl, hc, hs, rfl⟩⟩
  rw [zerosLike_total ho hO''.tensors, zeros_of_sig hO'']

theorem Map_start {op : Operator α} (hop : op.Sane) {X O S} (h : op.Rooted X O S) (hX : flatten X ≠ []) {m : Nat} (hm : 0 < m) :
    ∃ i0, (Map op (m : Int)).FromStart (tMany m X) i0 := by
  obtain ⟨hst, i0, hi0⟩ := h
  by_cases hex : ∃ x : Val α, x.WF ∧ HasSig x (tMany m X)
  swap
  · exact ⟨PyVal.unit, fun x hw hx => absurd ⟨x, hw, hx⟩ hex⟩
  obtain ⟨x1, hwx, hx1⟩ := hex
  obtain ⟨xs, hxl, hxs, hxX⟩ := exists_rows_of_sig hx1
  obtain ⟨-, -, -, -, -, -, -, -, hiS⟩ := rooted_call hst hi0 (hxs.mem_WF hwx _ (List.getElem_mem (n := 0) (by omega))) (hxX _ (List.getElem_mem (by omega)))
  obtain ⟨w, hw1, hw2⟩ := tile_total (m := m) hiS.tensors
  refine ⟨.tup [w], fun x hw hx => ?_⟩
  obtain ⟨I, hI, hf, hn⟩ := Map_steady hop hst hX hm
  obtain ⟨o, n, i, h1, -⟩ := hf x hw hx
  have key : i = .tup [w] := by
    obtain ⟨ps, x0, ov, nx, init, prev, oty, sty, rows, o', n', a1, a2, a3, a4, a5, a6, a7, a8, a9, a10, a11, a12, e⟩ := (Map_ok hop hw (by simp)).1 h1
    obtain ⟨xs, hxl, hxs, hxX⟩ := exists_rows_of_sig hx
    have h0 := hxs.slice 0 (by omega)
    rw [a5] at h0
    cases h0
    obtain ⟨o2, n2, b1, -⟩ := rooted_call hst hi0 (hxs.mem_WF hw _ (List.getElem_mem (n := 0) (by omega))) (hxX _ (List.getElem_mem (by omega)))
    rw [a6] at b1
    cases b1
    simp only [MapPrev, hw1] at a7
    cases a7
    cases e
    rfl
  subst key
  exact ⟨o, n, h1, (Map_contract hop (m : Int) (fun _ => True)).fresh _ _ _ _ hw trivial h1⟩

theorem tracks_float {op : Operator α} {s : List Nat} {out st : List (Idx s → α) → Val α} (T : Tracks op Any (fun x : Idx s → α => vF x) out st)
    {O S} (hO : ∀ h, h ≠ [] → HasSig (out h) O) (hS : ∀ h, HasSig (st h) S) : op.Rooted (tF s) O S :=
  T.rooted (fun _ h => hasSig_tF h) hO hS

theorem tracks_scalar {op : Operator α} {out st : List α → Val α} (T : Tracks op Any vS out st)
    {O S} (hO : ∀ h, h ≠ [] → HasSig (out h) O) (hS : ∀ h, HasSig (st h) S) : op.Rooted (tF []) O S :=
  T.rooted (fun _ h => hasSig_scalar h) hO hS

theorem hasSig_pair_float {x : Val α} {s : List Nat} (h : HasSig x (.tup [tF s, tF s])) : ∃ a : (Idx s → α) × (Idx s → α), x = .tup [vF a.1, vF a.2] := by
  obtain ⟨y, z, rfl, hy, hz⟩ := hasSig_pair h
  obtain ⟨a, rfl⟩ := hasSig_tF hy
  obtain ⟨b, rfl⟩ := hasSig_tF hz
  exact ⟨(a, b), rfl⟩

theorem lag_rooted (d : DType) (s : List Nat) {p : Nat} (hp : 0 < p) : (Lag (p : Int) : Operator α).Rooted (.leaf (d, s)) (.leaf (d, s)) (.leaf (d, p :: s)) := by
  cases d with
  | float => exact tracks_float (lag_tracks hp s) (fun _ _ => rfl) (fun _ => by sig)
  | int =>
    refine (lag_tracks_int hp s).rooted (O := .leaf (.int, s)) (fun x h => ?_) (fun _ _ => rfl) (fun _ => by sig)
    obtain ⟨y, rfl, hy⟩ := hasSig_leaf_inv h
    cases y <;> simp [Leaf.sig] at hy
    rename_i t; obtain ⟨s', v⟩ := t; simp only at hy; subst hy; exact ⟨v, rfl⟩
  | bool =>
    refine (lag_tracks_bool hp s).rooted (O := .leaf (.bool, s)) (fun x h => ?_) (fun _ _ => rfl) (fun _ => by sig)
    obtain ⟨y, rfl, hy⟩ := hasSig_leaf_inv h
    cases y <;> simp [Leaf.sig] at hy
    rename_i t; obtain ⟨s', v⟩ := t; simp only at hy; subst hy; exact ⟨v, rfl⟩

theorem leaf_of_dtype {d : DType} {X} (hX : ∀ l ∈ flatten X, l.1 = d) {x : Val α} (h : HasSig x X) : ∀ l ∈ flatten x, l.dtype = .ok d := by
  intro l hl
  obtain ⟨k, hk, rfl⟩ := List.mem_iff_getElem.1 hl
  have h2 := (HasSig_iff.1 h).2
  have hlen := congrArg List.length h2
  simp only [List.length_map] at hlen
  have h3 := congrArg (fun l => l[k]?) h2
  simp only [List.getElem?_map] at h3
  rw [List.getElem?_eq_getElem hk, List.getElem?_eq_getElem (by omega : k < (flatten X).length)] at h3
  simp only [Option.map_some, Option.some.injEq] at h3
  have h4 := hX _ (List.getElem_mem (by omega : k < (flatten X).length))
  cases e : (flatten x)[k] <;> rw [e] at h3 <;> simp only [Leaf.sig, Option.some.injEq, reduceCtorEq] at h3 <;> rw [← h3] at h4 <;> simp [Leaf.dtype, ← h4]

/-- Well-typed operators are operators of the library, made for inputs of the structure of `X` with outputs of the structure of `O`. -/
theorem TypedIn.lib {C : Int → Prop} {op : Operator α} {X O S} (h : TypedIn C op X O S) : Lib op (· = X.skel) (· = O.skel) := by
  have b : ∀ {op : Operator α} {n o} {X O : PyVal Unit}, Basic op n o → IsArgs n X → o = O → Lib op (· = X) (· = O) := fun h hX hO =>
    (Lib.basic h).weaken (by rintro _ rfl; exact hX) (by rintro _ rfl; exact hO)
  induction h with
  | sub s => exact b .sub rfl rfl
  | add s => exact b .add rfl rfl
  | mul s => exact b .mul rfl rfl
  | positive s => exact b .positive rfl rfl
  | negative s => exact b .negative rfl rfl
  | fork c l => exact (Lib.fork c).weaken (by rintro _ rfl; rfl) (by rintro _ rfl; simp [PyVal.tup])
  | identity l => exact (Lib.identity (· = .leaf ())).weaken (by rintro _ rfl; exact ⟨.leaf (), rfl, rfl⟩) (by rintro _ rfl; rfl)
  | @select ls k hk =>
    refine (Lib.selectField (ls.map skel) k (by simpa using hk)).weaken (by rintro _ rfl; simp [PyVal.tup, argSkels]) (by rintro _ rfl; simp)
  | lag d s hp => exact b (.lag _) rfl rfl
  | setDuringFloat c p h => exact .setDuring _ _ _
  | setDuringInt c p _ h => exact .setDuring _ _ _
  | globalMinimum => exact b .globalMinimum rfl rfl
  | globalMaximum => exact b .globalMaximum rfl rfl
  | localMinimum hp => exact b (.localMinimum _) rfl rfl
  | localMaximum hp => exact b (.localMaximum _) rfl rfl
  | correlation s hp => exact b (.correlation _) rfl rfl
  | crossCorrelation s hp hl => exact b (.crossCorrelation _ _) rfl rfl
  | autoCorrelation s hp hl => exact b (.autoCorrelation _ _) rfl rfl
  | sma s hp => exact b (.sma _) rfl rfl
  | msd s hp => exact b (.msd _) rfl rfl
  | ema s hp => exact b (.ema _) rfl rfl
  | rma s hp => exact b (.rma _) rfl rfl
  | bollingerBands s hp k => exact b (.bollingerBands _ _) rfl rfl
  | macd s hs hf hm => exact b (.macd _ _ _) rfl rfl
  | return_ hz hp => exact b (.return_ _) rfl rfl
  | logReturn hz hp => exact b (.logReturn _) rfl rfl
  | sharpeRatio hp => exact b (.sharpeRatio _) rfl rfl
  | skewness hp => exact b (.skewness _) rfl rfl
  | rsi hp => exact b (.rsi _) rfl rfl
  | atr hp => exact b (.atr _) rfl rfl
  | heikinAshi => exact b .heikinAshi rfl rfl
  | drawdown => exact b .drawdown rfl rfl
  | zeroCrossover s => exact b .zeroCrossover rfl rfl
  | riskRatioFloat hp q h => exact b (.riskRatio _) rfl rfl
  | riskRatioInt hp q h => exact b (.riskRatio _) rfl rfl
  | @compose ops T _ hne _ ih => exact Lib.compose (Ds := fun k => (· = (T k).skel)) ih
  | @join ops X O S _ ih =>
    refine (Lib.join (Ds := fun k => (· = (X k).skel)) (Es := fun k => (· = (O k).skel)) ih).weaken ?_ ?_
    · rintro _ rfl
      exact ⟨(List.range ops.length).map fun k => (X k).skel, .inl (by simp [PyVal.tup, Function.comp_def]), by simp, by simp⟩
    · rintro _ ⟨l, rfl, hl, h⟩
      simp only [PyVal.tup, skel_node, PyVal.node.injEq, true_and, List.map_map]
      exact List.ext_getElem (by simp [hl]) fun k h1 h2 => by simp [h k h1]
  | @ffill op X O S _ hX hO hS ih =>
    refine ih.ffill.weaken (by simp) ?_
    rintro _ ⟨t, rfl, rfl⟩
    have : ¬ IsSingleton O.skel := fun h => hO.2 ((isSingleton_map _ O).1 h)
    have e : unpackSkel O.skel = O.skel := by
      unfold unpackSkel
      split
      · exact absurd ⟨_, .inl (by assumption)⟩ this
      · exact absurd ⟨_, .inr (by assumption)⟩ this
      · rfl
    rw [e, e]
  | @map op X O S _ hX m hm ih => exact (Lib.map ih _).weaken (by simp [PyVal.skel_map]) (by simp [PyVal.skel_map])

/-- Typed operators are regular. -/
theorem TypedIn.regular {C : Int → Prop} {op : Operator α} {X O S} (h : TypedIn C op X O S) : op.Sane ∧ op.Uniform := ⟨h.lib.ok.sane, h.lib.ok.uniform⟩

/-- **Soundness of the type system.** -/
theorem TypedIn.rooted {C : Int → Prop} {op : Operator α} {X O S} (h : TypedIn C op X O S) : op.Rooted X O S := by
  induction h with
  | sub s => exact arith2_rooted _ _ s
  | add s => exact arith2_rooted _ _ s
  | mul s => exact arith2_rooted _ _ s
  | positive s =>
    refine makeStreamable_rooted fun x hw hx => ?_
    obtain ⟨a, rfl⟩ := hasSig_tF hx
    exact ⟨_, rfl, by simp, rfl⟩
  | negative s =>
    refine makeStreamable_rooted fun x hw hx => ?_
    obtain ⟨a, rfl⟩ := hasSig_tF hx
    exact ⟨_, rfl, by simp, rfl⟩
  | fork c l =>
    refine makeStreamable_rooted fun x hw hx => ?_
    obtain ⟨y, rfl, hy⟩ := hasSig_leaf_inv hx
    refine ⟨_, rfl, by simp [WF_tup], hasSig_tup ?_⟩
    rw [List.forall₂_iff_get]
    exact ⟨by simp, fun i _ _ => by simpa [unpackArgs] using hx⟩
  | identity l =>
    refine makeStreamable_rooted fun x hw hx => ?_
    obtain ⟨y, rfl, hy⟩ := hasSig_leaf_inv hx
    exact ⟨_, rfl, by simp, hx⟩
  | @select ls k hk =>
    refine makeStreamable_rooted fun x hw hx => ?_
    obtain ⟨xs, rfl, hx'⟩ := hasSig_tup_inv hx
    obtain ⟨hl, hx'⟩ := List.forall₂_iff_get.1 hx'
    refine ⟨xs[k]'(by omega), ?_, WF_tup.1 hw _ (List.getElem_mem _), hx' k (by omega) hk⟩
    have e : ¬ (k : Int) < 0 := by omega
    simp [unpackArgs, PyVal.tup, pyIndex, e, List.getElem?_eq_getElem (by omega : k < xs.length)]
  | lag d s hp => exact lag_rooted d s hp
  | setDuringFloat c p h =>
    refine setDuring_rooted (f := fillF c) (fillF_sig c) (fun x hx b l hl => ?_) p
    have := leaf_of_dtype h hx l hl
    cases l <;> simp [Leaf.dtype] at this
    exact setLeaf_f
  | setDuringInt c p _ h =>
    refine setDuring_rooted (f := fillI c) (fillI_sig c) (fun x hx b l hl => ?_) p
    have := leaf_of_dtype h hx l hl
    cases l <;> simp [Leaf.dtype] at this
    exact setLeaf_i
  | globalMinimum => exact tracks_scalar globalMin_tracks (fun _ _ => rfl) (fun _ => by sig)
  | globalMaximum => exact tracks_scalar globalMax_tracks (fun _ _ => rfl) (fun _ => by sig)
  | localMinimum hp => exact tracks_scalar (localExtremum_tracks _ _ hp) (fun _ _ => rfl) (fun _ => by sig)
  | localMaximum hp => exact tracks_scalar (localExtremum_tracks _ _ hp) (fun _ _ => rfl) (fun _ => by sig)
  | correlation s hp => exact (corr_tracks hp s).rooted (O := tF s) (fun _ h => hasSig_pair_float h) (fun _ _ => rfl) (fun _ => by sig)
  | crossCorrelation s hp hl => exact (cross_tracks hp hl s).rooted (O := tF s) (fun _ h => hasSig_pair_float h) (fun _ _ => rfl) (fun _ => by sig)
  | autoCorrelation s hp hl => exact tracks_float (auto_tracks hp hl s) (fun _ _ => rfl) (fun _ => by sig)
  | sma s hp => exact tracks_float (sma_tracks hp s) (fun _ _ => rfl) (fun _ => by sig)
  | msd s hp => exact tracks_float (msd_tracks hp s) (fun _ _ => rfl) (fun _ => by sig)
  | ema s hp => exact tracks_float (ema_tracks hp s) (fun _ _ => rfl) (fun _ => by sig)
  | rma s hp => exact tracks_float (rma_tracks hp s) (fun _ _ => rfl) (fun _ => by sig)
  | bollingerBands s hp k => exact tracks_float (bollinger_tracks hp k s) (fun _ _ => rfl) (fun _ => by sig)
  | macd s hs hf hm => exact tracks_float (macd_tracks hs hf hm s) (fun _ _ => rfl) (fun _ => by sig)
  | return_ hz hp => exact tracks_scalar (return_tracks hz _ hp) (fun _ _ => rfl) (fun _ => by sig)
  | logReturn hz hp => exact tracks_scalar (return_tracks hz _ hp) (fun _ _ => rfl) (fun _ => by sig)
  | sharpeRatio hp =>
    refine (sharpe_tracks hp).rooted (O := tF []) (fun x h => ?_) (fun _ _ => rfl) (fun _ => by sig)
    obtain ⟨a, rfl⟩ := hasSig_pair_float h
    exact ⟨(a.1 (), a.2 ()), rfl⟩
  | skewness hp => exact tracks_scalar (skewness_tracks hp) (fun _ _ => rfl) (fun _ => by sig)
  | rsi hp => exact tracks_scalar (rsi_tracks hp) (fun _ _ => rfl) (fun _ => by sig)
  | atr hp =>
    refine (atr_tracks hp).rooted (O := tF []) (fun x h => ?_) (fun _ _ => rfl) (fun _ => by sig)
    obtain ⟨xs, rfl, h'⟩ := hasSig_tup_inv h
    rcases h' with _ | ⟨h1, _ | ⟨h2, _ | ⟨h3, ⟨⟩⟩⟩⟩
    obtain ⟨a, rfl⟩ := hasSig_scalar h1
    obtain ⟨b, rfl⟩ := hasSig_scalar h2
    obtain ⟨c, rfl⟩ := hasSig_scalar h3
    exact ⟨⟨a, b, c⟩, rfl⟩
  | heikinAshi =>
    refine ha_tracks.rooted (O := .tup [tF [], tF [], tF [], tF []]) (fun x h => ?_) (fun _ _ => rfl) (fun _ => by sig)
    obtain ⟨xs, rfl, h'⟩ := hasSig_tup_inv h
    rcases h' with _ | ⟨h1, _ | ⟨h2, _ | ⟨h3, _ | ⟨h4, ⟨⟩⟩⟩⟩⟩
    obtain ⟨a, rfl⟩ := hasSig_scalar h1
    obtain ⟨b, rfl⟩ := hasSig_scalar h2
    obtain ⟨c, rfl⟩ := hasSig_scalar h3
    obtain ⟨d, rfl⟩ := hasSig_scalar h4
    exact ⟨⟨a, b, c, d⟩, rfl⟩
  | drawdown => exact tracks_scalar drawdown_tracks (fun _ _ => rfl) (fun _ => by sig)
  | zeroCrossover s => exact tracks_float zc_tracks (fun _ _ => rfl) (fun _ => by sig)
  | riskRatioFloat hp q hq =>
    refine ((rr_tracks hp hq).comap fun x : α × α × α × α => ⟨x.1, x.2.1, x.2.2.1, .inl x.2.2.2⟩).rooted (O := .tup [tI [], tI [], tF [], tI []]) (fun x h => ?_) (fun _ _ => rfl) (fun _ => by sig)
    obtain ⟨xs, rfl, h'⟩ := hasSig_tup_inv h
    rcases h' with _ | ⟨h1, _ | ⟨h2, _ | ⟨h3, _ | ⟨h4, ⟨⟩⟩⟩⟩⟩
    obtain ⟨a, rfl⟩ := hasSig_scalar h1
    obtain ⟨b, rfl⟩ := hasSig_scalar h2
    obtain ⟨c, rfl⟩ := hasSig_scalar h3
    obtain ⟨d, rfl⟩ := hasSig_scalar h4
    exact ⟨⟨a, b, c, d⟩, rfl⟩
  | riskRatioInt hp q hq =>
    refine ((rr_tracks hp hq).comap fun x : α × α × α × Int => ⟨x.1, x.2.1, x.2.2.1, .inr x.2.2.2⟩).rooted (O := .tup [tI [], tI [], tF [], tI []]) (fun x h => ?_) (fun _ _ => rfl) (fun _ => by sig)
    obtain ⟨xs, rfl, h'⟩ := hasSig_tup_inv h
    rcases h' with _ | ⟨h1, _ | ⟨h2, _ | ⟨h3, _ | ⟨h4, ⟨⟩⟩⟩⟩⟩
    obtain ⟨a, rfl⟩ := hasSig_scalar h1
    obtain ⟨b, rfl⟩ := hasSig_scalar h2
    obtain ⟨c, rfl⟩ := hasSig_scalar h3
    obtain ⟨y, rfl, hy⟩ := hasSig_leaf_inv h4
    cases y <;> simp [Leaf.sig] at hy
    rename_i t; obtain ⟨s', v⟩ := t; simp only at hy; subst hy
    exact ⟨⟨a, b, c, v ()⟩, rfl⟩
  | compose hne _ ih => exact ⟨Compose_steady hne fun k hk => (ih k hk).1, Compose_start hne ih⟩
  | join _ ih => exact ⟨Join_steady fun k hk => (ih k hk).1, Join_start ih⟩
  | ffill _ hX hO hS ih => exact ⟨FFill_steady ih.1 hX hO hS, FFill_start ih hX hO hS⟩
  | map h hX hm ih => exact ⟨Map_steady h.regular.1 ih.1 hX hm, Map_start h.regular.1 ih hX hm⟩

theorem TypedIn.steady {C : Int → Prop} {op : Operator α} {X O S} (h : TypedIn C op X O S) : op.Steady X O S := h.rooted.1

end
end TS
