import Verif.Model.Signals
import Verif.Lemmas.Call
/-
Decoding of positional arguments: computation rules on values of the right form, and inversion.
-/
namespace TS
open PyVal
variable {α : Type} {A : Type}

theorem Tensor.unpack_eq_ok {β : Type} {s : List Nat} {t : Tensor β} {l : List (Idx s → β)} :
    t.unpack s = .ok l ↔ t = Tensor.pack s l := by
  constructor
  · intro h
    obtain ⟨sh, v⟩ := t
    cases sh with
    | nil => simp [Tensor.unpack] at h
    | cons n s' =>
      simp only [Tensor.unpack] at h
      split at h
      · rename_i hs
        subst hs
        simp only [Except.ok.injEq] at h
        subst h
        have hl : (List.ofFn fun i : Fin n => fun c => v (i, c)).length = n := by simp
        have : ∀ (l : List (Idx s' → β)) (hl : l.length = n),
            (∀ i (h : i < n) c, v (⟨i, h⟩, c) = (l[i]'(hl ▸ h)) c) → (⟨n :: s', v⟩ : Tensor β) = Tensor.pack s' l := by
          intro l hl h
          subst hl
          simp only [Tensor.pack, Tensor.mk.injEq, heq_eq_eq, true_and]
          funext c
          exact h c.1 c.1.2 c.2
        exact this _ hl (fun i h c => by simp)
      · simp at h
  · rintro rfl; simp

@[simp] theorem decAny_ok {v w : Val α} : decAny v = .ok w ↔ v = w := by simp [decAny]
theorem decLeaf_ok {v : Val α} {l : Leaf α} : decLeaf v = .ok l ↔ v = .leaf l := by
  cases v <;> simp [decLeaf]
theorem asF_ok {l : Leaf α} {t : Tensor α} : l.asF = .ok t ↔ l = .f t := by cases l <;> simp [Leaf.asF]
theorem asI_ok {l : Leaf α} {t : Tensor Int} : l.asI = .ok t ↔ l = .i t := by cases l <;> simp [Leaf.asI]
theorem asB_ok {l : Leaf α} {t : Tensor Bool} : l.asB = .ok t ↔ l = .b t := by cases l <;> simp [Leaf.asB]
theorem decF_ok {v : Val α} {t : Tensor α} : decF v = .ok t ↔ v = .leaf (.f t) := by
  simp only [decF, bind_eq_ok, decLeaf_ok, asF_ok]
  exact ⟨fun ⟨_, h, h'⟩ => by rw [h, h'], fun h => ⟨_, h, rfl⟩⟩
theorem decFs_ok {s : List Nat} {v : Val α} {w : Idx s → α} : decFs s v = .ok w ↔ v = vF w := by
  simp only [decFs, bind_eq_ok, decF_ok, Tensor.asShape_eq_ok]
  exact ⟨fun ⟨_, h, h'⟩ => by rw [h, h'], fun h => ⟨_, h, rfl⟩⟩
theorem decBuf_ok {s : List Nat} {v : Val α} {l : List (Idx s → α)} : decBuf s v = .ok l ↔ v = vBuf l := by
  simp only [decBuf, bind_eq_ok, decF_ok, Tensor.unpack_eq_ok]
  exact ⟨fun ⟨_, h, h'⟩ => by rw [h, h'], fun h => ⟨_, h, rfl⟩⟩
theorem decS_ok {v : Val α} {x : α} : decS v = .ok x ↔ v = vS x := by
  constructor
  · intro h
    simp only [decS, bind_eq_ok] at h
    obtain ⟨w, h1, h2⟩ := h
    rw [decFs_ok.1 h1]
    cases h2
    rfl
  · rintro rfl
    have : decFs [] (vS x) = .ok (fun _ => x) := decFs_ok.2 rfl
    simp only [decS, this, ok_bind]
theorem decSBuf_ok {v : Val α} {l : List α} : decSBuf v = .ok l ↔ v = vSBuf l := by
  constructor
  · intro h
    simp only [decSBuf, bind_eq_ok] at h
    obtain ⟨l', h1, h2⟩ := h
    rw [decBuf_ok.1 h1]
    cases h2
    show vBuf l' = vBuf (s := []) ((l'.map fun x => x ()).map pt)
    rw [List.map_map]
    congr 3
    exact (List.map_id l').symm
  · rintro rfl
    have : decBuf [] (vSBuf l) = .ok (l.map pt) := decBuf_ok.2 rfl
    simp only [decSBuf, this, ok_bind, List.map_map]
    congr 1
    exact List.map_id l
theorem decI_ok {v : Val α} {n : Int} : decI v = .ok n ↔ v = vI n := by
  constructor
  · intro h
    simp only [decI, bind_eq_ok, decLeaf_ok, asI_ok] at h
    obtain ⟨l, rfl, t, rfl, w, h3, h4⟩ := h
    rw [Tensor.asShape_eq_ok.1 h3]
    cases h4
    rfl
  · rintro rfl; rfl
theorem decIBuf_ok {v : Val α} {l : List Int} : decIBuf v = .ok l ↔ v = vIBuf l := by
  constructor
  · intro h
    simp only [decIBuf, bind_eq_ok, decLeaf_ok, asI_ok] at h
    obtain ⟨_, rfl, t, rfl, l', h1, h2⟩ := h
    rw [Tensor.unpack_eq_ok.1 h1]
    cases h2
    show _ = vIBuf (l'.map fun x => x ())
    rw [vIBuf, List.map_map]
    congr 3
    exact (List.map_id _).symm
  · rintro rfl
    have : (Tensor.pack [] (l.map fun n (_ : Idx []) => n)).unpack [] = .ok (l.map fun n _ => n) := Tensor.unpack_eq_ok.2 rfl
    show (do Except.ok ((← (Tensor.pack [] (l.map fun n (_ : Idx []) => n)).unpack []).map fun x => x ()) : Res (List Int)) = _
    rw [this, ok_bind, List.map_map]
    exact congrArg _ (List.map_id _)
theorem decB_ok {v : Val α} {b : Bool} : decB v = .ok b ↔ v = vB b := by
  constructor
  · intro h
    simp only [decB, bind_eq_ok, decLeaf_ok, asB_ok] at h
    obtain ⟨l, rfl, t, rfl, w, h3, h4⟩ := h
    rw [Tensor.asShape_eq_ok.1 h3]
    cases h4
    rfl
  · rintro rfl; rfl


@[simp] theorem decAny_eq (v : Val α) : decAny v = .ok v := rfl
@[simp] theorem decLeaf_leaf (l : Leaf α) : decLeaf (.leaf l) = .ok l := rfl
@[simp] theorem decF_vF (t : Tensor α) : decF (.leaf (.f t)) = .ok t := rfl
@[simp] theorem decFs_self (t : Tensor α) : decFs t.shape (.leaf (.f t)) = .ok t.val := decFs_ok.2 rfl
@[simp] theorem decFs_vF {s : List Nat} (v : Idx s → α) : decFs s (vF v) = .ok v := decFs_ok.2 rfl
@[simp] theorem decBuf_vBuf {s : List Nat} (l : List (Idx s → α)) : decBuf s (vBuf l) = .ok l := decBuf_ok.2 rfl
@[simp] theorem decS_vS (x : α) : decS (vS x) = .ok x := decS_ok.2 rfl
@[simp] theorem decSBuf_vSBuf (l : List α) : decSBuf (vSBuf l) = .ok l := decSBuf_ok.2 rfl
@[simp] theorem decI_vI (n : Int) : decI (vI n : Val α) = .ok n := decI_ok.2 rfl
@[simp] theorem decIBuf_vIBuf (l : List Int) : decIBuf (vIBuf l : Val α) = .ok l := decIBuf_ok.2 rfl
@[simp] theorem decB_vB (b : Bool) : decB (vB b : Val α) = .ok b := decB_ok.2 rfl

theorem arity_ok {lo hi : Nat} {args : List (Val α)} {u : Unit} :
    arity lo hi args = .ok u ↔ lo ≤ args.length ∧ args.length ≤ hi := by
  unfold arity; split <;> simp_all

theorem req_ok {args : List (Val α)} {k : Nat} {dec : Val α → Res A} {a : A} :
    req args k dec = .ok a ↔ ∃ v, args[k]? = some v ∧ dec v = .ok a := by
  unfold req; split <;> simp_all

theorem opt_ok {args : List (Val α)} {k : Nat} {dec : Val α → Res A} {o : Option A} :
    opt args k dec = .ok o ↔ (args[k]? = none ∧ o = none) ∨
      ∃ v a, args[k]? = some v ∧ dec v = .ok a ∧ o = some a := by
  unfold opt; split
  · rename_i v h
    simp only [bind_eq_ok, h]
    constructor
    · rintro ⟨a, h1, h2⟩; exact .inr ⟨v, a, rfl, h1, by simpa using h2.symm⟩
    · rintro (h | ⟨v', a, h0, h1, h2⟩)
      · simp at h
      · cases h0; exact ⟨a, h1, by rw [h2]⟩
  · rename_i h
    simp [h, eq_comm]

@[simp] theorem req_zero (a : Val α) (l : List (Val α)) (dec : Val α → Res A) : req (a :: l) 0 dec = dec a := rfl
@[simp] theorem req_succ (a : Val α) (l : List (Val α)) (k : Nat) (dec : Val α → Res A) :
    req (a :: l) (k + 1) dec = req l k dec := by simp [req]
@[simp] theorem opt_nil (k : Nat) (dec : Val α → Res A) : opt ([] : List (Val α)) k dec = .ok none := by simp [opt]
@[simp] theorem opt_zero (a : Val α) (l : List (Val α)) (dec : Val α → Res A) :
    opt (a :: l) 0 dec = (do .ok (some (← dec a))) := rfl
@[simp] theorem opt_succ (a : Val α) (l : List (Val α)) (k : Nat) (dec : Val α → Res A) :
    opt (a :: l) (k + 1) dec = opt l k dec := by simp [opt]

@[simp] theorem toTensors_f (t : Tensor α) : toTensors (.leaf (.f t) : Val α) = .ok (.leaf (.f t)) := rfl
@[simp] theorem toTensors_i (t : Tensor Int) : toTensors (.leaf (.i t) : Val α) = .ok (.leaf (.i t)) := rfl
@[simp] theorem toTensors_b (t : Tensor Bool) : toTensors (.leaf (.b t) : Val α) = .ok (.leaf (.b t)) := rfl
@[simp] theorem toTensors_vSBuf (l : List α) : toTensors (vSBuf l) = .ok (vSBuf l) := rfl
@[simp] theorem skel_vSBuf (l : List α) : (vSBuf l).skel = .leaf () := rfl
@[simp] theorem WF_vSBuf (l : List α) : (vSBuf l).WF := by simp [vSBuf]
@[simp] theorem tensors_vSBuf (l : List α) : Tensors (vSBuf l) := by simp [Tensors, vSBuf]
@[simp] theorem toTensors_tup (xs : List (Val α)) :
    toTensors (.node .tuple xs) = (do .ok (.node .tuple (← xs.mapM toTensors))) := by
  have : ∀ xs : List (Val α), mapFnSeq (fn1 Leaf.toTensor) xs [xs] = xs.mapM toTensors := by
    intro xs
    induction xs with
    | nil => rfl
    | cons x xs ih => simp only [mapFnSeq, zipRow, Option.map_some, ih, toTensors, List.mapM_cons]; rfl
  simp only [toTensors, mapFn, asSeq, List.mapM_cons, List.mapM_nil, ok_bind, pure_eq_ok, this]

theorem call_none (op : Operator α) (x : Val α) : call op x none false = (do op.forwardStep (← toTensors x) none) := by
  simp [call]
theorem call_some (op : Operator α) (x s : Val α) :
    call op x (some s) false = (do op.forwardStep (← toTensors x) (some (← toTensors s))) := by
  simp only [call, pure_eq_ok, Bool.false_eq_true, if_false, ok_bind]

theorem call_step_ok {op : Operator α} {x : Val α} {st : Option (Val α)} (hx : x.WF) (hs : ∀ s ∈ st, s.WF)
    {r : Step α} : call op x st false = .ok r ↔ Tensors x ∧ (∀ s ∈ st, Tensors s) ∧ op.forwardStep x st = .ok r := by
  constructor
  · intro h
    obtain ⟨h1, h2⟩ := call_ok_tensors hx hs h
    refine ⟨h1, h2, ?_⟩
    rw [call_eq false hx h1 fun s e => ⟨hs s e, h2 s e⟩] at h
    simpa using h
  · rintro ⟨h1, h2, h3⟩
    rw [call_eq false hx h1 fun s e => ⟨hs s e, h2 s e⟩]
    simpa using h3

end TS
