import Verif.Lemmas.Steady
/-
Forward filling of operators that are functions of the history.
-/
namespace TS
open PyVal
variable {α : Type} [TFNum α]
set_option linter.unusedSimpArgs false

/-- One successful step of FFill. -/
theorem ffill_step_total {op : Operator α} {O S} {x o n i p s : Val α} {st po st' : Option (Val α)} (hw : x.WF) (hx : Floats x)
    (hst : ∀ t ∈ st, t.WF ∧ HasType t S) (h : op.forwardStep x st = .ok (o, n, i)) (ho : o.WF ∧ HasSig o O) (hn : n.WF ∧ HasType n S)
    (hi : i.WF ∧ HasType i S) (hp : p.WF ∧ HasSig p O) (hs : st.getD i = s)
    (hpo : (po = none ∧ mapFn (fn1 zerosLike) o [o] = .ok p) ∨ po = some p)
    (hst' : (st' = none ∧ po = none ∧ st = none) ∨ ∃ s a b, st' = some s ∧ getItem 0 s = .ok a ∧ getItem 1 s = .ok b ∧ po = some a ∧ st = some b)
    (pO : Passable O) (pS : S = PyVal.unit ∨ Passable S) :
    (FFill op).forwardStep x st' = .ok (if hasZero x then p else o, .tup [if hasZero x then p else o, if hasZero x then s else n], .tup [p, i]) := by
  have hO' : Passable (O.map Prod.fst) := (passable_skel (by simp [PyVal.skel_map])).2 pO
  have hsS : s.WF ∧ HasType s S := by
    cases st with
    | none => cases hs; exact hi
    | some t => cases hs; exact hst _ rfl
  have ht : Tensors x := fun l hl => by obtain ⟨t, rfl⟩ := hx l hl; simp
  have hcall : call op x st false = .ok (o, n, i) := by
    rw [call_eq false hw ht (fun s hs => ⟨(hst s hs).1, tensors_iff.2 ⟨_, (hst s hs).2⟩⟩)]
    simpa using h
  exact ffill_ok.2 ⟨hasZero x, po, st, o, n, i, p, _, _, anyValue_total hw hx, hst', hcall, hpo,
        tfCond_total hp.1 ho.1 hp.2.hasType ho.2.hasType hO', by rw [hs]; exact ffillState_total hi hsS hn pS, rfl⟩

omit [TFNum α] in
theorem skipping_marked {A B : Type} {z : A → Bool} {z0 : B} {y : List A → B} {h : List A} {x : A} (hx : z x = true) :
    skipping z z0 y (h ++ [x]) = skipping z z0 y h := by
  simp [skipping, hx]

omit [TFNum α] in
theorem skipping_other {A B : Type} {z : A → Bool} {z0 : B} {y : List A → B} {h : List A} {x : A} (hx : z x = false) :
    skipping z z0 y (h ++ [x]) = y (h.filter (fun a => !z a) ++ [x]) := by
  simp [skipping, hx]

/-- FFill of a function of the history is that function of the history without the zeros. -/
theorem Tracks.ffill {A : Type} {op : Operator α} {enc : A → Val α} {out st : List A → Val α} (T : Tracks op Any enc out st)
    (hX : ∀ a, Floats (enc a)) {O} (hO : ∀ h, h ≠ [] → HasSig (out h) O) {S} (hS : ∀ h, HasType (st h) S) (pO : Passable O)
    (pS : S = PyVal.unit ∨ Passable S) {Z : Val α} (hZw : Z.WF ∧ HasSig Z O) (hZ : ∀ x, (out [x]).map zeroLeaf = Z)
    {z : A → Bool} (hz : ∀ a, hasZero (enc a) = z a) :
    Tracks (FFill op) Any enc (skipping z Z out) (fun h => .tup [skipping z Z out h, st (h.filter fun a => !z a)]) := by
  obtain ⟨_, ho⟩ := T.out_ok
  obtain ⟨_, hs⟩ := T.st_ok
  have ho' : ∀ h, h ≠ [] → (out h).WF ∧ HasSig (out h) O := fun h hh => ⟨(ho h hh).1, hO h hh⟩
  have hs' : ∀ h, (st h).WF ∧ HasType (st h) S := fun h => ⟨(hs h).1, hS h⟩
  have hsk : ∀ h, (skipping z Z out h).WF ∧ HasSig (skipping z Z out h) O := by
    intro h
    unfold skipping
    split
    · exact hZw
    · rename_i hh
      refine ho' _ fun e => hh ?_
      rw [List.filter_eq_nil_iff] at e
      rw [List.all_eq_true]
      intro a ha
      simpa using e a ha
  refine ⟨fun x _ => ?_, fun h x _ => ?_, T.enc_ok, ⟨O, fun h _ => hsk h⟩, ⟨.tup [O.map Prod.fst, S], fun h => ?_⟩⟩
  · have e := zerosLike_total (ho' [x] (by simp)).1 (ho' [x] (by simp)).2.tensors
    rw [hZ] at e
    rw [ffill_step_total (T.enc_ok x).1 (hX x) (by simp) (T.first x trivial) (ho' _ (by simp)) (hs' _) (hs' _) hZw rfl (.inl ⟨rfl, e⟩)
      (.inl ⟨rfl, rfl, rfl⟩) pO pS, hz]
    cases e : z x <;> simp [skipping, e]
  · rw [ffill_step_total (T.enc_ok x).1 (hX x) (by rintro _ ⟨⟩; exact hs' _) (T.next (h.filter fun a => !z a) x trivial) (ho' _ (by simp)) (hs' _) (hs' _)
      (hsk h) rfl (.inr rfl) (.inr ⟨_, _, _, rfl, rfl, rfl, rfl, rfl⟩) pO pS, hz]
    cases e : z x
    · rw [skipping_other e]; simp [e]
    · rw [skipping_marked e]; simp [e]
  · exact ⟨by simp [WF_tup, (hsk h).1, (hs' _).1], hasType_tup (.cons (hsk h).2.hasType (.cons (hs' _).2 .nil))⟩

end TS
