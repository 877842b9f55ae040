import Verif.Lemmas.Window
/-
Operators fed by a function of the history: pipelines, banks, and operators behind other operators.
-/
namespace TS
open PyVal
variable {α : Type} {A B : Type}

/-- Fed with `x h` after every valid history `h`, the operator's state is `st h` and its output `out h`. -/
structure Follows (op : Operator α) (V : List A → Prop) (x out st : List A → Val α) : Prop where
  fresh : ∀ a, V [a] → call op (x [a]) none false = .ok (out [a], st [a], st [])
  next : ∀ h a, V (h ++ [a]) → call op (x (h ++ [a])) (some (st h)) false = .ok (out (h ++ [a]), st (h ++ [a]), st h)
  out_ok : ∃ ty, ∀ h, h ≠ [] → (out h).WF ∧ HasSig (out h) ty
  st_ok : ∃ ty, ∀ h, (st h).WF ∧ HasType (st h) ty

theorem scan_snoc (y : List A → B) (h : List A) (a : A) : scan y [] (h ++ [a]) = scan y [] h ++ [y (h ++ [a])] := by
  have : ∀ k, scan y k (h ++ [a]) = scan y k h ++ [y (k ++ (h ++ [a]))] := by
    induction h with
    | nil => intro k; simp [scan_cons, scan_nil]
    | cons b h ih => intro k; simp [scan_cons, ih]
  simpa using this []

/-- An operator behind a function of the history. -/
theorem Tracks.follows {op : Operator α} {V : List B → Prop} {enc : B → Val α} {out st : List B → Val α}
    (T : Tracks op V enc out st) (u : List A → B) {V' : List A → Prop} (hV : ∀ h, V' h → V (scan u [] h)) {x : List A → Val α}
    (hx : ∀ h, h ≠ [] → x h = enc (u h)) :
    Follows op V' x (fun h => out (scan u [] h)) (fun h => st (scan u [] h)) := by
  refine ⟨fun a h => ?_, fun h a hv => ?_, ?_, ?_⟩
  · have := T.step_fresh (x := u [a]) (by simpa [scan_cons, scan_nil] using hV _ h)
    simpa [scan_cons, scan_nil, hx] using this
  · have h1 := hV _ hv
    rw [scan_snoc] at h1
    have := T.step_next h1
    rw [hx _ (by simp), scan_snoc]
    exact this
  · obtain ⟨ty, h⟩ := T.out_ok
    exact ⟨ty, fun k hk => h _ (scan_ne_nil hk)⟩
  · obtain ⟨ty, h⟩ := T.st_ok
    exact ⟨ty, fun k => h _⟩

/-- An operator fed by the samples themselves. -/
theorem Follows.tracks {op : Operator α} {V : List A → Prop} {x out st : List A → Val α} (F : Follows op V x out st)
    {enc : A → Val α} (hx : ∀ h a, x (h ++ [a]) = enc a) (he : ∀ a, (enc a).WF ∧ Tensors (enc a)) : Tracks op V enc out st := by
  have hs : ∀ h, (st h).WF ∧ Tensors (st h) := fun h => by
    obtain ⟨ty, hty⟩ := F.st_ok
    exact ⟨(hty h).1, tensors_iff.2 ⟨ty, (hty h).2⟩⟩
  refine ⟨fun a h => ?_, fun h a hv => ?_, he, F.out_ok, F.st_ok⟩
  · have := F.fresh a h
    have e := hx [] a
    simp only [List.nil_append] at e
    rw [e, call_eq false (he a).1 (he a).2 (by simp)] at this
    simpa using this
  · have := F.next h a hv
    rw [hx, call_eq false (he a).1 (he a).2 (by rintro _ ⟨⟩; exact hs h)] at this
    simpa using this

theorem Follows.congr {op : Operator α} {V : List A → Prop} {x out st out' st' : List A → Val α} (F : Follows op V x out st)
    (ho : ∀ h, h ≠ [] → out h = out' h) (hs : ∀ h, st h = st' h) : Follows op V x out' st' := by
  obtain rfl : st = st' := funext hs
  refine ⟨fun a h => ?_, fun h a hv => ?_, ?_, F.st_ok⟩
  · rw [← ho _ (by simp)]; exact F.fresh a h
  · rw [← ho _ (by simp)]; exact F.next h a hv
  · obtain ⟨ty, h⟩ := F.out_ok
    exact ⟨ty, fun k hk => ho k hk ▸ h k hk⟩

theorem Tracks.congr {op : Operator α} {V : List A → Prop} {enc : A → Val α} {out st out' st' : List A → Val α} (T : Tracks op V enc out st)
    (ho : ∀ h, h ≠ [] → out h = out' h) (hs : ∀ h, st h = st' h) : Tracks op V enc out' st' := by
  obtain rfl : st = st' := funext hs
  refine ⟨fun a h => ?_, fun h a hv => ?_, T.enc_ok, ?_, T.st_ok⟩
  · rw [← ho _ (by simp)]; exact T.first a h
  · rw [← ho _ (by simp)]; exact T.next h a hv
  · obtain ⟨ty, h⟩ := T.out_ok
    exact ⟨ty, fun k hk => ho k hk ▸ h k hk⟩

theorem hasType_tup {xs : List (Val α)} {tys : List (PyVal DType)} (h : List.Forall₂ HasType xs tys) : HasType (.tup xs) (.tup tys) := by
  rw [HasType_iff]
  simp only [PyVal.tup, PyVal.map_node]
  congr 1
  induction h with
  | nil => rfl
  | cons h hs ih => simp [ih, HasType_iff.1 h]

theorem hasSig_tup {xs : List (Val α)} {tys : List (PyVal (DType × List Nat))} (h : List.Forall₂ HasSig xs tys) : HasSig (.tup xs) (.tup tys) := by
  unfold HasSig
  simp only [PyVal.tup, PyVal.map_node]
  congr 1
  induction h with
  | nil => rfl
  | cons h hs ih => rw [List.map_cons, ih, h]; rfl

/-! ### Pipelines -/

/-- A chain of operators in execution order, each fed by the output of the previous one. -/
inductive ChainFollows (V : List A → Prop) : List (Operator α) → (List A → Val α) → (List A → Val α) → List (List A → Val α) → Prop where
  | nil (x) : ChainFollows V [] x x []
  | cons {op ops x y out s ss} : Follows op V x y s → ChainFollows V ops y out ss → ChainFollows V (op :: ops) x out (s :: ss)

theorem ChainFollows.length {V : List A → Prop} {ops : List (Operator α)} {x out : List A → Val α} {ss} (h : ChainFollows V ops x out ss) :
    ss.length = ops.length := by
  induction h with
  | nil => rfl
  | cons _ _ ih => simp [ih]

theorem ChainFollows.out_ok {V : List A → Prop} {ops : List (Operator α)} {x out : List A → Val α} {ss} (h : ChainFollows V ops x out ss)
    (hne : ops ≠ []) : ∃ ty, ∀ h, h ≠ [] → (out h).WF ∧ HasSig (out h) ty := by
  induction h with
  | nil => exact absurd rfl hne
  | @cons op ops x y out s ss F C ih =>
    cases C with
    | nil => exact F.out_ok
    | cons F' C' => exact ih (by simp)

theorem ChainFollows.st_ok {V : List A → Prop} {ops : List (Operator α)} {x out : List A → Val α} {ss} (h : ChainFollows V ops x out ss) :
    ∃ tys, ∀ k, (∀ s ∈ ss, (s k).WF) ∧ List.Forall₂ HasType (ss.map fun s => s k) tys := by
  induction h with
  | nil => exact ⟨[], fun k => ⟨by simp, .nil⟩⟩
  | cons F C ih =>
    obtain ⟨tys, h⟩ := ih
    obtain ⟨ty, h'⟩ := F.st_ok
    exact ⟨ty :: tys, fun k => ⟨by simpa using ⟨(h' k).1, (h k).1⟩, .cons (h' k).2 (h k).2⟩⟩

theorem ChainFollows.fresh {V : List A → Prop} {ops : List (Operator α)} {x out : List A → Val α} {ss} (h : ChainFollows V ops x out ss)
    {a : A} (hv : V [a]) :
    composeLoop (ops.zip (List.replicate ops.length none)) (x [a]) = .ok (out [a], ss.map fun s => s [a], ss.map fun s => s []) := by
  induction h with
  | nil => rfl
  | cons F C ih => simp [List.replicate_succ, composeLoop, F.fresh a hv, ih]

theorem ChainFollows.next {V : List A → Prop} {ops : List (Operator α)} {x out : List A → Val α} {ss} (C : ChainFollows V ops x out ss)
    {h : List A} {a : A} (hv : V (h ++ [a])) :
    composeLoop (ops.zip ((ss.map fun s => s h).map some)) (x (h ++ [a])) =
      .ok (out (h ++ [a]), ss.map fun s => s (h ++ [a]), ss.map fun s => s h) := by
  induction C with
  | nil => rfl
  | cons F C ih => simp only [List.map_map] at ih; simp [composeLoop, F.next h a hv, ih]

theorem zip_ne_nil_of {C D : Type} {xs : List C} {ys : List D} (h : xs ≠ []) (hl : ys.length = xs.length) : (xs.zip ys).isEmpty = false := by
  cases xs <;> cases ys <;> simp_all

/-- `Compose` runs the chain. -/
theorem ChainFollows.compose {V : List A → Prop} {ops : List (Operator α)} {x out : List A → Val α} {ss} (C : ChainFollows V ops.reverse x out ss)
    (hne : ops ≠ []) (hx : ∀ h, h ≠ [] → (x h).WF ∧ Tensors (x h)) :
    Follows (Compose ops) V x out (fun h => .tup (ss.map fun s => s h)) := by
  have hne' : ops.reverse ≠ [] := by simpa using hne
  obtain ⟨tys, hst⟩ := C.st_ok
  have hlen := C.length
  have hst' : ∀ h, (PyVal.tup (ss.map fun s => s h)).WF ∧ HasType (PyVal.tup (ss.map fun s => s h)) (.tup tys) := fun h =>
    ⟨by rw [WF_tup]; simpa using (hst h).1, hasType_tup (hst h).2⟩
  refine ⟨fun a hv => ?_, fun h a hv => ?_, C.out_ok hne', _, hst'⟩
  · obtain ⟨w, t⟩ := hx [a] (by simp)
    rw [call_eq false w t (by simp)]
    have hz := zip_ne_nil_of (ys := List.replicate ops.reverse.length (none : Option (Val α))) hne' (by simp)
    simp only [Compose, metaStreamable, composeStep, opStates, ok_bind, hz, C.fresh hv]
    rfl
  · obtain ⟨w, t⟩ := hx (h ++ [a]) (by simp)
    rw [call_eq false w t (by rintro _ ⟨⟩; exact ⟨(hst' h).1, tensors_iff.2 ⟨_, (hst' h).2⟩⟩)]
    have hz := zip_ne_nil_of (ys := (ss.map fun s => s h).map some) hne' (by simp [hlen])
    simp only [Compose, metaStreamable, composeStep, opStates, PyVal.tup, asSeq, ok_bind, hz, C.next hv]
    rfl

/-! ### Banks -/

/-- Operators side by side. -/
inductive BankFollows (V : List A → Prop) : List (Operator α) → List (List A → Val α) → List (List A → Val α) → List (List A → Val α) → Prop where
  | nil : BankFollows V [] [] [] []
  | cons {op ops x xs y ys s ss} : Follows op V x y s → BankFollows V ops xs ys ss → BankFollows V (op :: ops) (x :: xs) (y :: ys) (s :: ss)

theorem BankFollows.out_ok {V : List A → Prop} {ops : List (Operator α)} {xs outs ss} (h : BankFollows V ops xs outs ss) :
    ∃ tys, ∀ k, k ≠ [] → (∀ s ∈ outs, (s k).WF) ∧ List.Forall₂ HasSig (outs.map fun s => s k) tys := by
  induction h with
  | nil => exact ⟨[], fun k _ => ⟨by simp, .nil⟩⟩
  | cons F C ih =>
    obtain ⟨tys, h⟩ := ih
    obtain ⟨ty, h'⟩ := F.out_ok
    exact ⟨ty :: tys, fun k hk => ⟨by simpa using ⟨(h' k hk).1, (h k hk).1⟩, .cons (h' k hk).2 (h k hk).2⟩⟩

theorem BankFollows.st_ok {V : List A → Prop} {ops : List (Operator α)} {xs outs ss} (h : BankFollows V ops xs outs ss) :
    ∃ tys, ∀ k, (∀ s ∈ ss, (s k).WF) ∧ List.Forall₂ HasType (ss.map fun s => s k) tys := by
  induction h with
  | nil => exact ⟨[], fun k => ⟨by simp, .nil⟩⟩
  | cons F C ih =>
    obtain ⟨tys, h⟩ := ih
    obtain ⟨ty, h'⟩ := F.st_ok
    exact ⟨ty :: tys, fun k => ⟨by simpa using ⟨(h' k).1, (h k).1⟩, .cons (h' k).2 (h k).2⟩⟩

theorem BankFollows.fresh {V : List A → Prop} {ops : List (Operator α)} {xs outs ss} (h : BankFollows V ops xs outs ss)
    {a : A} (hv : V [a]) :
    joinLoop (ops.zip ((xs.map fun x => x [a]).zip (List.replicate ops.length none))) =
      .ok (outs.map fun o => o [a], ss.map fun s => s [a], ss.map fun s => s []) := by
  induction h with
  | nil => rfl
  | cons F C ih => simp [List.replicate_succ, joinLoop, F.fresh a hv, ih]

theorem BankFollows.next {V : List A → Prop} {ops : List (Operator α)} {xs outs ss} (C : BankFollows V ops xs outs ss)
    {h : List A} {a : A} (hv : V (h ++ [a])) :
    joinLoop (ops.zip ((xs.map fun x => x (h ++ [a])).zip ((ss.map fun s => s h).map some))) =
      .ok (outs.map fun o => o (h ++ [a]), ss.map fun s => s (h ++ [a]), ss.map fun s => s h) := by
  induction C with
  | nil => rfl
  | cons F C ih => simp only [List.map_map] at ih; simp [joinLoop, F.next h a hv, ih]

/-- `Join` runs the bank. -/
theorem BankFollows.join {V : List A → Prop} {ops : List (Operator α)} {xs outs ss} (C : BankFollows V ops xs outs ss)
    (hx : ∀ h, h ≠ [] → ∀ x ∈ xs, (x h).WF ∧ Tensors (x h)) :
    Follows (Join ops) V (fun h => .tup (xs.map fun x => x h)) (fun h => .tup (outs.map fun s => s h)) (fun h => .tup (ss.map fun s => s h)) := by
  obtain ⟨tys, hst⟩ := C.st_ok
  obtain ⟨otys, hot⟩ := C.out_ok
  have hst' : ∀ h, (PyVal.tup (ss.map fun s => s h)).WF ∧ HasType (PyVal.tup (ss.map fun s => s h)) (.tup tys) := fun h =>
    ⟨by rw [WF_tup]; simpa using (hst h).1, hasType_tup (hst h).2⟩
  have hw : ∀ h, h ≠ [] → (PyVal.tup (xs.map fun x => x h)).WF ∧ Tensors (PyVal.tup (xs.map fun x => x h)) := fun h hh => by
    rw [WF_tup, tensors_tup]
    exact ⟨by simpa using fun x hx' => (hx h hh x hx').1, by simpa using fun x hx' => (hx h hh x hx').2⟩
  refine ⟨fun a hv => ?_, fun h a hv => ?_, ⟨.tup otys, fun h hh => ⟨?_, hasSig_tup (hot h hh).2⟩⟩, _, hst'⟩
  · obtain ⟨w, t⟩ := hw [a] (by simp)
    rw [call_eq false w t (by simp)]
    simp only [Join, metaStreamable, joinStep, opStates, asSeq, PyVal.tup, ok_bind, C.fresh hv]
    rfl
  · obtain ⟨w, t⟩ := hw (h ++ [a]) (by simp)
    rw [call_eq false w t (by rintro _ ⟨⟩; exact ⟨(hst' h).1, tensors_iff.2 ⟨_, (hst' h).2⟩⟩)]
    simp only [Join, metaStreamable, joinStep, opStates, PyVal.tup, asSeq, ok_bind, C.next hv]
    rfl
  · rw [WF_tup]; simpa using (hot h hh).1

end TS
