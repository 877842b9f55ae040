import Verif.Lemmas.MapRegular
import Verif.Lemmas.Series
import Verif.Spec.FFill
import Verif.Lemmas.Sim
/-
FFill step by step.
-/
namespace TS
open PyVal
variable {α : Type} [TFNum α]
set_option linter.unusedSimpArgs false

omit [TFNum α] in
theorem Tensor.pick_spec {β : Type} {m n : Nat} {j : Nat → Nat} {t : Tensor β} (h : t.size0 = .ok n) (hj : ∀ i < m, j i < n) :
    ∃ t' : Tensor β, t'.size0 = .ok m ∧ ∀ i < m, t'.index i = t.index (j i) := by
  obtain ⟨s, v⟩ := t
  cases s with
  | nil => simp [Tensor.size0] at h
  | cons n' s =>
    simp only [Tensor.size0, Except.ok.injEq] at h
    subst h
    refine ⟨⟨m :: s, fun c => v (⟨j c.1, hj c.1 c.1.2⟩, c.2)⟩, rfl, fun i hi => ?_⟩
    simp [Tensor.index, hi, hj i hi]

omit [TFNum α] in
theorem Leaf.pick_spec {m n : Nat} {j : Nat → Nat} {l : Leaf α} (h : l.size0 = .ok n) (hj : ∀ i < m, j i < n) :
    ∃ l' : Leaf α, l'.size0 = .ok m ∧ ∀ i < m, l'.index i = l.index (j i) := by
  cases l with
  | gen => simp [Leaf.size0] at h
  | f t =>
    obtain ⟨t', h2, h3⟩ := Tensor.pick_spec (t := t) h hj
    exact ⟨.f t', h2, fun i hi => by simp [Leaf.index, h3 i hi]⟩
  | i t =>
    obtain ⟨t', h2, h3⟩ := Tensor.pick_spec (t := t) h hj
    exact ⟨.i t', h2, fun i hi => by simp [Leaf.index, h3 i hi]⟩
  | b t =>
    obtain ⟨t', h2, h3⟩ := Tensor.pick_spec (t := t) h hj
    exact ⟨.b t', h2, fun i hi => by simp [Leaf.index, h3 i hi]⟩

omit [TFNum α] in
/-- Some of the slices of a series, in any order, make a series. -/
theorem IsSeries.pick {v : Val α} {xs ys : List (Val α)} (h : IsSeries v xs) (hy : ∀ y ∈ ys, y ∈ xs) :
    ∃ w, IsSeries w ys ∧ w.skel = v.skel := by
  have : ∀ i, ∃ j, ∀ h : i < ys.length, ∃ h' : j < xs.length, xs[j] = ys[i] := by
    intro i
    by_cases hi : i < ys.length
    · obtain ⟨j, hj, e⟩ := List.mem_iff_getElem.1 (hy _ (List.getElem_mem hi))
      exact ⟨j, fun _ => ⟨hj, e⟩⟩
    · exact ⟨0, fun h => absurd h hi⟩
  choose j hj using this
  have hsz : ∀ l ∈ flatten v, ∃ l' : Leaf α, l'.size0 = .ok ys.length ∧ ∀ i < ys.length, l'.index i = l.index (j i) :=
    fun l hl => Leaf.pick_spec (h.size l hl) fun i hi => (hj i hi).1
  choose! f hf using hsz
  refine ⟨v.map f, ⟨?_, fun i hi => ?_⟩, by simp⟩
  · intro l hl
    rw [flatten_map] at hl
    obtain ⟨l0, h0, rfl⟩ := List.mem_map.1 hl
    exact (hf l0 h0).1
  · obtain ⟨h1, e⟩ := hj i hi
    have hs := h.slice (j i) h1
    rw [e] at hs
    rw [sliceAt_ok] at hs ⊢
    refine ⟨by simpa using hs.1, ?_⟩
    obtain ⟨h1, h2⟩ := mapM_eq_ok_iff_get.1 hs.2
    rw [flatten_map, mapM_eq_ok_iff_get]
    refine ⟨by simpa using h1, fun k hk => ?_⟩
    simp only [List.length_map] at hk
    simp only [List.getElem_map]
    rw [(hf _ (List.getElem_mem hk)).2 i hi, h2 k hk]

theorem anyValue_zero {x : Val α} (hx : x.WF) {z : Bool} (h : anyValue x Arith.zero = .ok z) : z = hasZero x := by
  simp only [anyValue, bind_eq_ok] at h
  obtain ⟨has, h1, h2⟩ := h
  rw [mapFn_fn1_self _ _ hx, traverse_eq_ok_iff, mapM_eq_ok_iff] at h1
  cases h2
  have key : flatten has = (flatten x).map fun l => match l with
      | .f t => t.elems.any fun e => TFNum.eq e Arith.zero
      | _ => false := by
    have := h1.2
    clear h1
    generalize flatten has = bs at this
    generalize flatten x = ls at this
    induction this with
    | nil => rfl
    | cons a _ ih =>
      rw [List.map_cons, ← ih]
      congr 1
      rename_i l b _ _
      simp only [tensorHasValue, bind_eq_ok, asF_ok] at a
      obtain ⟨t, rfl, e⟩ := a
      cases e
      rfl
  have fold : ∀ (l : List Bool) (a : Bool), l.foldl (fun acc x => acc || x) a = (a || l.any id) := by
    intro l
    induction l with
    | nil => simp
    | cons x l ih => intro a; rw [List.foldl_cons, ih]; cases a <;> cases x <;> simp
  rw [fold, key, hasZero, Bool.false_or, List.any_map]
  rfl

omit [TFNum α] in
theorem unpack_fix {v : Val α} (h : (unpackSingleton (unpackSingleton v)).skel = v.skel) : unpackSingleton v = v := by
  have sz : ∀ (k : Kind) (y : PyVal Unit), y ≠ .node k [y] := by
    intro k y e
    have := congrArg sizeOf e
    simp at this
    omega
  have sz2 : ∀ (k k' : Kind) (y : PyVal Unit), y ≠ .node k [.node k' [y]] := by
    intro k k' y e
    have := congrArg sizeOf e
    simp at this
    omega
  rw [unpackSingleton_skel, unpackSingleton_skel] at h
  have key : ∀ s : PyVal Unit, unpackSkel (unpackSkel s) = s → unpackSkel s = s := by
    intro s h
    unfold unpackSkel at h ⊢
    split
    · rename_i x
      exfalso
      simp only at h
      split at h
      · exact sz2 _ _ _ h
      · exact sz2 _ _ _ h
      · exact sz _ _ h
    · rename_i x
      exfalso
      simp only at h
      split at h
      · exact sz2 _ _ _ h
      · exact sz2 _ _ _ h
      · exact sz _ _ h
    · rfl
  have := key _ h
  unfold unpackSingleton
  split
  · simp [unpackSkel] at this
    exact (sz _ _ this).elim
  · simp [unpackSkel] at this
    exact (sz _ _ this).elim
  · rfl

omit [TFNum α] in
theorem tfCond_same {p : Bool} {t f r : Val α} (h : tfCond p t f = .ok r) (hr : r.skel = t.skel) (hf : f.skel = t.skel) :
    r = if p then t else f := by
  obtain ⟨_, _, rfl⟩ := tfCond_ok.1 h
  cases p
  · simp only [Bool.false_eq_true, if_false] at hr ⊢
    have := unpack_fix (hr.trans hf.symm)
    rw [this, this]
  · simp only [if_true] at hr ⊢
    have := unpack_fix hr
    rw [this, this]

omit [TFNum α] in
theorem eq_unit_of_skel {s : Val α} (h : s.skel = (PyVal.unit : PyVal Unit)) : s = PyVal.unit := by
  obtain ⟨ys, rfl, e⟩ := tup_of_skel (v := s) (xs := []) (by simpa using h)
  cases ys
  · rfl
  · simp at e

omit [TFNum α] in
theorem sameType_skel {v w : Val α} (h : SameType v w) : v.skel = w.skel := by
  have := congrArg PyVal.skel h
  simpa using this

/-- One step of FFill. -/
theorem ffill_step {op : Operator α} {x p s o' n' i' : Val α} (hx : x.WF) (hp : p.WF) (hs : s.WF)
    (h : call (FFill op) x (some (.tup [p, s])) false = .ok (o', n', i')) (hty : SameType n' (.tup [p, s]))
    (hO : ∀ o n i, call op x (some s) false = .ok (o, n, i) → o.skel = p.skel ∧ n.skel = s.skel) :
    ∃ o n i, call op x (some s) false = .ok (o, n, i) ∧
      if hasZero x then o' = p ∧ n' = .tup [p, s] else o' = o ∧ n' = .tup [o, n] := by
  have hsw : ∀ t ∈ some (PyVal.tup [p, s]), t.WF := by rintro _ ⟨⟩; simp [WF_tup, hp, hs]
  obtain ⟨z, po, ps, o, n, i, po', sel, sst, hz, hst', hcall, hpo, hsel, hss, e⟩ := ffill_ok.1 ((call_step_ok hx hsw).1 h).2.2
  cases e
  rcases hst' with ⟨h0, -, -⟩ | ⟨s', a, b, h0, ha, hb, rfl, rfl⟩
  · cases h0
  cases h0
  cases ha; cases hb
  rcases hpo with ⟨hpo, -⟩ | hpo
  · cases hpo
  cases hpo
  obtain ⟨k1, k2⟩ := hO _ _ _ hcall
  refine ⟨o, n, i, hcall, ?_⟩
  have hsk := sameType_skel hty
  simp [PyVal.tup] at hsk
  rw [← anyValue_zero hx hz]
  have e1 := tfCond_same hsel hsk.1 k1
  have e2 : sst = if z then s else n := by
    unfold ffillState at hss
    split at hss
    · cases hss
      have : s = PyVal.unit := eq_unit_of_skel (by rw [← hsk.2]; rfl)
      subst this
      have : n = PyVal.unit := eq_unit_of_skel (by rw [k2]; rfl)
      subst this
      simp
    · exact tfCond_same hss hsk.2 k2
  subst e1 e2
  cases z <;> simp

theorem FilledFrom.cons {p x o : Val α} {xs os : List (Val α)} (h0 : hasZero x = true → o = p) (h : FilledFrom o xs os) :
    FilledFrom p (x :: xs) (o :: os) := by
  intro i hi hi' hh
  match i with
  | 0 => exact h0 hh
  | 1 => exact h 0 (by simpa using hi) (by simpa using hi') hh
  | j + 2 => exact h (j + 1) (Nat.lt_of_succ_lt_succ hi) (Nat.lt_of_succ_lt_succ hi') hh

/-- A run of FFill, from any state of the right structure. -/
theorem ffill_trace {op : Operator α} (hop : op.Sane) {X S P : PyVal Unit} (hk : op.KeepsState X S)
    (hO : ∀ x s o n i, x.skel = X → s.skel = S → op.forwardStep x (some s) = .ok (o, n, i) → o.skel = P) :
    ∀ {xs : List (Val α)} {p s : Val α} {tr : List (Val α × Val α)}, (∀ x ∈ xs, x.WF ∧ x.skel = X) → p.WF → s.WF →
    p.skel = P → s.skel = S → stepAll (FFill op) xs (.tup [p, s]) = .ok tr → (∀ e ∈ tr, SameType e.2 (.tup [p, s])) →
    ∃ tro, stepAll op (zeroFree xs) s = .ok tro ∧ tro.map (·.1) = outputsAtZeroFree xs (tr.map (·.1)) ∧
      FilledFrom p xs (tr.map (·.1)) ∧
      lastState (.tup [p, s]) tr = .tup [((tr.map (·.1)).getLast?).getD p, lastState s tro] ∧
      (∀ t ∈ tro.map (·.2), ∃ e ∈ tr, ∃ q, e.2 = .tup [q, t]) := by
  intro xs
  induction xs with
  | nil =>
    intro p s tr _ _ _ _ _ h _
    simp [stepAll] at h
    subst h
    refine ⟨[], rfl, by simp [outputsAtZeroFree], ?_, rfl, by simp⟩
    intro i hi
    simp at hi
  | cons x xs ih =>
    intro p s tr hx hpw hsw hp hs h hty
    obtain ⟨o', n', i', tr', h1, h2, rfl⟩ := stepAll_cons_ok.1 h
    obtain ⟨hx0, hX⟩ := hx x (by simp)
    obtain ⟨o, n, i, hc, hz⟩ := ffill_step hx0 hpw hsw h1 (hty (o', n') (by simp)) (fun o n i hc => by
      have hc' := ((call_step_ok hx0 (by rintro _ ⟨⟩; exact hsw)).1 hc).2.2
      exact ⟨(hO x s o n i hX hs hc').trans hp.symm, (hk x s o n i hX hs hc').trans hs.symm⟩)
    have hw := hop.call hx0 (by rintro _ ⟨⟩; exact hsw) hc
    have hc' := ((call_step_ok hx0 (by rintro _ ⟨⟩; exact hsw)).1 hc).2.2
    have ho := hO x s o n i hX hs hc'
    have hn := hk x s o n i hX hs hc'
    have hty1 : SameType n' (.tup [p, s]) := hty (o', n') (by simp)
    have hty' : ∀ e ∈ tr', SameType e.2 n' := fun e he => (hty e (by simp [he])).trans hty1.symm
    by_cases hzx : hasZero x = true
    · rw [if_pos hzx] at hz
      obtain ⟨rfl, rfl⟩ := hz
      obtain ⟨tro, a1, a2, a3, a4, a5⟩ := ih (fun y hy => hx y (by simp [hy])) hpw hsw hp hs h2 hty'
      refine ⟨tro, by simpa [zeroFree, hzx] using a1, by simpa [outputsAtZeroFree, hzx] using a2, ?_, ?_, ?_⟩
      · exact a3.cons fun _ => rfl
      · rw [lastState_cons, a4]
        simp [List.getLast?_cons]
      · intro t ht
        obtain ⟨e, he, q, hq⟩ := a5 t ht
        exact ⟨e, by simp [he], q, hq⟩
    · rw [if_neg hzx] at hz
      obtain ⟨rfl, rfl⟩ := hz
      obtain ⟨tro, a1, a2, a3, a4, a5⟩ := ih (fun y hy => hx y (by simp [hy])) hw.1 hw.2.1 ho hn h2 hty'
      refine ⟨(o', n) :: tro, ?_, ?_, ?_, ?_, ?_⟩
      · have : zeroFree (x :: xs) = x :: zeroFree xs := by simp [zeroFree, hzx]
        rw [this, stepAll_cons_ok]
        exact ⟨o', n, i, tro, hc, a1, rfl⟩
      · simpa [outputsAtZeroFree, hzx] using a2
      · exact a3.cons fun hh => absurd hh hzx
      · rw [lastState_cons, lastState_cons, a4]
        simp [List.getLast?_cons]
      · intro t ht
        simp only [List.map_cons, List.mem_cons] at ht
        rcases ht with rfl | ht
        · exact ⟨(o', .tup [o', t]), by simp, o', rfl⟩
        · obtain ⟨e, he, q, hq⟩ := a5 t ht
          exact ⟨e, by simp [he], q, hq⟩

theorem zerosLike_isZeros {o p : Val α} (ho : o.WF) (h : mapFn (fn1 zerosLike) o [o] = .ok p) : IsZeros p o := by
  rw [mapFn_fn1_self _ _ ho, traverse_eq_ok_iff, mapM_eq_ok_iff] at h
  refine ⟨h.1, ?_⟩
  have := h.2
  clear h
  generalize flatten p = bs at this
  generalize flatten o = ls at this
  induction this with
  | nil => exact .nil
  | cons a _ ih =>
    refine .cons ?_ ih
    unfold zerosLike at a
    split at a <;> cases a <;> rfl

end TS
