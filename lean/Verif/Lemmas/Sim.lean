import Verif.Lemmas.Pipeline
/-
Two operators with equal outputs and related states.
-/
namespace TS
open PyVal
variable {α : Type}
set_option linter.unusedSimpArgs false

/-- Whenever `op1` makes a step, so does `op2`, with the same output and related states. -/
structure Sim (op1 op2 : Operator α) (R : Val α → Val α → Prop) : Prop where
  fresh : ∀ x o n i, x.WF → call op1 x none false = .ok (o, n, i) →
    ∃ n' i', call op2 x none false = .ok (o, n', i') ∧ R n n' ∧ R i i'
  next : ∀ x s s' o n i, x.WF → R s s' → call op1 x (some s) false = .ok (o, n, i) →
    ∃ n' i', call op2 x (some s') false = .ok (o, n', i') ∧ R n n' ∧ R i i'
  wf : ∀ s s', R s s' → s.WF → s'.WF
  tensors : ∀ s s', R s s' → Tensors s → Tensors s'
  types : ∀ s s' t t', R s s' → R t t' → SameType s t → SameType s' t'

theorem Sim.stepAll {op1 op2 : Operator α} {R : Val α → Val α → Prop} (h : Sim op1 op2 R) :
    ∀ {xs : List (Val α)} {s s' : Val α} {tr}, (∀ x ∈ xs, x.WF) → R s s' → stepAll op1 xs s = .ok tr →
    ∃ tr', TS.stepAll op2 xs s' = .ok tr' ∧ List.Forall₂ (fun e e' => e.1 = e'.1 ∧ R e.2 e'.2) tr tr' := by
  intro xs
  induction xs with
  | nil => intro s s' tr _ _ h; cases h; exact ⟨[], rfl, .nil⟩
  | cons x xs ih =>
    intro s s' tr hx hR hs
    obtain ⟨o, n, i, tr1, h1, h2, rfl⟩ := stepAll_cons_ok.1 hs
    obtain ⟨n', i', h3, h4, h5⟩ := h.next x s s' o n i (hx x (by simp)) hR h1
    obtain ⟨tr', h6, h7⟩ := ih (fun x h => hx x (by simp [h])) h4 h2
    exact ⟨(o, n') :: tr', stepAll_cons_ok.2 ⟨o, n', i', tr', h3, h6, rfl⟩, .cons ⟨rfl, h4⟩ h7⟩

theorem Sim.call {op1 op2 : Operator α} {R : Val α → Val α → Prop} (h : Sim op1 op2 R) (s1 : op1.Sane) (u1 : op1.Uniform)
    (s2 : op2.Sane) (u2 : op2.Uniform) {v : Val α} (hw : v.WF) {st st' : Option (Val α)} (hst : ∀ s ∈ st, s.WF)
    (hR : (st = none ∧ st' = none) ∨ ∃ s s', st = some s ∧ st' = some s' ∧ R s s') {z sf s0 : Val α}
    (hc : call op1 v st = .ok (z, sf, s0)) :
    ∃ sf' s0', TS.call op2 v st' = .ok (z, sf', s0') ∧ R sf sf' ∧ R s0 s0' := by
  obtain ⟨hl, x, xs, hin, o, n, i, h1, rfl, h2, h3, tr, h4, h5, h6, h7⟩ :=
    (C01_streaming_eq_stepping s1 u1 hw hst _ _ _).1 hc
  have hx := hin.mem_WF hw
  have hst' : ∀ s ∈ st', s.WF := by
    rcases hR with ⟨rfl, rfl⟩ | ⟨s, s', rfl, rfl, hR⟩
    · simp
    · rintro _ ⟨⟩; exact h.wf _ _ hR (hst _ rfl)
  obtain ⟨n', i', g1, g2⟩ : ∃ n' i', TS.call op2 x st' false = .ok (o, n', i') ∧ R (st.getD i) (st'.getD i') := by
    rcases hR with ⟨rfl, rfl⟩ | ⟨s, s', rfl, rfl, hR⟩
    · obtain ⟨n', i', a, b, c⟩ := h.fresh x o n i (hx x (by simp)) h1
      exact ⟨n', i', a, c⟩
    · obtain ⟨n', i', a, b, c⟩ := h.next x s s' o n i (hx x (by simp)) hR h1
      exact ⟨n', i', a, hR⟩
  obtain ⟨tr', g3, g4⟩ := h.stepAll hx g2 h4
  have e1 : tr'.map (·.1) = tr.map (·.1) := by
    clear h4 h5 h6 h7 g3
    induction g4 with
    | nil => rfl
    | cons h _ ih => simp [ih, h.1]
  have hne : tr ≠ [] := by rintro rfl; simp [stepAll_cons_ok] at h4
  have hlen := g4.length_eq
  obtain ⟨sf', e2, e3⟩ : ∃ sf', (tr'.map (·.2)).getLast? = some sf' ∧ R sf sf' := by
    rw [List.getLast?_eq_getElem?] at h7 ⊢
    simp only [List.length_map, List.getElem?_map, ← hlen] at h7 ⊢
    rw [Option.map_eq_some_iff] at h7
    obtain ⟨e, he, rfl⟩ := h7
    obtain ⟨hk, rfl⟩ := List.getElem?_eq_some_iff.1 he
    have hk' : tr.length - 1 < tr'.length := by omega
    exact ⟨(tr'[tr.length - 1]).2, by rw [List.getElem?_eq_getElem hk']; rfl, (List.forall₂_iff_get.1 g4).2 _ hk hk' |>.2⟩
  refine ⟨sf', st'.getD i', ?_, e3, g2⟩
  refine (C01_streaming_eq_stepping s2 u2 hw hst' _ _ _).2 ⟨hl, x, xs, hin, o, n', i', g1, rfl, h.tensors _ _ g2 h2, h3,
    tr', g3, ?_, e1 ▸ h6, e2⟩
  intro e' he'
  obtain ⟨k, hk, rfl⟩ := List.mem_iff_getElem.1 he'
  have hk' : k < tr.length := by omega
  have := (List.forall₂_iff_get.1 g4).2 k hk' hk
  have h5' := h5 _ (List.getElem_mem hk')
  simp only [List.get_eq_getElem] at this
  exact ⟨this.1 ▸ h5'.1, h.types _ _ _ _ this.2 g2 h5'.2⟩

theorem composeLoop_append {l1 l2 : List (Operator α × Option (Val α))} {x o : Val α} {ns is : List (Val α)} :
    composeLoop (l1 ++ l2) x = .ok (o, ns, is) ↔ ∃ o1 n1 i1 n2 i2, composeLoop l1 x = .ok (o1, n1, i1) ∧
      composeLoop l2 o1 = .ok (o, n2, i2) ∧ ns = n1 ++ n2 ∧ is = i1 ++ i2 := by
  induction l1 generalizing x ns is with
  | nil =>
    constructor
    · intro h; exact ⟨x, [], [], ns, is, rfl, h, rfl, rfl⟩
    · rintro ⟨o1, n1, i1, n2, i2, h1, h2, rfl, rfl⟩; cases h1; exact h2
  | cons p l1 ih =>
    obtain ⟨op, st⟩ := p
    rw [List.cons_append, composeLoop_cons_ok]
    constructor
    · rintro ⟨o1, n, i, ns', is', h1, h2, rfl, rfl⟩
      obtain ⟨o2, n1, i1, n2, i2, h3, h4, rfl, rfl⟩ := ih.1 h2
      exact ⟨o2, n :: n1, i :: i1, n2, i2, composeLoop_cons_ok.2 ⟨o1, n, i, n1, i1, h1, h3, rfl, rfl⟩, h4, rfl, rfl⟩
    · rintro ⟨o2, n1, i1, n2, i2, h1, h2, rfl, rfl⟩
      obtain ⟨o1, n, i, ns', is', h3, h4, rfl, rfl⟩ := composeLoop_cons_ok.1 h1
      exact ⟨o1, n, i, _, _, h3, ih.2 ⟨o2, ns', is', n2, i2, h4, h2, rfl, rfl⟩, rfl, rfl⟩

theorem compose_call_some_iff {ops : List (Operator α)} (hop : ∀ op ∈ ops, op.Sane) (hne : ops ≠ [])
    {ss : List (Val α)} {x : Val α} {r : Step α} (hx : x.WF) (hs : ∀ s ∈ ss, s.WF)
    (hl : ss.length = ops.length) : call (Compose ops.reverse) x (some (.tup ss)) false = .ok r ↔
      ∃ o ns is, composeLoop (ops.zip (ss.map some)) x = .ok (o, ns, is) ∧ r = (o, .tup ns, .tup is) := by
  constructor
  · intro h
    obtain ⟨sts, o, ns, is, h1, h2, h3, rfl⟩ := compose_ok.1
      ((call_step_ok hx (by rintro _ ⟨⟩; exact WF_tup.2 hs)).1 h).2.2
    rw [opStates_tup] at h1
    cases h1
    exact ⟨o, ns, is, h3, rfl⟩
  · rintro ⟨o, ns, is, h, rfl⟩
    exact compose_call_some hop hne hx hs hl h

theorem compose_call_none_iff {ops : List (Operator α)} (hne : ops ≠ []) {x : Val α} {r : Step α} (hx : x.WF) :
    call (Compose ops.reverse) x none false = .ok r ↔
      ∃ o ns is, composeLoop (ops.zip (List.replicate ops.length none)) x = .ok (o, ns, is) ∧ r = (o, .tup ns, .tup is) := by
  constructor
  · intro h
    obtain ⟨sts, o, ns, is, h1, h2, h3, rfl⟩ := compose_ok.1 ((call_step_ok hx (by simp)).1 h).2.2
    rw [opStates_none] at h1
    cases h1
    exact ⟨o, ns, is, h3, rfl⟩
  · rintro ⟨o, ns, is, h, rfl⟩
    exact compose_call_none hne hx h

theorem map_eq_append_of_length {A B : Type} {f : A → B} {l1 l1' l2 l2' : List A} (hl : l1.length = l1'.length)
    (h : (l1 ++ l2).map f = (l1' ++ l2').map f) : l1.map f = l1'.map f ∧ l2.map f = l2'.map f := by
  rw [List.map_append, List.map_append] at h
  exact List.append_inj h (by simp [hl])

theorem sameType_tup_iff {as bs : List (Val α)} :
    SameType (.tup as) (.tup bs) ↔ as.map (PyVal.map Leaf.dtype) = bs.map (PyVal.map Leaf.dtype) := by
  simp [SameType, map_node, PyVal.tup]

theorem NestState.types {lc lb la : Nat} {s s' t t' : Val α} (h : NestState lc lb la s s') (h' : NestState lc lb la t t') :
    SameType s t ↔ SameType s' t' := by
  obtain ⟨sc, sb, sa, h1, h2, h3, -, rfl, rfl⟩ := h
  obtain ⟨tc, tb, ta, g1, g2, g3, -, rfl, rfl⟩ := h'
  rw [sameType_tup_iff, sameType_tup_iff]
  constructor
  · intro e
    obtain ⟨e1, e2⟩ := map_eq_append_of_length (h1.trans g1.symm) e
    simp only [List.map_cons, List.cons.injEq] at e2
    have e3 := sameType_tup_iff.1 e2.1
    simp [e1, e2.2, e3]
  · intro e
    rw [List.append_assoc, List.append_assoc] at e
    obtain ⟨e1, e2⟩ := map_eq_append_of_length (h1.trans g1.symm) e
    obtain ⟨e3, e4⟩ := map_eq_append_of_length (h2.trans g2.symm) e2
    have e5 := sameType_tup_iff.2 e3
    rw [SameType] at e5
    simp [e1, e4, e5]

theorem NestState.wf {lc lb la : Nat} {s s' : Val α} (h : NestState lc lb la s s') : s.WF ∧ s'.WF := by
  obtain ⟨sc, sb, sa, -, -, -, hw, rfl, rfl⟩ := h
  refine ⟨WF_tup.2 ?_, WF_tup.2 hw⟩
  intro t ht
  simp only [List.mem_append, List.mem_cons] at ht hw
  rcases ht with h | rfl | h
  · exact hw t (.inl (.inl h))
  · exact WF_tup.2 fun u hu => hw u (.inl (.inr hu))
  · exact hw t (.inr h)

theorem NestState.tensors {lc lb la : Nat} {s s' : Val α} (h : NestState lc lb la s s') : Tensors s ↔ Tensors s' := by
  obtain ⟨sc, sb, sa, -, -, -, hw, rfl, rfl⟩ := h
  simp only [tensors_tup, List.mem_append, List.mem_cons]
  constructor
  · rintro h t ((ht | ht) | ht)
    · exact h t (.inl ht)
    · exact tensors_tup.1 (h _ (.inr (.inl rfl))) t ht
    · exact h t (.inr (.inr ht))
  · rintro h t (ht | rfl | ht)
    · exact h t (.inl (.inl ht))
    · exact tensors_tup.2 fun t ht => h t (.inl (.inr ht))
    · exact h t (.inr ht)

/-- The loop over operators with a nested `Compose` (all in execution order) and without. -/
theorem composeLoop_nest {cs bs as : List (Operator α)} (hb : bs ≠ []) (hop : ∀ op ∈ cs ++ bs ++ as, op.Sane)
    {stc stb sta : List (Option (Val α))} {stn : Option (Val α)} (hlc : stc.length = cs.length) (hlb : stb.length = bs.length)
    (hla : sta.length = as.length)
    (hst : (stn = none ∧ stb = List.replicate bs.length none) ∨ ∃ sb, stn = some (.tup sb) ∧ stb = sb.map some)
    (hw : ∀ st ∈ stc ++ stb ++ sta, ∀ s ∈ st, s.WF) {x o : Val α} (hx : x.WF) :
    (∀ {ns is : List (Val α)}, composeLoop ((cs ++ Compose bs.reverse :: as).zip (stc ++ stn :: sta)) x = .ok (o, ns, is) →
      ∃ ns' is', composeLoop ((cs ++ bs ++ as).zip (stc ++ stb ++ sta)) x = .ok (o, ns', is') ∧
        NestState cs.length bs.length as.length (.tup ns) (.tup ns') ∧ NestState cs.length bs.length as.length (.tup is) (.tup is')) ∧
    (∀ {ns' is' : List (Val α)}, composeLoop ((cs ++ bs ++ as).zip (stc ++ stb ++ sta)) x = .ok (o, ns', is') →
      ∃ ns is, composeLoop ((cs ++ Compose bs.reverse :: as).zip (stc ++ stn :: sta)) x = .ok (o, ns, is) ∧
        NestState cs.length bs.length as.length (.tup ns) (.tup ns') ∧ NestState cs.length bs.length as.length (.tup is) (.tup is')) := by
  rw [List.zip_append hlc.symm, List.zip_append (by simp [hlc, hlb]), List.zip_append hlc.symm, List.zip_cons_cons]
  have hopc : ∀ op ∈ cs, op.Sane := fun op h => hop op (by simp [h])
  have hopb : ∀ op ∈ bs, op.Sane := fun op h => hop op (by simp [h])
  have hopa : ∀ op ∈ as, op.Sane := fun op h => hop op (by simp [h])
  have hwc : ∀ p ∈ cs.zip stc, ∀ s ∈ p.2, s.WF := fun p hp => hw p.2 (by simp [(List.of_mem_zip hp).2])
  have hwb : ∀ p ∈ bs.zip stb, ∀ s ∈ p.2, s.WF := fun p hp => hw p.2 (by simp [(List.of_mem_zip hp).2])
  have hwa : ∀ p ∈ as.zip sta, ∀ s ∈ p.2, s.WF := fun p hp => hw p.2 (by simp [(List.of_mem_zip hp).2])
  have sanec := fun {x o ns is} => composeLoop_sane (l := cs.zip stc) (x := x) (o := o) (ns := ns) (is := is)
    (fun p hp => hopc p.1 (List.of_mem_zip hp).1) hwc
  have saneb := fun {x o ns is} => composeLoop_sane (l := bs.zip stb) (x := x) (o := o) (ns := ns) (is := is)
    (fun p hp => hopb p.1 (List.of_mem_zip hp).1) hwb
  have sanea := fun {x o ns is} => composeLoop_sane (l := as.zip sta) (x := x) (o := o) (ns := ns) (is := is)
    (fun p hp => hopa p.1 (List.of_mem_zip hp).1) hwa
  have key : ∀ {y : Val α} {r}, y.WF → (call (Compose bs.reverse) y stn false = .ok r ↔
      ∃ o ns is, composeLoop (bs.zip stb) y = .ok (o, ns, is) ∧ r = (o, .tup ns, .tup is)) := by
    intro y r hy
    rcases hst with ⟨rfl, rfl⟩ | ⟨sb, rfl, rfl⟩
    · exact compose_call_none_iff hb hy
    · refine compose_call_some_iff hopb hb hy (fun s hs => ?_) (by simpa using hlb)
      exact hw (some s) (by simp [hs]) s rfl
  have mk : ∀ {y : Val α} {o1 o2 : Val α} {nc ic nb ib na ia : List (Val α)}, composeLoop (cs.zip stc) x = .ok (y, nc, ic) →
      composeLoop (bs.zip stb) y = .ok (o1, nb, ib) → composeLoop (as.zip sta) o1 = .ok (o2, na, ia) →
      NestState cs.length bs.length as.length (.tup (nc ++ .tup nb :: na)) (.tup (nc ++ nb ++ na)) ∧
      NestState cs.length bs.length as.length (.tup (ic ++ .tup ib :: ia)) (.tup (ic ++ ib ++ ia)) := by
    intro y o1 o2 nc ic nb ib na ia h1 h2 h3
    have w1 := sanec hx h1
    have w2 := saneb w1.1 h2
    have w3 := sanea w2.1 h3
    have l1 := composeLoop_length h1
    have l2 := composeLoop_length h2
    have l3 := composeLoop_length h3
    simp only [List.length_zip, hlc, hlb, hla, Nat.min_self] at l1 l2 l3
    refine ⟨⟨nc, nb, na, l1.1, l2.1, l3.1, ?_, rfl, rfl⟩, ⟨ic, ib, ia, l1.2, l2.2, l3.2, ?_, rfl, rfl⟩⟩
    · intro t ht
      simp only [List.mem_append] at ht
      rcases ht with (h | h) | h
      exacts [w1.2.1 t h, w2.2.1 t h, w3.2.1 t h]
    · intro t ht
      simp only [List.mem_append] at ht
      rcases ht with (h | h) | h
      exacts [w1.2.2 t h, w2.2.2 t h, w3.2.2 t h]
  constructor
  · intro ns is h
    obtain ⟨y, nc, ic, n2, i2, h1, h2, rfl, rfl⟩ := composeLoop_append.1 h
    obtain ⟨o1, n, i, na, ia, h3, h4, rfl, rfl⟩ := composeLoop_cons_ok.1 h2
    obtain ⟨o1', nb, ib, h5, h6⟩ := (key (sanec hx h1).1).1 h3
    cases h6
    refine ⟨_, _, composeLoop_append.2 ⟨o1, nc ++ nb, ic ++ ib, na, ia, composeLoop_append.2
      ⟨y, nc, ic, nb, ib, h1, h5, rfl, rfl⟩, h4, rfl, rfl⟩, mk h1 h5 h4⟩
  · intro ns' is' h
    obtain ⟨o1, n2, i2, na, ia, h2, h4, rfl, rfl⟩ := composeLoop_append.1 h
    obtain ⟨y, nc, ic, nb, ib, h1, h3, rfl, rfl⟩ := composeLoop_append.1 h2
    refine ⟨_, _, composeLoop_append.2 ⟨y, nc, ic, _, _, h1, composeLoop_cons_ok.2 ⟨o1, _, _, na, ia,
      (key (sanec hx h1).1).2 ⟨o1, nb, ib, h3, rfl⟩, h4, rfl, rfl⟩, rfl, rfl⟩, mk h1 h3 h4⟩

end TS
