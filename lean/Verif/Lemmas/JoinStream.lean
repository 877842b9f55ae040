import Verif.Lemmas.Pipeline
/-
Streaming `Join` in terms of streaming each of its operators.
-/
namespace TS
open PyVal
variable {α : Type}
set_option linter.unusedSimpArgs false

/-- Stepping a bank of operators over rows of inputs. -/
def joinAll (ops : List (Operator α)) : List (List (Val α)) → List (Val α) → Res (List (List (Val α) × List (Val α)))
  | [], _ => .ok []
  | xs :: xss, ss => do
    let (os, ns, _) ← joinLoop (ops.zip (xs.zip (ss.map some)))
    let tr ← joinAll ops xss ns
    .ok ((os, ns) :: tr)

theorem joinAll_cons_ok {ops : List (Operator α)} {xs : List (Val α)} {xss : List (List (Val α))} {ss : List (Val α)} {tr} :
    joinAll ops (xs :: xss) ss = .ok tr ↔ ∃ os ns is tr', joinLoop (ops.zip (xs.zip (ss.map some))) = .ok (os, ns, is) ∧
      joinAll ops xss ns = .ok tr' ∧ tr = (os, ns) :: tr' := by
  simp only [joinAll, bind_eq_ok, Except.ok.injEq]
  constructor
  · rintro ⟨⟨o, n, i⟩, h1, tr', h2, rfl⟩; exact ⟨o, n, i, tr', h1, h2, rfl⟩
  · rintro ⟨o, n, i, tr', h1, h2, rfl⟩; exact ⟨(o, n, i), h1, tr', h2, rfl⟩

theorem joinAll_length {ops : List (Operator α)} {xss : List (List (Val α))} {ss : List (Val α)} {tr}
    (h : joinAll ops xss ss = .ok tr) : tr.length = xss.length := by
  induction xss generalizing ss tr with
  | nil => cases h; rfl
  | cons x xs ih =>
    obtain ⟨o, ns, is, tr', h1, h2, rfl⟩ := joinAll_cons_ok.1 h
    simp [ih h2]

theorem joinAll_nil_ops (n : Nat) : joinAll ([] : List (Operator α)) (List.replicate n []) [] = .ok (List.replicate n ([], [])) := by
  induction n with
  | zero => rfl
  | succ n ih =>
    rw [List.replicate_succ, List.replicate_succ]
    exact joinAll_cons_ok.2 ⟨[], [], [], _, rfl, ih, rfl⟩

theorem joinAll_cons {op : Operator α} {ops : List (Operator α)} : ∀ {hs : List (Val α)} {ts : List (List (Val α))}
    {ss : List (Val α)} {s : Val α} {tr}, hs.length = ts.length →
    (joinAll (op :: ops) (List.zipWith (· :: ·) hs ts) (s :: ss) = .ok tr ↔ ∃ tr1 tr2, stepAll op hs s = .ok tr1 ∧
      joinAll ops ts ss = .ok tr2 ∧ tr = List.zipWith (fun e1 e2 => (e1.1 :: e2.1, e1.2 :: e2.2)) tr1 tr2) := by
  intro hs
  induction hs with
  | nil =>
    intro ts ss s tr hl
    have : ts = [] := List.length_eq_zero_iff.1 hl.symm
    subst this
    simp [joinAll, stepAll, eq_comm]
  | cons x xs ih =>
    intro ts ss s tr hl
    cases ts with
    | nil => simp at hl
    | cons t ts =>
      simp only [List.length_cons, Nat.add_right_cancel_iff] at hl
      rw [List.zipWith_cons_cons, joinAll_cons_ok, List.map_cons, List.zip_cons_cons, List.zip_cons_cons]
      constructor
      · rintro ⟨os, ns, is, tr', h1, h2, rfl⟩
        obtain ⟨o, n, i, os', ns', is', h3, h4, rfl, rfl, rfl⟩ := joinLoop_cons_ok.1 h1
        obtain ⟨tr1, tr2, h5, h6, rfl⟩ := (ih hl).1 h2
        exact ⟨_, _, stepAll_cons_ok.2 ⟨o, n, i, tr1, h3, h5, rfl⟩, joinAll_cons_ok.2 ⟨os', ns', is', tr2, h4, h6, rfl⟩, rfl⟩
      · rintro ⟨tr1, tr2, h1, h2, rfl⟩
        obtain ⟨o, n, i, tr1', h3, h4, rfl⟩ := stepAll_cons_ok.1 h1
        obtain ⟨os, ns, is, tr2', h5, h6, rfl⟩ := joinAll_cons_ok.1 h2
        exact ⟨o :: os, n :: ns, i :: is, _, joinLoop_cons_ok.2 ⟨o, n, i, os, ns, is, h3, h5, rfl, rfl, rfl⟩,
          (ih hl).2 ⟨_, _, h4, h6, rfl⟩, rfl⟩

theorem sliceAt_tup {i : Nat} {vs : List (Val α)} {w : Val α} :
    sliceAt i (.tup vs) = .ok w ↔ ∃ xs, vs.mapM (sliceAt i) = .ok xs ∧ w = .tup xs := by
  rw [sliceAt, PyVal.tup, traverse_node, bind_eq_ok]
  simp only [Except.ok.injEq, eq_comm]
  exact Iff.rfl

theorem sliceAt_tup_cons {i : Nat} {v : Val α} {vs : List (Val α)} {w : Val α} :
    sliceAt i (.tup (v :: vs)) = .ok w ↔ ∃ x xs, sliceAt i v = .ok x ∧ sliceAt i (.tup vs) = .ok (.tup xs) ∧ w = .tup (x :: xs) := by
  rw [sliceAt_tup]
  simp only [List.mapM_cons, bind_eq_ok, sliceAt_tup]
  constructor
  · rintro ⟨l, ⟨x, h1, xs, h2, h3⟩, rfl⟩
    cases h3
    exact ⟨x, xs, h1, ⟨xs, h2, rfl⟩, rfl⟩
  · rintro ⟨x, xs, h1, ⟨l, h2, e⟩, rfl⟩
    cases e
    exact ⟨_, ⟨x, h1, xs, h2, rfl⟩, rfl⟩

theorem flatten_tup_cons (v : Val α) (vs : List (Val α)) : flatten (.tup (v :: vs)) = flatten v ++ flatten (.tup vs) := by
  simp [PyVal.tup, flatten_node]

/-- A series of rows is a series in the first component and a series of rows in the others. -/
theorem isSeries_tup_cons {v : Val α} {vs hs : List (Val α)} {ts : List (List (Val α))} (hl : hs.length = ts.length) :
    IsSeries (.tup (v :: vs)) ((List.zipWith (· :: ·) hs ts).map .tup) ↔ IsSeries v hs ∧ IsSeries (.tup vs) (ts.map .tup) := by
  constructor
  · rintro ⟨h1, h2⟩
    simp only [flatten_tup_cons, List.length_map, List.length_zipWith, hl, Nat.min_self, List.mem_append] at h1 h2
    refine ⟨⟨fun l h => hl ▸ h1 l (.inl h), fun i hi => ?_⟩, ⟨fun l h => by simpa using h1 l (.inr h), fun i hi => ?_⟩⟩
    · obtain ⟨x, xs, h3, h4, h5⟩ := sliceAt_tup_cons.1 (h2 i (hl ▸ hi))
      simp only [List.getElem_map, List.getElem_zipWith, PyVal.tup, PyVal.node.injEq, List.cons.injEq, true_and] at h5
      rw [h3, h5.1]
    · have hi' : i < ts.length := by simpa using hi
      obtain ⟨x, xs, h3, h4, h5⟩ := sliceAt_tup_cons.1 (h2 i hi')
      simp only [List.getElem_map, List.getElem_zipWith, PyVal.tup, PyVal.node.injEq, List.cons.injEq, true_and] at h5
      rw [h4, ← h5.2]; simp
  · rintro ⟨⟨h1, h2⟩, ⟨h3, h4⟩⟩
    simp only [List.length_map] at h3 h4
    refine ⟨?_, ?_⟩
    · intro l h
      simp only [flatten_tup_cons, List.length_map, List.length_zipWith, hl, Nat.min_self, List.mem_append] at h ⊢
      rcases h with h | h
      · exact hl ▸ h1 l h
      · exact h3 l h
    · intro i hi
      simp only [List.length_map, List.length_zipWith, hl, Nat.min_self] at hi
      refine sliceAt_tup_cons.2 ⟨_, ts[i], h2 i (by omega), ?_, ?_⟩
      · rw [h4 i (by omega)]; simp
      · simp

/-- Every list of rows of the same positive width splits into first components and the others. -/
theorem split_rows {xss : List (List (Val α))} {k : Nat} (h : ∀ r ∈ xss, r.length = k + 1) :
    ∃ hs ts, hs.length = ts.length ∧ xss = List.zipWith (· :: ·) hs ts ∧ (∀ r ∈ ts, r.length = k) := by
  induction xss with
  | nil => exact ⟨[], [], rfl, rfl, by simp⟩
  | cons r xss ih =>
    obtain ⟨hs, ts, h1, rfl, h3⟩ := ih fun r hr => h r (by simp [hr])
    have := h r (by simp)
    cases r with
    | nil => simp at this
    | cons x r =>
      refine ⟨x :: hs, r :: ts, by simp [h1], rfl, ?_⟩
      intro r' hr'
      rcases List.mem_cons.1 hr' with rfl | hr'
      · simpa using this
      · exact h3 r' hr'

/-- What streaming operator `op` over the slices `xs` from `st` gives, as in `C01`. -/
def StreamOf (op : Operator α) (xs : List (Val α)) (st : Option (Val α)) (z sf s0 : Val α) : Prop :=
  ∃ x xs', xs = x :: xs' ∧ ∃ o n i, call op x st false = .ok (o, n, i) ∧ s0 = st.getD i ∧ Tensors s0 ∧ Tensors o ∧
    ∃ tr, stepAll op xs s0 = .ok tr ∧ (∀ e ∈ tr, SameType e.1 o ∧ SameType e.2 s0) ∧
      IsSeries z (tr.map (·.1)) ∧ (tr.map (·.2)).getLast? = some sf

theorem call_iff_streamOf {op : Operator α} (hsane : op.Sane) (hu : op.Uniform) {v : Val α} (hw : v.WF)
    (hl : flatten v ≠ []) {xs : List (Val α)} (hin : IsSeries v xs) {st : Option (Val α)} (hst : ∀ s ∈ st, s.WF)
    (z sf s0 : Val α) : call op v st = .ok (z, sf, s0) ↔ StreamOf op xs st z sf s0 := by
  rw [C01_streaming_eq_stepping hsane hu hw hst]
  constructor
  · rintro ⟨-, x, xs', hin', o, n, i, h⟩
    have := hin.det hl hin'
    subst this
    exact ⟨x, xs', rfl, o, n, i, h⟩
  · rintro ⟨x, xs', rfl, o, n, i, h⟩
    exact ⟨hl, x, xs', hin, o, n, i, h⟩

/-- The same for the bank of operators, over rows. -/
def JoinRun (ops : List (Operator α)) (xss : List (List (Val α))) (sts : List (Option (Val α)))
    (zs sfs s0s : List (Val α)) : Prop :=
  ∃ x xss', xss = x :: xss' ∧ ∃ os ns is, joinLoop (ops.zip (x.zip sts)) = .ok (os, ns, is) ∧
    s0s = List.zipWith Option.getD sts is ∧ Tensors (.tup s0s) ∧ Tensors (.tup os) ∧
    ∃ tr, joinAll ops xss s0s = .ok tr ∧ (∀ e ∈ tr, SameType (.tup e.1) (.tup os) ∧ SameType (.tup e.2) (.tup s0s)) ∧
      IsSeries (.tup zs) (tr.map fun e => .tup e.1) ∧ (tr.map (·.2)).getLast? = some sfs

theorem sameType_cons {a b : Val α} {as bs : List (Val α)} :
    SameType (.tup (a :: as)) (.tup (b :: bs)) ↔ SameType a b ∧ SameType (.tup as) (.tup bs) := by
  simp [SameType, map_node, PyVal.tup]

theorem tensors_cons {a : Val α} {as : List (Val α)} : Tensors (.tup (a :: as)) ↔ Tensors a ∧ Tensors (.tup as) := by
  simp [tensors_tup]

theorem getLast?_zipWith_map {A B C D : Type} {f : A → B → C} {g : C → D} {a : List A} {b : List B} (hl : a.length = b.length)
    (d : D) : ((List.zipWith f a b).map g).getLast? = some d ↔
      ∃ x y, a.getLast? = some x ∧ b.getLast? = some y ∧ d = g (f x y) := by
  rw [List.getLast?_map, List.getLast?_eq_getElem?, List.getLast?_eq_getElem?, List.getLast?_eq_getElem?,
    List.length_zipWith, hl, Nat.min_self, List.getElem?_zipWith]
  cases a[b.length - 1]? <;> cases b[b.length - 1]? <;> simp [eq_comm]

theorem joinRun_cons {op : Operator α} {ops : List (Operator α)} {hs : List (Val α)} {ts : List (List (Val α))}
    (hl : hs.length = ts.length) {st : Option (Val α)} {sts : List (Option (Val α))} {z sf s0 : Val α} {zs sfs s0s : List (Val α)} :
    JoinRun (op :: ops) (List.zipWith (· :: ·) hs ts) (st :: sts) (z :: zs) (sf :: sfs) (s0 :: s0s) ↔
      StreamOf op hs st z sf s0 ∧ JoinRun ops ts sts zs sfs s0s := by
  constructor
  · rintro ⟨x, xss', e, os, ns, is, h1, h2, h3, h4, tr, h5, h6, h7, h8⟩
    obtain ⟨tr1, tr2, g1, g2, rfl⟩ := (joinAll_cons hl).1 h5
    have l1 := stepAll_length g1
    have l2 := joinAll_length g2
    cases hs with
    | nil => simp at e
    | cons y hs =>
      cases ts with
      | nil => simp at e
      | cons t ts =>
        simp only [List.zipWith_cons_cons, List.cons.injEq] at e
        obtain ⟨rfl, rfl⟩ := e
        rw [List.zip_cons_cons, List.zip_cons_cons] at h1
        obtain ⟨o, n, i, os', ns', is', a1, a2, rfl, rfl, rfl⟩ := joinLoop_cons_ok.1 h1
        simp only [List.zipWith_cons_cons, List.cons.injEq] at h2
        rw [tensors_cons] at h3 h4
        have hlen : tr1.length = tr2.length := by omega
        have h6' : ∀ k (k1 : k < tr1.length) (k2 : k < tr2.length),
            (SameType tr1[k].1 o ∧ SameType (.tup tr2[k].1) (.tup os')) ∧ (SameType tr1[k].2 s0 ∧ SameType (.tup tr2[k].2) (.tup s0s)) := by
          intro k k1 k2
          have hk : k < (List.zipWith (fun e1 e2 => (e1.1 :: e2.1, e1.2 :: e2.2)) tr1 tr2).length := by
            rw [List.length_zipWith]; omega
          have := h6 _ (List.getElem_mem hk)
          rw [List.getElem_zipWith, sameType_cons, sameType_cons] at this
          exact this
        have e1 : (List.zipWith (fun (e1 : Val α × Val α) (e2 : List (Val α) × List (Val α)) => (e1.1 :: e2.1, e1.2 :: e2.2)) tr1 tr2).map
            (fun e => PyVal.tup e.1) = (List.zipWith (· :: ·) (tr1.map (·.1)) (tr2.map (·.1))).map .tup := by
          refine List.ext_getElem (by simp) fun k a b => by simp
        rw [e1, isSeries_tup_cons (by simpa using hlen)] at h7
        rw [getLast?_zipWith_map hlen] at h8
        obtain ⟨x1, x2, b1, b2, b3⟩ := h8
        simp only [List.cons.injEq] at b3
        refine ⟨⟨y, hs, rfl, o, n, i, a1, h2.1, h3.1, h4.1, tr1, g1, ?_, h7.1, ?_⟩,
          ⟨t, ts, rfl, os', ns', is', a2, h2.2, h3.2, h4.2, tr2, g2, ?_, by simpa [List.map_map, Function.comp_def] using h7.2, ?_⟩⟩
        · intro e he
          obtain ⟨k, hk, rfl⟩ := List.mem_iff_getElem.1 he
          exact ⟨(h6' k hk (by omega)).1.1, (h6' k hk (by omega)).2.1⟩
        · rw [List.getLast?_map, b1, b3.1]; rfl
        · intro e he
          obtain ⟨k, hk, rfl⟩ := List.mem_iff_getElem.1 he
          exact ⟨(h6' k (by omega) hk).1.2, (h6' k (by omega) hk).2.2⟩
        · rw [List.getLast?_map, b2, b3.2]; rfl
  · rintro ⟨⟨y, hs', rfl, o, n, i, a1, a2, a3, a4, tr1, g1, a5, a6, a7⟩, ⟨t, ts', rfl, os', ns', is', b1, b2, b3, b4, tr2, g2, b5, b6, b7⟩⟩
    have l1 := stepAll_length g1
    have l2 := joinAll_length g2
    have hlen : tr1.length = tr2.length := by omega
    have e1 : (List.zipWith (fun (e1 : Val α × Val α) (e2 : List (Val α) × List (Val α)) => (e1.1 :: e2.1, e1.2 :: e2.2)) tr1 tr2).map
        (fun e => PyVal.tup e.1) = (List.zipWith (· :: ·) (tr1.map (·.1)) (tr2.map (·.1))).map .tup := by
      refine List.ext_getElem (by simp) fun k a b => by simp
    refine ⟨_, _, rfl, o :: os', n :: ns', i :: is', ?_, by simp [a2, b2], tensors_cons.2 ⟨a3, b3⟩, tensors_cons.2 ⟨a4, b4⟩, _,
      (joinAll_cons hl).2 ⟨tr1, tr2, g1, g2, rfl⟩, ?_, ?_, ?_⟩
    · rw [List.zip_cons_cons, List.zip_cons_cons]
      exact joinLoop_cons_ok.2 ⟨o, n, i, os', ns', is', a1, b1, rfl, rfl, rfl⟩
    · intro e he
      obtain ⟨k, hk, rfl⟩ := List.mem_iff_getElem.1 he
      have hk' : k < tr1.length ∧ k < tr2.length := by rw [List.length_zipWith] at hk; omega
      rw [List.getElem_zipWith, sameType_cons, sameType_cons]
      have c1 := a5 _ (List.getElem_mem hk'.1)
      have c2 := b5 _ (List.getElem_mem hk'.2)
      exact ⟨⟨c1.1, c2.1⟩, ⟨c1.2, c2.2⟩⟩
    · rw [e1, isSeries_tup_cons (by simpa using hlen)]
      exact ⟨a6, by simpa [List.map_map, Function.comp_def] using b6⟩
    · rw [getLast?_zipWith_map hlen]
      rw [List.getLast?_map, Option.map_eq_some_iff] at a7 b7
      obtain ⟨x1, c1, rfl⟩ := a7
      obtain ⟨x2, c2, rfl⟩ := b7
      exact ⟨x1, x2, c1, c2, rfl⟩

theorem joinRun_nil {n : Nat} {zs sfs s0s : List (Val α)} :
    JoinRun ([] : List (Operator α)) (List.replicate (n + 1) []) [] zs sfs s0s ↔ zs = [] ∧ sfs = [] ∧ s0s = [] := by
  have slice : ∀ i, sliceAt i (.tup [] : Val α) = .ok (.tup []) := fun i => rfl
  constructor
  · rintro ⟨x, xss', e, os, ns, is, h1, rfl, h3, h4, tr, h5, h6, h7, h8⟩
    cases h1
    simp only [List.zipWith_nil_left] at h5
    rw [joinAll_nil_ops] at h5
    cases h5
    refine ⟨?_, ?_, by simp⟩
    · have := sliceAt_skel (h7.slice 0 (by simp))
      simp at this
      cases zs with
      | nil => rfl
      | cons z zs => simp [PyVal.tup] at this
    · rw [List.replicate_succ', List.map_append] at h8
      simpa [eq_comm] using h8
  · rintro ⟨rfl, rfl, rfl⟩
    refine ⟨[], List.replicate n [], rfl, [], [], [], rfl, rfl, by simp [Tensors, PyVal.tup, flatten_node], by simp [Tensors, PyVal.tup, flatten_node], _, joinAll_nil_ops _, ?_, ⟨?_, ?_⟩, ?_⟩
    · intro e he
      rw [List.eq_of_mem_replicate he]
      exact ⟨rfl, rfl⟩
    · simp [PyVal.tup, flatten_node]
    · intro i hi
      simp [slice]
    · rw [List.replicate_succ', List.map_append]; simp

end TS
