import Verif.Props.Progress
import Verif.Props.Compose
import Verif.Props.Join
import Verif.Props.Chunks
import Verif.Lemmas.MapStream
import Verif.Props.Averages
import Verif.Props.Stateless
import Verif.Props.Map
/-
C72: Map distributes over pipelines and banks.
-/
namespace TS
open PyVal
variable {α : Type} [TFNum α]

theorem Resumed.chunks {op : Operator α} {st : Option (Val α)} {vs zs : List (Val α)} {sf s0 : Val α} (h : Resumed op st vs zs sf s0) :
    streamChunks op st vs = .ok zs := by
  induction h with
  | last h => simp [streamChunks, h, bind, Except.bind]
  | cons h _ ih => simp [streamChunks, h, ih, bind, Except.bind]

theorem flatten_ne_of_sig {v : Val α} {X} (h : HasSig v X) (hX : flatten X ≠ []) : flatten v ≠ [] := by
  intro e
  have := congrArg List.length (HasSig_iff.1 h).2
  simp [e] at this
  exact hX (List.length_eq_zero_iff.1 this.symm)

/-- A series of samples has the samples' structure. -/
theorem seriesOf_of {X : PyVal (DType × List Nat)} {v : Val α} {xs : List (Val α)} (h : IsSeries v xs) (hne : xs ≠ []) (hX : ∀ x ∈ xs, x.WF ∧ HasSig x X)
    (hl : flatten X ≠ []) : SeriesOf X v xs.length := by
  have h0 := h.slice 0 (List.length_pos_iff.2 hne)
  obtain ⟨hw, hs⟩ := hX _ (List.getElem_mem (List.length_pos_iff.2 hne))
  refine ⟨(sliceAt_WF h0).1 hw, fun e => flatten_ne_of_sig hs hl ?_, xs, h, hne, rfl, fun x hx => (hX x hx).2⟩
  exact List.length_eq_zero_iff.1 (by rw [length_flatten_of_skel_eq (sliceAt_skel h0), e]; rfl)

/-- Well-typed operators turn series into series. -/
theorem typed_series {op : Operator α} {X O S} (h : Typed op X O S) (hl : flatten O ≠ []) {v : Val α} {n : Nat} (hv : SeriesOf X v n) :
    ∃ z sf s0, call op v none = .ok (z, sf, s0) ∧ SeriesOf O z n := by
  obtain ⟨I, hI, hf, hn⟩ := h.steady
  obtain ⟨hw, hl', xs, hin, hx, rfl, hX⟩ := hv
  obtain ⟨z, sf, s0, os, h1, h2, h3, h4, -⟩ := steady_call hI hf hn hw hl' hin hx hX none (by simp)
  refine ⟨z, sf, s0, h1, h3 ▸ seriesOf_of h2 ?_ h4 hl⟩
  rintro rfl
  exact hx (List.length_eq_zero_iff.1 h3.symm)

/-- Operators with the same outputs on every series have the same outputs on every sequence of series. -/
theorem chunks_same {op op' : Operator α} {X O S S'} (h : Typed op X O S) (h' : Typed op' X O S') (hl : flatten O ≠ [])
    (he : ∀ {v : Val α} {n : Nat}, SeriesOf X v n → output (call op v none) = output (call op' v none)) {vs : List (Val α)} {ns : List Nat}
    (hv : List.Forall₂ (SeriesOf X) vs ns) : ∃ zs, streamChunks op none vs = .ok zs ∧ streamChunks op' none vs = .ok zs := by
  by_cases hvs : vs = []
  · subst hvs; exact ⟨[], rfl, rfl⟩
  obtain ⟨as, ha⟩ : ∃ as, List.Forall₂ (fun v a => (a ≠ [] ∧ IsSeries v a) ∧ (∀ x ∈ a, x.WF ∧ HasSig x X) ∧ flatten v ≠ []) vs as := by
    clear hvs
    induction hv with
    | nil => exact ⟨[], .nil⟩
    | cons h _ ih =>
      obtain ⟨as, ih⟩ := ih
      obtain ⟨hw, hl, xs, a, b, -, c⟩ := h
      exact ⟨xs :: as, .cons ⟨⟨b, a⟩, fun x hx => ⟨a.mem_WF hw x hx, c x hx⟩, hl⟩ ih⟩
  have ha' : List.Forall₂ (fun v a => a ≠ [] ∧ IsSeries v a) vs as := ha.imp fun _ _ h => h.1
  have hx : ∀ x ∈ as.flatten, x.WF ∧ HasSig x X := by
    intro x hx
    obtain ⟨a, hxa, hx⟩ := List.mem_flatten.1 hx
    obtain ⟨i, hi, rfl⟩ := List.mem_iff_getElem.1 hxa
    exact ((List.forall₂_iff_get.1 ha).2 i (by rw [ha.length_eq]; exact hi) hi).2.1 x hx
  have hne : as.flatten ≠ [] := by
    cases ha with
    | nil => exact absurd rfl hvs
    | cons h _ => simp [h.1.1]
  obtain ⟨v, hv1, hsk⟩ := exists_series (ty := X) fun x h => (hx x h).2
  have hlX : flatten X ≠ [] := by
    cases ha with
    | nil => exact absurd rfl hvs
    | @cons v a _ _ h _ =>
      obtain ⟨⟨h1, h2⟩, h3, h4⟩ := h
      have h0 := h2.slice 0 (List.length_pos_iff.2 h1)
      intro e
      have := congrArg List.length (HasSig_iff.1 (h3 _ (List.getElem_mem (List.length_pos_iff.2 h1))).2).2
      simp [e] at this
      exact h4 (List.length_eq_zero_iff.1 (by rw [← length_flatten_of_skel_eq (sliceAt_skel h0), this]; rfl))
  have hS := seriesOf_of hv1 hne hx hlX
  obtain ⟨z, sf, s0, hc, hz⟩ := typed_series h hl hS
  obtain ⟨z', sf', s0', hc', hz'⟩ := typed_series h' hl hS
  have e := he hS
  rw [hc, hc'] at e
  simp only [output, Except.map, Except.ok.injEq] at e
  subst e
  obtain ⟨a, b⟩ := h.regular
  obtain ⟨a', b'⟩ := h'.regular
  obtain ⟨zs, oss, r1, r2, r3, r4⟩ := (C02_chunks a b hvs ha' hv1 hS.1 hS.2.1 (by simp) _ _ _).1 hc
  obtain ⟨zs', oss', r1', r2', r3', r4'⟩ := (C02_chunks a' b' hvs ha' hv1 hS.1 hS.2.1 (by simp) _ _ _).1 hc'
  have eo : oss = oss' := List.eq_iff_flatten_eq.2 ⟨r3.det hz.2.1 r3', r4.trans r4'.symm⟩
  subst eo
  refine ⟨zs, r1.chunks, ?_⟩
  rw [r1'.chunks]
  have hne' : ∀ os ∈ oss, os ≠ [] := by
    intro os ho e
    subst e
    have : (0 : Nat) ∈ as.map List.length := r4 ▸ List.mem_map.2 ⟨[], ho, rfl⟩
    obtain ⟨a, h1, h2⟩ := List.mem_map.1 this
    obtain ⟨i, hi, rfl⟩ := List.mem_iff_getElem.1 h1
    exact ((List.forall₂_iff_get.1 ha).2 i (by rw [ha.length_eq]; exact hi) hi).1.1 (List.length_eq_zero_iff.1 h2)
  congr 1
  refine List.ext_getElem (r2'.length_eq.trans r2.length_eq.symm) fun i h1 h2 => ?_
  have hi : i < oss.length := r2.length_eq ▸ h2
  exact ((List.forall₂_iff_get.1 r2').2 i h1 hi).unique (hne' _ (List.getElem_mem hi)) ((List.forall₂_iff_get.1 r2).2 i h2 hi)

theorem Tensor.col_eq {β : Type} {n m k : Nat} {s : List Nat} {v : Idx (n :: m :: s) → β} (hk : k < m) :
    Tensor.col k ⟨n :: m :: s, v⟩ = .ok ⟨n :: s, fun c => v (c.1, (⟨k, hk⟩, c.2))⟩ := dif_pos hk

theorem Tensor.col_ext {β : Type} {n m : Nat} {s : List Nat} {v w : Idx (n :: m :: s) → β}
    (h : ∀ k (hk : k < m), (⟨n :: s, fun c => v (c.1, (⟨k, hk⟩, c.2))⟩ : Tensor β) = ⟨n :: s, fun c => w (c.1, (⟨k, hk⟩, c.2))⟩) : v = w := by
  funext ⟨j, k, c⟩
  have := h k.1 k.2
  simp only [Tensor.mk.injEq, heq_eq_eq, true_and] at this
  exact congrFun this (j, c)

theorem Leaf.col_ext {l l' : Leaf α} {d : DType} {n m : Nat} {s : List Nat} (h : l.sig = some (d, n :: m :: s)) (h' : l'.sig = some (d, n :: m :: s))
    (hc : ∀ k < m, l.col k = l'.col k) : l = l' := by
  cases l with
  | gen => simp [Leaf.sig] at h
  | f t =>
    obtain ⟨sh, v⟩ := t
    simp only [Leaf.sig, Option.some.injEq, Prod.mk.injEq] at h
    obtain ⟨rfl, rfl⟩ := h
    cases l' <;> simp only [Leaf.sig, Option.some.injEq, Prod.mk.injEq, reduceCtorEq, false_and] at h'
    next t' =>
      obtain ⟨sh, w⟩ := t'
      obtain ⟨-, rfl⟩ := h'
      rw [Tensor.col_ext (v := v) (w := w) fun k hk => by simpa only [Leaf.col, Tensor.col_eq hk, Functor.map, Except.map, Except.ok.injEq, Leaf.f.injEq] using hc k hk]
  | i t =>
    obtain ⟨sh, v⟩ := t
    simp only [Leaf.sig, Option.some.injEq, Prod.mk.injEq] at h
    obtain ⟨rfl, rfl⟩ := h
    cases l' <;> simp only [Leaf.sig, Option.some.injEq, Prod.mk.injEq, reduceCtorEq, false_and] at h'
    next t' =>
      obtain ⟨sh, w⟩ := t'
      obtain ⟨-, rfl⟩ := h'
      rw [Tensor.col_ext (v := v) (w := w) fun k hk => by simpa only [Leaf.col, Tensor.col_eq hk, Functor.map, Except.map, Except.ok.injEq, Leaf.i.injEq] using hc k hk]
  | b t =>
    obtain ⟨sh, v⟩ := t
    simp only [Leaf.sig, Option.some.injEq, Prod.mk.injEq] at h
    obtain ⟨rfl, rfl⟩ := h
    cases l' <;> simp only [Leaf.sig, Option.some.injEq, Prod.mk.injEq, reduceCtorEq, false_and] at h'
    next t' =>
      obtain ⟨sh, w⟩ := t'
      obtain ⟨-, rfl⟩ := h'
      rw [Tensor.col_ext (v := v) (w := w) fun k hk => by simpa only [Leaf.col, Tensor.col_eq hk, Functor.map, Except.map, Except.ok.injEq, Leaf.b.injEq] using hc k hk]

/-- Columns determine a series. -/
theorem columns_ext {X} {n m : Nat} {v w : Val α} (hv : HasSig v (tMany n (tMany m X))) (hw : HasSig w (tMany n (tMany m X)))
    (h : ∀ k < m, ∃ c, columnOf k v = .ok c ∧ columnOf k w = .ok c) : v = w := by
  have hsk : v.skel = w.skel := hv.skel.trans hw.skel.symm
  have hlen := length_flatten_of_skel_eq hsk
  refine eq_of_skel_of_flatten _ _ hsk (List.ext_getElem hlen fun j h1 h2 => ?_)
  have hj : j < (flatten X).length := by
    have := congrArg List.length (HasSig_iff.1 hv).2
    simp [tMany, flatten_map] at this
    omega
  have e1 := (HasSig_iff.1 hv).2
  have e2 := (HasSig_iff.1 hw).2
  simp only [tMany, flatten_map, List.map_map] at e1 e2
  have e1' := congrArg (·[j]?) e1
  have e2' := congrArg (·[j]?) e2
  simp only [List.getElem?_map, List.getElem?_eq_getElem h1, List.getElem?_eq_getElem h2, List.getElem?_eq_getElem hj, Option.map_some, Function.comp,
    Option.some.injEq] at e1' e2'
  refine Leaf.col_ext e1' e2' fun k hk => ?_
  obtain ⟨c, h3, h4⟩ := h k hk
  have h3 := mapM_eq_ok_iff_get.1 (columnOf_ok.1 h3).2
  have h4 := mapM_eq_ok_iff_get.1 (columnOf_ok.1 h4).2
  rw [h3.2 j h1, h4.2 j h2]

/-- The columns of a series. -/
theorem seriesOf_column {X} {v : Val α} {n m : Nat} (hl : flatten X ≠ []) (hv : SeriesOf (tMany m X) v n) {k : Nat} (hk : k < m) :
    ∃ c, columnOf k v = .ok c ∧ SeriesOf X c n := by
  obtain ⟨hw, -, xs, hin, hx, rfl, hX⟩ := hv
  have : ∀ x ∈ xs, ∃ r : List (Val α), IsSeries x r ∧ r.length = m ∧ ∀ y ∈ r, HasSig y X := fun x hx => by
    obtain ⟨r, a, b, c⟩ := exists_rows_of_sig (hX x hx)
    exact ⟨r, b, a, c⟩
  choose! r hr using this
  have hg : List.Forall₂ IsSeries xs (xs.map r) := by
    rw [List.forall₂_map_right_iff]
    exact List.forall₂_same.2 fun x hx => (hr x hx).1
  have hk' : ∀ q ∈ xs.map r, k < q.length := by
    simp only [List.mem_map]
    rintro _ ⟨x, hx, rfl⟩
    rw [(hr x hx).2.1]; exact hk
  obtain ⟨c, h1, h2⟩ := columnOf_series hx hin hg hk'
  have hl' : (colList k (xs.map r)).length = xs.length := by rw [colList_length hk', List.length_map]
  refine ⟨c, h1, hl' ▸ seriesOf_of h2 ?_ (fun y hy => ?_) hl⟩
  · intro e
    rw [e] at hl'
    exact hx (List.length_eq_zero_iff.1 hl'.symm)
  · simp only [colList, List.mem_filterMap, List.mem_map] at hy
    obtain ⟨_, ⟨x, hx, rfl⟩, hy⟩ := hy
    have hm := List.mem_of_getElem? hy
    exact ⟨(hr x hx).1.mem_WF (hin.mem_WF hw x hx) y hm, (hr x hx).2.2 y hm⟩

theorem flatten_tMany {m : Nat} {X : PyVal (DType × List Nat)} (h : flatten X ≠ []) : flatten (tMany m X) ≠ [] := by
  simpa [tMany, flatten_map] using h

theorem SeriesOf.skel {X} {v : Val α} {n : Nat} (h : SeriesOf X v n) : v.skel = X.skel := by
  obtain ⟨-, -, xs, a, b, rfl, c⟩ := h
  rw [← sliceAt_skel (a.slice 0 (List.length_pos_iff.2 b)), (c _ (List.getElem_mem _)).skel]

theorem SeriesOf.sig {X} {v : Val α} {n : Nat} (h : SeriesOf X v n) : HasSig v (tMany n X) := by
  obtain ⟨-, -, xs, a, b, rfl, c⟩ := h
  exact a.hasSig b c

/-- Mapping every stage of a pipeline streams the pipeline over every column. -/
theorem pipeline_map {m : Nat} (hm : 0 < m) {ops : List (Operator α)} : ∀ {T S : Nat → PyVal (DType × List Nat)},
    (∀ k (hk : k < ops.length), Typed ops[k] (T k) (T (k + 1)) (S k)) → (∀ k ≤ ops.length, flatten (T k) ≠ []) → ∀ {v : Val α} {n : Nat},
    SeriesOf (tMany m (T 0)) v n → ∃ z sfs s0s, Pipeline (ops.map (Map · (m : Int))) (List.replicate ops.length none) v z sfs s0s ∧
      SeriesOf (tMany m (T ops.length)) z n ∧
      ∀ k < m, ∃ c zc sfs' s0s', columnOf k v = .ok c ∧ SeriesOf (T 0) c n ∧ Pipeline ops (List.replicate ops.length none) c zc sfs' s0s' ∧ columnOf k z = .ok zc := by
  induction ops with
  | nil =>
    intro T S _ hl v n hv
    refine ⟨v, [], [], .nil v, hv, fun k hk => ?_⟩
    obtain ⟨c, h1, h2⟩ := seriesOf_column (hl 0 (by simp)) hv hk
    exact ⟨c, c, [], [], h1, h2, .nil c, h1⟩
  | cons op ops ih =>
    intro T S h hl v n hv
    have hop : Typed op (T 0) (T 1) (S 0) := h 0 (by simp)
    obtain ⟨y, SF, S0, h1, h2⟩ := C14_map_typed hop (hl 0 (by simp)) hm hv
    obtain ⟨y', sf', s0', h1', hy⟩ := typed_series (TypedIn.map hop (hl 0 (by simp)) hm) (flatten_tMany (hl 1 (by simp))) hv
    rw [h1] at h1'
    cases h1'
    obtain ⟨z, sfs, s0s, h3, h4, h5⟩ := ih (T := fun k => T (k + 1)) (S := fun k => S (k + 1))
      (fun k hk => h (k + 1) (by simpa using hk)) (fun k hk => hl (k + 1) (by simpa using hk)) hy
    refine ⟨z, _, _, .cons h1 h3, h4, fun k hk => ?_⟩
    obtain ⟨c, zc, s, i, g1, g2, g3, -⟩ := h2 k hk
    obtain ⟨c', h6, h7⟩ := seriesOf_column (hl 0 (by simp)) hv hk
    rw [g1] at h6
    cases h6
    obtain ⟨c'', zc', sfs', s0s', k1, -, k2, k3⟩ := h5 k hk
    rw [g3] at k1
    cases k1
    exact ⟨c, zc', _, _, g1, h7, .cons g2 k2, k3⟩

/-- **C72 Map distributes over pipelines.**  Mapping a pipeline over `m` columns gives the same outputs as the pipeline of its mapped stages, for every pipeline of
well-typed operators (with at least one tensor between any two of them), on every sequence of series; -/
theorem C72_map_compose {ops : List (Operator α)} (hne : ops ≠ []) {T S : Nat → PyVal (DType × List Nat)}
    (h : ∀ k (hk : k < ops.reverse.length), Typed ops.reverse[k] (T k) (T (k + 1)) (S k)) (hl : ∀ k ≤ ops.length, flatten (T k) ≠ []) {m : Nat} (hm : 0 < m)
    {vs : List (Val α)} {ns : List Nat} (hv : List.Forall₂ (SeriesOf (tMany m (T 0))) vs ns) :
    ∃ zs, streamChunks (Map (Compose ops) (m : Int)) none vs = .ok zs ∧ streamChunks (Compose (ops.map (Map · (m : Int)))) none vs = .ok zs := by
  have hrev : (ops.map (Map · (m : Int))).reverse = ops.reverse.map (Map · (m : Int)) := by rw [List.map_reverse]
  have h' : ∀ k (hk : k < (ops.map (Map · (m : Int))).reverse.length),
      Typed (ops.map (Map · (m : Int))).reverse[k] (tMany m (T k)) (tMany m (T (k + 1))) (.tup [tMany m (S k)]) := by
    intro k hk
    have hk' : k < ops.reverse.length := by simpa using hk
    have := TypedIn.map (h k hk') (hl k (by simp at hk'; omega)) hm
    rw [List.getElem_of_eq hrev, List.getElem_map]
    exact this
  have t1 := TypedIn.map (TypedIn.compose hne h) (hl 0 (by simp)) hm
  have t2 := TypedIn.compose (C := fun _ => True) (T := fun k => tMany m (T k)) (S := fun k => .tup [tMany m (S k)]) (by simpa using hne) h'
  simp only [List.length_map] at t2
  refine chunks_same t1 t2 (flatten_tMany (hl _ le_rfl)) (fun {v n} hv => ?_) hv
  obtain ⟨z, sfs, s0s, h1, h2, h3⟩ := pipeline_map hm h (by simpa using hl) hv
  rw [← hrev] at h1
  rw [C10_compose_pipeline_library (ops := ops.map (Map · (m : Int))) (by simpa using hne) (Ds := fun k => (· = (T k).skel)) (fun k hk => by
    have := (h' k hk).lib; simpa only [tMany_skel] using this) hv.1 ?_ (by simpa only [List.length_map, List.length_reverse] using h1)]
  · obtain ⟨y, SF, S0, g1, g2⟩ := C14_map_typed (TypedIn.compose hne h) (hl 0 (by simp)) hm hv
    rw [g1]
    simp only [output, Except.map, Except.ok.injEq]
    obtain ⟨y', sf', s0', g1', hy⟩ := typed_series t1 (flatten_tMany (hl _ le_rfl)) hv
    rw [g1] at g1'
    cases g1'
    refine columns_ext hy.sig (by simpa using h2.sig) fun k hk => ?_
    obtain ⟨c, zc, s, i, k1, k2, k3, -⟩ := g2 k hk
    obtain ⟨c', zc', sfs', s0s', k4, k5, k6, k7⟩ := h3 k hk
    rw [k1] at k4
    cases k4
    rw [C10_compose_pipeline_library hne (Ds := fun k => (· = (T k).skel)) (fun k hk => (h k hk).lib) k5.1 ?_ (by simpa only [List.length_reverse] using k6)] at k2
    · cases k2
      exact ⟨_, k3, k7⟩
    · exact k5.skel
  · rw [hv.skel, tMany_skel]

theorem seriesOf_iff {X} {v : Val α} {n : Nat} : SeriesOf X v n ↔ v.WF ∧ flatten X ≠ [] ∧ 0 < n ∧ HasSig v (tMany n X) := by
  constructor
  · intro h
    refine ⟨h.1, fun e => h.2.1 (List.length_eq_zero_iff.1 ?_), ?_, h.sig⟩
    · rw [length_flatten_of_skel_eq h.skel, e]; rfl
    · obtain ⟨-, -, xs, -, a, rfl, -⟩ := h
      exact List.length_pos_iff.2 a
  · rintro ⟨h1, h2, h3, h4⟩
    obtain ⟨xs, rfl, a, b⟩ := exists_rows_of_sig h4
    exact seriesOf_of a (List.length_pos_iff.1 h3) (fun x hx => ⟨a.mem_WF h1 x hx, b x hx⟩) h2

/-- Mapping every operator of a bank streams the bank over every column. -/
theorem bank_map {m : Nat} (hm : 0 < m) {n : Nat} {ops : List (Operator α)} : ∀ {X O S : Nat → PyVal (DType × List Nat)},
    (∀ k (hk : k < ops.length), Typed ops[k] (X k) (O k) (S k)) → (∀ k < ops.length, flatten (X k) ≠ [] ∧ flatten (O k) ≠ []) → ∀ {vs : List (Val α)},
    vs.length = ops.length → (∀ k (hk : k < vs.length), SeriesOf (tMany m (X k)) vs[k] n) →
    ∃ zs sfs s0s, Bank (ops.map (Map · (m : Int))) (List.replicate ops.length none) vs zs sfs s0s ∧
      ∀ j < m, ∃ cs zcs sfs' s0s', vs.mapM (columnOf j) = .ok cs ∧ cs.length = ops.length ∧ (∀ k (hk : k < cs.length), SeriesOf (X k) cs[k] n) ∧
        Bank ops (List.replicate ops.length none) cs zcs sfs' s0s' ∧ zs.mapM (columnOf j) = .ok zcs := by
  induction ops with
  | nil =>
    intro X O S _ _ vs hv _
    obtain rfl := List.length_eq_zero_iff.1 hv
    exact ⟨[], [], [], .nil, fun j _ => ⟨[], [], [], [], rfl, rfl, by simp, .nil, rfl⟩⟩
  | cons op ops ih =>
    intro X O S h hl vs hlen hv
    cases vs with
    | nil => simp at hlen
    | cons v vs =>
      have hop : Typed op (X 0) (O 0) (S 0) := h 0 (by simp)
      have hv0 : SeriesOf (tMany m (X 0)) v n := hv 0 (by simp)
      obtain ⟨z, SF, S0, h1, h2⟩ := C14_map_typed hop (hl 0 (by simp)).1 hm hv0
      obtain ⟨zs, sfs, s0s, h3, h4⟩ := ih (X := fun k => X (k + 1)) (O := fun k => O (k + 1)) (S := fun k => S (k + 1))
        (fun k hk => h (k + 1) (by simpa using hk)) (fun k hk => hl (k + 1) (by simpa using hk)) (by simpa using hlen)
        (fun k hk => hv (k + 1) (by simpa using hk))
      refine ⟨z :: zs, _, _, .cons h1 h3, fun j hj => ?_⟩
      obtain ⟨c, zc, s, i, g1, g2, g3, -⟩ := h2 j hj
      obtain ⟨c', h6, h7⟩ := seriesOf_column (hl 0 (by simp)).1 hv0 hj
      rw [g1] at h6
      cases h6
      obtain ⟨cs, zcs, sfs', s0s', k1, k2, k3, k4, k5⟩ := h4 j hj
      refine ⟨c :: cs, zc :: zcs, _, _, ?_, by simpa using k2, ?_, .cons g2 k4, ?_⟩
      · simp [List.mapM_cons, g1, k1, bind, Except.bind, pure, Except.pure]
      · rintro (_ | k) hk
        · exact h7
        · exact k3 k (by simpa using hk)
      · simp [List.mapM_cons, g3, k5, bind, Except.bind, pure, Except.pure]

theorem columnOf_tup {k : Nat} {vs cs : List (Val α)} (h : vs.mapM (columnOf k) = .ok cs) : columnOf k (.tup vs) = .ok (.tup cs) := by
  rw [columnOf, PyVal.tup, traverse_node, show vs.mapM (PyVal.traverse (Leaf.col k)) = .ok cs from h]
  rfl

/-- and mapping a bank gives the same outputs as the bank of its mapped operators. -/
theorem C72_map_join {ops : List (Operator α)} (hne : ops ≠ []) {X O S : Nat → PyVal (DType × List Nat)}
    (h : ∀ k (hk : k < ops.length), Typed ops[k] (X k) (O k) (S k)) (hl : ∀ k < ops.length, flatten (X k) ≠ [] ∧ flatten (O k) ≠ []) {m : Nat} (hm : 0 < m)
    {vs : List (Val α)} {ns : List Nat} (hv : List.Forall₂ (SeriesOf (.tup ((List.range ops.length).map fun k => tMany m (X k)))) vs ns) :
    ∃ zs, streamChunks (Map (Join ops) (m : Int)) none vs = .ok zs ∧ streamChunks (Join (ops.map (Map · (m : Int)))) none vs = .ok zs := by
  have h' : ∀ k (hk : k < (ops.map (Map · (m : Int))).length),
      Typed (ops.map (Map · (m : Int)))[k] (tMany m (X k)) (tMany m (O k)) (.tup [tMany m (S k)]) := by
    intro k hk
    have hk' : k < ops.length := by simpa using hk
    rw [List.getElem_map]
    exact TypedIn.map (h k hk') (hl k hk').1 hm
  have hpos : 0 < ops.length := List.length_pos_iff.2 hne
  have ne : ∀ {F : Nat → PyVal (DType × List Nat)}, flatten (F 0) ≠ [] → flatten (.tup ((List.range ops.length).map F)) ≠ [] := by
    intro F hF
    obtain ⟨q, hq⟩ := Nat.exists_eq_succ_of_ne_zero hpos.ne'
    rw [hq, Nat.succ_eq_add_one, List.range_succ_eq_map]
    simp [PyVal.tup, hF]
  have many : ∀ F : Nat → PyVal (DType × List Nat), tMany m (.tup ((List.range ops.length).map F)) = .tup ((List.range ops.length).map fun k => tMany m (F k)) := by
    intro F
    simp [tMany, PyVal.tup]
  have t1 := TypedIn.map (TypedIn.join h) (ne (hl 0 hpos).1) hm
  have t2 := TypedIn.join (C := fun _ => True) (X := fun k => tMany m (X k)) (O := fun k => tMany m (O k)) (S := fun k => .tup [tMany m (S k)]) h'
  simp only [List.length_map] at t2
  rw [many, many] at t1
  refine chunks_same t1 t2 (ne (flatten_tMany (hl 0 hpos).2)) (fun {v n} hv => ?_) hv
  obtain ⟨y', sf', s0', g1', hy⟩ := typed_series t1 (ne (flatten_tMany (hl 0 hpos).2)) hv
  obtain ⟨z', sf'', s0'', g2', hz⟩ := typed_series t2 (ne (flatten_tMany (hl 0 hpos).2)) hv
  rw [← many] at hv
  obtain ⟨y, SF, S0, g1, g2⟩ := C14_map_typed (TypedIn.join h) (ne (hl 0 hpos).1) hm hv
  rw [g1] at g1'
  cases g1'
  obtain ⟨hw, -, hn, hsig⟩ := seriesOf_iff.1 hv
  obtain ⟨ws, rfl, hws⟩ : ∃ ws, v = .tup ws ∧ List.Forall₂ HasSig ws ((List.range ops.length).map fun k => tMany n (tMany m (X k))) := by
    obtain ⟨ws, a, b⟩ := hasSig_tup_inv (x := v) (tys := (List.range ops.length).map fun k => tMany n (tMany m (X k))) (by
      rw [many] at hsig
      simpa [tMany, PyVal.tup, Function.comp_def] using hsig)
    exact ⟨ws, a, b⟩
  have hlen : ws.length = ops.length := by simpa using hws.length_eq
  have hws' : ∀ k (hk : k < ws.length), SeriesOf (tMany m (X k)) ws[k] n := by
    intro k hk
    refine seriesOf_iff.2 ⟨?_, flatten_tMany (hl k (hlen ▸ hk)).1, hn, ?_⟩
    · exact WF_tup.1 hw _ (List.getElem_mem hk)
    · have := (List.forall₂_iff_get.1 hws).2 k hk (by simpa using hlen ▸ hk)
      simpa using this
  obtain ⟨zs, sfs, s0s, h1, h3⟩ := bank_map hm h hl hlen hws'
  have hc := (C12_join_bank_library (ops := ops.map (Map · (m : Int))) (by simpa using hne) (Ds := fun k => (· = (X k).skel)) (Es := fun k => (· = (O k).skel))
    (fun k hk => by have := (h' k hk).lib; simpa only [tMany_skel] using this) (by simpa using hlen)
    (fun w hw => by
      obtain ⟨k, hk, rfl⟩ := List.mem_iff_getElem.1 hw
      exact ⟨(hws' k hk).1, (hws' k hk).2.1⟩) (n := n) (fun w hw => by
      obtain ⟨k, hk, rfl⟩ := List.mem_iff_getElem.1 hw
      obtain ⟨-, -, xs, a, b, rfl, -⟩ := hws' k hk
      exact a.size) (st := none) (Or.inl ⟨rfl, rfl⟩) _).2 ⟨zs, sfs, s0s, by simpa using h1, rfl⟩
  rw [hc] at g2'
  cases g2'
  rw [g1, hc]
  simp only [output, Except.map, Except.ok.injEq]
  rw [← many] at hy hz
  refine columns_ext hy.sig hz.sig fun j hj => ?_
  obtain ⟨c, zc, s, i, k1, k2, k3, -⟩ := g2 j hj
  obtain ⟨cs, zcs, sfs', s0s', k4, k5, k6, k7, k8⟩ := h3 j hj
  rw [columnOf_tup k4] at k1
  cases k1
  have := (C12_join_bank_library hne (Ds := fun k => (· = (X k).skel)) (Es := fun k => (· = (O k).skel)) (fun k hk => (h k hk).lib) k5
    (fun w hw => by
      obtain ⟨k, hk, rfl⟩ := List.mem_iff_getElem.1 hw
      exact ⟨(k6 k hk).1, (k6 k hk).2.1⟩) (n := n) (fun w hw => by
      obtain ⟨k, hk, rfl⟩ := List.mem_iff_getElem.1 hw
      obtain ⟨-, -, xs, a, b, rfl, -⟩ := k6 k hk
      exact a.size) (st := none) (Or.inl ⟨rfl, rfl⟩) _).2 ⟨zcs, sfs', s0s', k7, rfl⟩
  rw [this] at k2
  cases k2
  exact ⟨_, k3, columnOf_tup k8⟩

/-- Mapping the identity is the identity. -/
theorem C72_map_identity (l : DType × List Nat) {m : Nat} (hm : 0 < m) {vs : List (Val α)} {ns : List Nat}
    (hv : List.Forall₂ (SeriesOf (.leaf (l.1, m :: l.2))) vs ns) :
    ∃ zs, streamChunks (Map Identity (m : Int)) none vs = .ok zs ∧ streamChunks Identity none vs = .ok zs := by
  have hl : flatten (PyVal.leaf l) ≠ [] := by simp
  have t0 := TypedIn.identity (α := α) (C := fun _ => True) l
  have t1 := TypedIn.map t0 hl hm
  refine chunks_same t1 (TypedIn.identity (l.1, m :: l.2)) (by simp) (fun {v n} hv => ?_) hv
  have hv' : SeriesOf (tMany m (.leaf l)) v n := hv
  obtain ⟨z, SF, S0, g1, g2⟩ := C14_map_typed t0 hl hm hv'
  obtain ⟨z', sf', s0', g1', hz⟩ := typed_series t1 (flatten_tMany hl) hv'
  rw [g1] at g1'
  cases g1'
  obtain ⟨w, rfl, -⟩ := hasSig_leaf_inv hv'.sig
  have key : ∀ {u : Leaf α} {n : Nat} {X}, SeriesOf X (.leaf u) n → output (call Identity (.leaf u) none) = .ok (.leaf u) := by
    rintro u n X ⟨-, -, xs, a, b, -, -⟩
    obtain ⟨q, hq⟩ := Nat.exists_eq_succ_of_ne_zero (List.length_pos_iff.2 b).ne'
    rw [C23_identity (n := q) (by rw [IsTensorSeries, a.size u (by simp), hq]) (Or.inl rfl)]
    rfl
  rw [g1, key hv]
  simp only [output, Except.map, Except.ok.injEq]
  refine columns_ext hz.sig hv'.sig fun k hk => ?_
  obtain ⟨c, zc, s, i, k1, k2, k3, -⟩ := g2 k hk
  obtain ⟨c', k4, k5⟩ := seriesOf_column hl hv' hk
  rw [k1] at k4
  cases k4
  obtain ⟨u, rfl, -⟩ := hasSig_leaf_inv k5.sig
  have := key k5
  rw [k2] at this
  cases this
  exact ⟨_, k3, k1⟩

/-- The operators of a bank, each on its own series. -/
theorem bank_typed {n : Nat} {ops : List (Operator α)} : ∀ {X O S : Nat → PyVal (DType × List Nat)},
    (∀ k (hk : k < ops.length), Typed ops[k] (X k) (O k) (S k)) → (∀ k < ops.length, flatten (O k) ≠ []) → ∀ {vs : List (Val α)},
    vs.length = ops.length → (∀ k (hk : k < vs.length), SeriesOf (X k) vs[k] n) →
    ∃ zs sfs s0s, Bank ops (List.replicate ops.length none) vs zs sfs s0s ∧ zs.length = ops.length ∧ ∀ k (hk : k < zs.length), SeriesOf (O k) zs[k] n := by
  induction ops with
  | nil =>
    intro X O S _ _ vs hv _
    obtain rfl := List.length_eq_zero_iff.1 hv
    exact ⟨[], [], [], .nil, rfl, by simp⟩
  | cons op ops ih =>
    intro X O S h hl vs hlen hv
    cases vs with
    | nil => simp at hlen
    | cons v vs =>
      obtain ⟨z, sf, s0, h1, h2⟩ := typed_series (h 0 (by simp)) (hl 0 (by simp)) (hv 0 (by simp))
      obtain ⟨zs, sfs, s0s, h3, h4, h5⟩ := ih (X := fun k => X (k + 1)) (O := fun k => O (k + 1)) (S := fun k => S (k + 1))
        (fun k hk => h (k + 1) (by simpa using hk)) (fun k hk => hl (k + 1) (by simpa using hk)) (by simpa using hlen)
        (fun k hk => hv (k + 1) (by simpa using hk))
      refine ⟨z :: zs, _, _, .cons h1 h3, by simpa using h4, ?_⟩
      rintro (_ | k) hk
      · exact h2
      · exact h5 k (by simpa using hk)

theorem join_typed {n : Nat} {ops : List (Operator α)} (hne : ops ≠ []) {X O S : Nat → PyVal (DType × List Nat)}
    (h : ∀ k (hk : k < ops.length), Typed ops[k] (X k) (O k) (S k)) {vs : List (Val α)}
    (hlen : vs.length = ops.length) (hv : ∀ k (hk : k < vs.length), SeriesOf (X k) vs[k] n) {zs sfs s0s : List (Val α)}
    (hb : Bank ops (List.replicate ops.length none) vs zs sfs s0s) : call (Join ops) (.tup vs) none = .ok (.tup zs, .tup sfs, .tup s0s) :=
  (C12_join_bank_library hne (Ds := fun k => (· = (X k).skel)) (Es := fun k => (· = (O k).skel)) (fun k hk => (h k hk).lib) hlen
    (fun w hw => by
      obtain ⟨k, hk, rfl⟩ := List.mem_iff_getElem.1 hw
      exact ⟨(hv k hk).1, (hv k hk).2.1⟩) (n := n) (fun w hw => by
      obtain ⟨k, hk, rfl⟩ := List.mem_iff_getElem.1 hw
      obtain ⟨-, -, xs, a, b, rfl, -⟩ := hv k hk
      exact a.size) (st := none) (Or.inl ⟨rfl, rfl⟩) _).2 ⟨zs, sfs, s0s, hb, rfl⟩

theorem compose_pair {f g : Operator α} {X Y Z S S'} (hf : Typed f X Y S) (hg : Typed g Y Z S') : Typed (Compose [g, f]) X Z (.tup [S, S']) :=
  TypedIn.compose' [X, Y, Z] [S, S'] (by simp) (fun k hk => by
    match k, hk with
    | 0, _ => exact hf
    | 1, _ => exact hg) rfl

theorem compose_pair_call {f g : Operator α} {X Y Z S S'} (hf : Typed f X Y S) (hg : Typed g Y Z S') {v y z sf s0 sf' s0' : Val α} {n : Nat} (hv : SeriesOf X v n)
    (h : call f v none = .ok (y, sf, s0)) (h' : call g y none = .ok (z, sf', s0')) : call (Compose [g, f]) v none = .ok (z, .tup [sf, sf'], .tup [s0, s0']) :=
  C10_compose_pipeline_library (ops := [g, f]) (by simp) (Ds := fun k => (· = (along [X, Y, Z] k).skel)) (fun k hk => by
    match k, hk with
    | 0, _ => exact hf.lib
    | 1, _ => exact hg.lib) hv.1 hv.skel (.cons h (.cons h' (.nil z)))

theorem banks_zip {n : Nat} {fs : List (Operator α)} : ∀ {gs : List (Operator α)} {X Y Z S S' : Nat → PyVal (DType × List Nat)}, gs.length = fs.length →
    (∀ k (hk : k < fs.length), Typed fs[k] (X k) (Y k) (S k)) → (∀ k (hk : k < gs.length), Typed gs[k] (Y k) (Z k) (S' k)) →
    ∀ {vs ys zs sfs s0s sfs' s0s' : List (Val α)}, (∀ k (hk : k < vs.length), SeriesOf (X k) vs[k] n) →
    Bank fs (List.replicate fs.length none) vs ys sfs s0s → Bank gs (List.replicate gs.length none) ys zs sfs' s0s' →
    ∃ a b, Bank (List.zipWith (fun g f => Compose [g, f]) gs fs) (List.replicate fs.length none) vs zs a b := by
  induction fs with
  | nil =>
    intro gs X Y Z S S' hlen _ _ vs ys zs sfs s0s sfs' s0s' _ h1 h2
    obtain rfl := List.length_eq_zero_iff.1 hlen
    cases h1
    cases h2
    exact ⟨[], [], .nil⟩
  | cons f fs ih =>
    intro gs X Y Z S S' hlen hf hg vs ys zs sfs s0s sfs' s0s' hv h1 h2
    cases gs with
    | nil => simp at hlen
    | cons g gs =>
      cases h1 with
      | cons h1 r1 =>
      cases h2 with
      | cons h2 r2 =>
      obtain ⟨a, b, r⟩ := ih (X := fun k => X (k + 1)) (Y := fun k => Y (k + 1)) (Z := fun k => Z (k + 1)) (S := fun k => S (k + 1)) (S' := fun k => S' (k + 1))
        (by simpa using hlen) (fun k hk => hf (k + 1) (by simpa using hk)) (fun k hk => hg (k + 1) (by simpa using hk)) (fun k hk => hv (k + 1) (by simpa using hk)) r1 r2
      exact ⟨_, _, .cons (compose_pair_call (hf 0 (by simp)) (hg 0 (by simp)) (hv 0 (by simp)) h1 h2) r⟩

/-- A pipeline of two banks gives the same outputs as the bank of the pipelines of their operators. -/
theorem C72_interchange {fs gs : List (Operator α)} (hne : fs ≠ []) (hlen : gs.length = fs.length) {X Y Z S S' : Nat → PyVal (DType × List Nat)}
    (hf : ∀ k (hk : k < fs.length), Typed fs[k] (X k) (Y k) (S k)) (hg : ∀ k (hk : k < gs.length), Typed gs[k] (Y k) (Z k) (S' k))
    (hl : ∀ k < fs.length, flatten (X k) ≠ [] ∧ flatten (Y k) ≠ [] ∧ flatten (Z k) ≠ []) {vs : List (Val α)} {ns : List Nat}
    (hv : List.Forall₂ (SeriesOf (.tup ((List.range fs.length).map X))) vs ns) :
    ∃ zs, streamChunks (Compose [Join gs, Join fs]) none vs = .ok zs ∧
      streamChunks (Join (List.zipWith (fun g f => Compose [g, f]) gs fs)) none vs = .ok zs := by
  have hpos : 0 < fs.length := List.length_pos_iff.2 hne
  have hgne : gs ≠ [] := by rintro rfl; simp at hlen; omega
  have ne : ∀ {F : Nat → PyVal (DType × List Nat)}, flatten (F 0) ≠ [] → flatten (.tup ((List.range fs.length).map F)) ≠ [] := by
    intro F hF
    obtain ⟨q, hq⟩ := Nat.exists_eq_succ_of_ne_zero hpos.ne'
    rw [hq, Nat.succ_eq_add_one, List.range_succ_eq_map]
    simp [PyVal.tup, hF]
  have j1 := TypedIn.join hf
  have j2 := TypedIn.join hg
  rw [hlen] at j2
  have hzl : (List.zipWith (fun g f => Compose [g, f]) gs fs).length = fs.length := by simp [hlen]
  have hz : ∀ k (hk : k < (List.zipWith (fun g f => Compose [g, f]) gs fs).length),
      Typed (List.zipWith (fun g f => Compose [g, f]) gs fs)[k] (X k) (Z k) (.tup [S k, S' k]) := by
    intro k hk
    rw [List.getElem_zipWith]
    exact compose_pair (hf k (by omega)) (hg k (by omega))
  have j3 := TypedIn.join (C := fun _ => True) (X := X) (O := Z) (S := fun k => .tup [S k, S' k]) hz
  rw [hzl] at j3
  refine chunks_same (compose_pair j1 j2) j3 (ne (hl 0 hpos).2.2) (fun {v n} hv => ?_) hv
  obtain ⟨hw, -, hn, hsig⟩ := seriesOf_iff.1 hv
  obtain ⟨ws, rfl, hws⟩ := hasSig_tup_inv (x := v) (tys := (List.range fs.length).map fun k => tMany n (X k)) (by
    simpa [tMany, PyVal.tup, Function.comp_def] using hsig)
  have hwl : ws.length = fs.length := by simpa using hws.length_eq
  have hws' : ∀ k (hk : k < ws.length), SeriesOf (X k) ws[k] n := by
    intro k hk
    refine seriesOf_iff.2 ⟨WF_tup.1 hw _ (List.getElem_mem hk), (hl k (hwl ▸ hk)).1, hn, ?_⟩
    have := (List.forall₂_iff_get.1 hws).2 k hk (by simpa using hwl ▸ hk)
    simpa using this
  obtain ⟨ys, sfs, s0s, b1, b2, b3⟩ := bank_typed hf (fun k hk => (hl k hk).2.1) hwl hws'
  obtain ⟨zs, sfs', s0s', c1, c2, c3⟩ := bank_typed hg (fun k hk => (hl k (hlen ▸ hk)).2.2) (b2.trans hlen.symm) b3
  obtain ⟨p, q, r⟩ := banks_zip hlen hf hg hws' b1 c1
  rw [compose_pair_call j1 j2 hv (join_typed hne hf hwl hws' b1) (join_typed hgne hg (b2.trans hlen.symm) b3 c1),
    join_typed (by intro e; rw [e] at hzl; simp at hzl; omega) hz (hwl.trans hzl.symm) hws' (by rw [hzl]; exact r)]
  rfl

/-- SMA(2) after Lag(1), over two columns. -/
example {vs : List (Val (XR ℚ))} {ns : List Nat} (hv : List.Forall₂ (SeriesOf (tMany 2 (tF []))) vs ns) :
    ∃ zs, streamChunks (Map (Compose [SMA (2 : Nat), Lag (1 : Nat)]) (2 : Nat)) none vs = .ok zs ∧
      streamChunks (Compose [Map (SMA (2 : Nat)) (2 : Nat), Map (Lag (1 : Nat)) (2 : Nat)]) none vs = .ok zs :=
  C72_map_compose (ops := [SMA (2 : Nat), Lag (1 : Nat)]) (by simp) (T := fun _ => tF []) (S := along [tF [1], tBuf 2 []]) (fun k hk => by
    match k, hk with
    | 0, _ => exact .lag .float [] (by decide)
    | 1, _ => exact .sma [] (by decide)) (fun _ _ => by simp) (by decide) hv
example : streamChunks (Map (Compose [SMA 2, Lag 1]) 2) none [matrix 2 [[1, 10], [3, 20], [5, 40]], matrix 2 [[7, 0]]] =
    .ok [matrix 2 [[0, 0], [1 / 2, 5], [2, 15]], matrix 2 [[4, 30]]] := by decide +kernel
example : streamChunks (Compose [Map (SMA 2) 2, Map (Lag 1) 2]) none [matrix 2 [[1, 10], [3, 20], [5, 40]], matrix 2 [[7, 0]]] =
    .ok [matrix 2 [[0, 0], [1 / 2, 5], [2, 15]], matrix 2 [[4, 30]]] := by decide +kernel

/-- Two averages side by side, over two columns. -/
example {vs : List (Val (XR ℚ))} {ns : List Nat} (hv : List.Forall₂ (SeriesOf (.tup [tF [2], tF [2]])) vs ns) :
    ∃ zs, streamChunks (Map (Join [SMA (2 : Nat), EMA (3 : Nat)]) (2 : Nat)) none vs = .ok zs ∧
      streamChunks (Join [Map (SMA (2 : Nat)) (2 : Nat), Map (EMA (3 : Nat)) (2 : Nat)]) none vs = .ok zs :=
  C72_map_join (ops := [SMA (2 : Nat), EMA (3 : Nat)]) (by simp) (X := fun _ => tF []) (O := fun _ => tF []) (S := along [tBuf 2 [], tAvg 3 []]) (fun k hk => by
    match k, hk with
    | 0, _ => exact .sma [] (by decide)
    | 1, _ => exact .ema [] (by decide)) (fun _ _ => by simp) (by decide) hv
example : output (call (Map (Join [SMA 1, Lag 1]) 2) (.tup [matrix 2 [[1, 10], [3, 20]], matrix 2 [[5, 6], [7, 8]]]) none) =
    .ok (.tup [matrix 2 [[1, 10], [3, 20]], matrix 2 [[0, 0], [5, 6]]]) := by decide +kernel

/-- Ints in three columns. -/
example {vs : List (Val (XR ℚ))} {ns : List Nat} (hv : List.Forall₂ (SeriesOf (tI [3])) vs ns) :
    ∃ zs, streamChunks (Map Identity (3 : Nat)) none vs = .ok zs ∧ streamChunks Identity none vs = .ok zs :=
  C72_map_identity (.int, []) (by decide) hv

/-- Lag(1) then SMA(2) on the first input, SMA(3) then Lag(2) on the second. -/
example {vs : List (Val (XR ℚ))} {ns : List Nat} (hv : List.Forall₂ (SeriesOf (.tup [tF [], tF []])) vs ns) :
    ∃ zs, streamChunks (Compose [Join [SMA (2 : Nat), Lag (2 : Nat)], Join [Lag (1 : Nat), SMA (3 : Nat)]]) none vs = .ok zs ∧
      streamChunks (Join [Compose [SMA (2 : Nat), Lag (1 : Nat)], Compose [Lag (2 : Nat), SMA (3 : Nat)]]) none vs = .ok zs :=
  C72_interchange (fs := [Lag (1 : Nat), SMA (3 : Nat)]) (gs := [SMA (2 : Nat), Lag (2 : Nat)]) (by simp) rfl (X := fun _ => tF []) (Y := fun _ => tF [])
    (Z := fun _ => tF []) (S := along [tF [1], tBuf 3 []]) (S' := along [tBuf 2 [], tF [2]]) (fun k hk => by
    match k, hk with
    | 0, _ => exact .lag .float [] (by decide)
    | 1, _ => exact .sma [] (by decide)) (fun k hk => by
    match k, hk with
    | 0, _ => exact .sma [] (by decide)
    | 1, _ => exact .lag .float [] (by decide)) (fun _ _ => by simp) hv
example : output (call (Compose [Join [SMA 2, Lag 2], Join [Lag 1, SMA 1]]) (.tup [series [1, 2, 3], series [4, 5, 6]]) none) =
    .ok (.tup [series [0, 1 / 2, 3 / 2], series [0, 0, 4]]) := by decide +kernel
example : output (call (Join [Compose [SMA 2, Lag 1], Compose [Lag 2, SMA 1]]) (.tup [series [1, 2, 3], series [4, 5, 6]]) none) =
    .ok (.tup [series [0, 1 / 2, 3 / 2], series [0, 0, 4]]) := by decide +kernel

end TS
