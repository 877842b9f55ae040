import Verif.Lemmas.MapRegular
import Verif.Spec.Library
/-
Every operator one can build with the library is regular.
-/
namespace TS
open PyVal
variable {α : Type}
set_option linter.unusedSimpArgs false
set_option linter.unusedSectionVars false

theorem argSkels_skel (x : Val α) : argSkels x.skel = (unpackArgs x).map skel := by
  cases x with
  | leaf l => rfl
  | node k xs => cases k <;> simp [argSkels, unpackArgs]

theorem TensorArgs_iff {n : Nat} {x : Val α} : TensorArgs n x ↔ IsArgs n x.skel := by
  rw [IsArgs, argSkels_skel, TensorArgs, List.eq_replicate_iff]
  constructor
  · rintro ⟨h1, h2⟩
    refine ⟨by simpa using h1, ?_⟩
    intro b hb
    obtain ⟨a, ha, rfl⟩ := List.mem_map.1 hb
    obtain ⟨l, rfl⟩ := h2 a ha
    rfl
  · rintro ⟨h1, h2⟩
    refine ⟨by simpa using h1, ?_⟩
    intro a ha
    have := h2 a.skel (List.mem_map_of_mem ha)
    cases a with
    | leaf l => exact ⟨l, rfl⟩
    | node k xs => simp at this

/-- Everything the framework theorems ask of an operator. -/
structure LibOK (op : Operator α) (D E : PyVal Unit → Prop) : Prop where
  sane : op.Sane
  uniform : op.Uniform
  contract : op.Contract (fun x => D x.skel)
  post : op.Post (fun x => D x.skel) (fun x => E x.skel)

theorem makeStreamable_post {fn : List (Val α) → Res (Val α)} {D E : Val α → Prop}
    (h : ∀ x o, D x → fn (unpackArgs x) = .ok o → E o) : (makeStreamable fn).Post D E where
  fresh := by
    intro x o n i _ hD hh
    rw [makeStreamable, streamable_fs] at hh
    simp only [bind_eq_ok] at hh
    obtain ⟨o', h1, h2⟩ := hh
    cases h2
    exact h x o hD (by simpa [stArgs] using h1)
  next := by
    intro x x' s o n i o' n' i' _ hD _ _ hh' hsk hh
    rw [makeStreamable, streamable_fs] at hh hh'
    simp only [bind_eq_ok] at hh hh'
    obtain ⟨o1, h1, h2⟩ := hh
    obtain ⟨_, _, h3⟩ := hh'
    cases h2; cases h3
    obtain ⟨ys, rfl, e⟩ := tup_of_skel (xs := []) hsk
    simp at e
    subst e
    exact h x o hD (by simpa [stArgs, unpackArgs] using h1)

theorem composeLoop_post {ops : List (Operator α)} {Ds : Nat → PyVal Unit → Prop} :
    ∀ (k0 : Nat), (∀ k (hk : k < ops.length), LibOK ops[k] (Ds (k0 + k)) (Ds (k0 + (k + 1)))) →
    ∀ {sts : List (Option (Val α))} {x x' o o' : Val α} {ns is ns' is' : List (Val α)},
    x.WF → Ds k0 x.skel → x'.WF → Ds k0 x'.skel → sts.length = ops.length →
    composeLoop (ops.zip (List.replicate ops.length none)) x' = .ok (o', ns', is') →
    (∀ (k : Nat) s i', sts[k]? = some (some s) → is'[k]? = some i' → s.skel = i'.skel) →
    composeLoop (ops.zip sts) x = .ok (o, ns, is) → Ds (k0 + ops.length) o.skel ∧ Ds (k0 + ops.length) o'.skel := by
  induction ops with
  | nil =>
    intro k0 _ sts x x' o o' ns is ns' is' hx hD hx' hD' hl h' hs h
    cases h; cases h'
    exact ⟨hD, hD'⟩
  | cons op ops ih =>
    intro k0 hop sts x x' o o' ns is ns' is' hx hD hx' hD' hl h' hs h
    cases sts with
    | nil => simp at hl
    | cons st sts =>
      simp only [List.length_cons, List.replicate_succ, List.zip_cons_cons] at h h'
      obtain ⟨o1, n, i, ns1, is1, h1, h2, rfl, rfl⟩ := composeLoop_cons_ok.1 h
      obtain ⟨o1', n', i', ns1', is1', h1', h2', rfl, rfl⟩ := composeLoop_cons_ok.1 h'
      have H : LibOK op (Ds k0) (Ds (k0 + 1)) := hop 0 (by simp)
      have w' := H.sane.call hx' (by simp) h1'
      have f' := ((call_step_ok hx' (by simp)).1 h1').2.2
      have hsw : ∀ s ∈ st, s.WF := by
        rintro s hs'
        cases hs'
        exact (WF_of_skel_eq (hs 0 s i' rfl rfl)).2 w'.2.2
      have w := H.sane.call hx hsw h1
      have f := ((call_step_ok hx hsw).1 h1).2.2
      have e' := H.post.fresh _ _ _ _ hx' hD' f'
      have e : Ds (k0 + 1) o1.skel := by
        cases st with
        | none => exact H.post.fresh _ _ _ _ hx hD f
        | some s => exact H.post.next _ _ _ _ _ _ _ _ _ hx hD hx' hD' f' (hs 0 s i' rfl rfl) f
      have := ih (k0 + 1) (fun k hk => by
        have := hop (k + 1) (by simpa using hk)
        simpa [Nat.add_assoc, Nat.add_comm 1] using this) w.1 e w'.1 e' (by simpa using hl) h2' (by
          intro k s i' a b
          exact hs (k + 1) s i' (by simpa using a) (by simpa using b)) h2
      simpa [Nat.add_assoc, Nat.add_comm 1] using this

theorem chain_of {ops : List (Operator α)} {Ds : Nat → PyVal Unit → Prop} :
    ∀ (k0 : Nat), (∀ k (hk : k < ops.length), LibOK ops[k] (Ds (k0 + k)) (Ds (k0 + (k + 1)))) →
    ChainContract (fun x => Ds k0 x.skel) ops := by
  induction ops with
  | nil => intro k0 _; exact .nil _
  | cons op ops ih =>
    intro k0 h
    have H : LibOK op (Ds k0) (Ds (k0 + 1)) := h 0 (by simp)
    refine .cons H.sane H.contract H.post (ih (k0 + 1) fun k hk => ?_)
    have := h (k + 1) (by simpa using hk)
    simpa [Nat.add_assoc, Nat.add_comm 1] using this

theorem LibOK.compose {ops : List (Operator α)} {Ds : Nat → PyVal Unit → Prop}
    (h : ∀ k (hk : k < ops.reverse.length), LibOK ops.reverse[k] (Ds k) (Ds (k + 1))) :
    LibOK (Compose ops) (Ds 0) (Ds ops.length) := by
  have hall : ∀ op ∈ ops, op.Sane ∧ op.Uniform := by
    intro op hop
    obtain ⟨k, hk, e⟩ := List.mem_iff_getElem.1 (List.mem_reverse.2 hop)
    have := h k hk
    rw [e] at this
    exact ⟨this.sane, this.uniform⟩
  have hP := @composeLoop_post α ops.reverse Ds 0 (fun k hk => by simpa only [Nat.zero_add] using h k hk)
  simp only [Nat.zero_add, List.length_reverse] at hP
  refine ⟨Compose_sane fun op hop => (hall op hop).1, Compose_uniform hall,
    Compose_contract (chain_of 0 fun k hk => by simpa only [Nat.zero_add] using h k hk), ?_, ?_⟩
  · intro x o n i hx hD hh
    rw [← List.reverse_reverse ops] at hh
    obtain ⟨sts, o1, ns, is, a1, a2, a3, a4⟩ := compose_ok.1 hh
    cases a1; cases a4
    rw [List.length_reverse] at a3
    exact (hP hx hD hx hD (sts := List.replicate ops.length none) (by simp) a3 (by
      intro k s i' hk
      rw [List.getElem?_replicate] at hk
      split at hk <;> cases hk) a3).1
  · intro x x' s o n i o' n' i' hx hD hx' hD' hh' hsk hh
    rw [← List.reverse_reverse ops] at hh hh'
    obtain ⟨sts', o1', ns', is', b1, b2, b3, b4⟩ := compose_ok.1 hh'
    cases b1; cases b4
    rw [List.length_reverse] at b3
    obtain ⟨ss, rfl, e⟩ := tup_of_skel hsk
    obtain ⟨sts, o1, ns, is, a1, a2, a3, a4⟩ := compose_ok.1 hh
    cases a1; cases a4
    have l1 := (composeLoop_length b3).2
    simp at l1
    have l2 : ss.length = is'.length := by simpa using congrArg List.length e
    refine (hP hx hD hx' hD' (sts := ss.map some) (by simp; omega) b3 ?_ a3).1
    intro k s i' hk hi
    rw [List.getElem?_map] at hk
    cases hk' : ss[k]? with
    | none => rw [hk'] at hk; cases hk
    | some t =>
      rw [hk'] at hk; cases hk
      have e := congrArg (fun l => l[k]?) e
      simpa [List.getElem?_map, hk', hi] using e

theorem joinLoop_post {ops : List (Operator α)} {Ds Es : Nat → PyVal Unit → Prop} :
    ∀ (k0 : Nat), (∀ k (hk : k < ops.length), LibOK ops[k] (Ds (k0 + k)) (Es (k0 + k))) →
    ∀ {sts : List (Option (Val α))} {xs xs' os os' ns is ns' is' : List (Val α)},
    (∀ x ∈ xs, x.WF) → (∀ x ∈ xs', x.WF) → xs.length = ops.length → xs'.length = ops.length →
    (∀ k (hk : k < xs.length), Ds (k0 + k) xs[k].skel) → (∀ k (hk : k < xs'.length), Ds (k0 + k) xs'[k].skel) →
    sts.length = ops.length →
    joinLoop (ops.zip (xs'.zip (List.replicate ops.length none))) = .ok (os', ns', is') →
    (∀ (k : Nat) s i', sts[k]? = some (some s) → is'[k]? = some i' → s.skel = i'.skel) →
    joinLoop (ops.zip (xs.zip sts)) = .ok (os, ns, is) →
    os.length = ops.length ∧ (∀ k (hk : k < os.length), Es (k0 + k) os[k].skel) := by
  induction ops with
  | nil =>
    intro k0 _ sts xs xs' os os' ns is ns' is' _ _ _ _ _ _ _ h' hs h
    cases h
    exact ⟨rfl, by simp⟩
  | cons op ops ih =>
    intro k0 hop sts xs xs' os os' ns is ns' is' hx hx' lx lx' hD hD' hl h' hs h
    cases sts with
    | nil => simp at hl
    | cons st sts =>
      cases xs with
      | nil => simp at lx
      | cons x xs =>
        cases xs' with
        | nil => simp at lx'
        | cons x' xs' =>
          simp only [List.length_cons, List.replicate_succ, List.zip_cons_cons] at h h'
          obtain ⟨o1, n, i, os1, ns1, is1, h1, h2, rfl, rfl, rfl⟩ := joinLoop_cons_ok.1 h
          obtain ⟨o1', n', i', os1', ns1', is1', h1', h2', rfl, rfl, rfl⟩ := joinLoop_cons_ok.1 h'
          have H : LibOK op (Ds k0) (Es k0) := hop 0 (by simp)
          have hx0 := hx x (by simp)
          have hx0' := hx' x' (by simp)
          have d0 : Ds k0 x.skel := hD 0 (by simp)
          have d0' : Ds k0 x'.skel := hD' 0 (by simp)
          have w' := H.sane.call hx0' (by simp) h1'
          have f' := ((call_step_ok hx0' (by simp)).1 h1').2.2
          have hsw : ∀ s ∈ st, s.WF := by
            rintro s hs'
            cases hs'
            exact (WF_of_skel_eq (hs 0 s i' rfl rfl)).2 w'.2.2
          have f := ((call_step_ok hx0 hsw).1 h1).2.2
          have e : Es k0 o1.skel := by
            cases st with
            | none => exact H.post.fresh _ _ _ _ hx0 d0 f
            | some s => exact H.post.next _ _ _ _ _ _ _ _ _ hx0 d0 hx0' d0' f' (hs 0 s i' rfl rfl) f
          have := ih (k0 + 1) (fun k hk => by
            have := hop (k + 1) (by simpa using hk)
            simpa [Nat.add_assoc, Nat.add_comm 1] using this)
            (fun x h => hx x (by simp [h])) (fun x h => hx' x (by simp [h])) (by simpa using lx) (by simpa using lx')
            (fun k hk => by
              have := hD (k + 1) (by simpa using hk)
              simpa [Nat.add_assoc, Nat.add_comm 1] using this)
            (fun k hk => by
              have := hD' (k + 1) (by simpa using hk)
              simpa [Nat.add_assoc, Nat.add_comm 1] using this)
            (by simpa using hl) h2' (by
              intro k s i' a b
              exact hs (k + 1) s i' (by simpa using a) (by simpa using b)) h2
          refine ⟨by simp [this.1], ?_⟩
          intro k hk
          cases k with
          | zero => simpa using e
          | succ k =>
            have := this.2 k (by simpa using hk)
            simpa [Nat.add_assoc, Nat.add_comm 1] using this

theorem joinDom_iff {n : Nat} {Ds : Nat → PyVal Unit → Prop} {x : Val α} :
    (∃ l, (x.skel = .node .tuple l ∨ x.skel = .node .list l) ∧ l.length = n ∧ ∀ k (hk : k < l.length), Ds k l[k]) ↔
    ∃ xs, asSeq x = .ok xs ∧ xs.length = n ∧ ∀ k (hk : k < xs.length), Ds k xs[k].skel := by
  constructor
  · rintro ⟨l, h, hl, hD⟩
    cases x with
    | leaf t => simp at h
    | node k xs =>
      have hl' : l = xs.map skel := by
        rcases h with h | h <;> simp at h <;> exact h.2.symm
      subst hl'
      refine ⟨xs, ?_, by simpa using hl, fun k hk => ?_⟩
      · rcases h with h | h <;> simp at h <;> rw [h] <;> rfl
      · have := hD k (by simpa using hk)
        rwa [List.getElem_map] at this
  · rintro ⟨xs, h, hl, hD⟩
    refine ⟨xs.map skel, ?_, by simpa using hl, fun k hk => ?_⟩
    · rcases asSeq_ok h with rfl | rfl <;> simp
    · simpa using hD k (by simpa using hk)

theorem LibOK.join {ops : List (Operator α)} {Ds Es : Nat → PyVal Unit → Prop}
    (h : ∀ k (hk : k < ops.length), LibOK ops[k] (Ds k) (Es k)) :
    LibOK (Join ops)
        (fun sk => ∃ l, (sk = .node .tuple l ∨ sk = .node .list l) ∧ l.length = ops.length ∧ ∀ k (hk : k < l.length), Ds k l[k])
        (fun sk => ∃ l, sk = .tup l ∧ l.length = ops.length ∧ ∀ k (hk : k < l.length), Es k l[k]) := by
  have hall : ∀ op ∈ ops, op.Sane ∧ op.Uniform := by
    intro op hop
    obtain ⟨k, hk, rfl⟩ := List.mem_iff_getElem.1 hop
    exact ⟨(h k hk).sane, (h k hk).uniform⟩
  have hP := @joinLoop_post α ops Ds Es 0 (fun k hk => by simpa only [Nat.zero_add] using h k hk)
  simp only [Nat.zero_add] at hP
  refine ⟨Join_sane fun op hop => (hall op hop).1, Join_uniform hall, ?_, ?_, ?_⟩
  · refine (Join_contract (ops := ops) (Ds := (List.range ops.length).map fun k x => Ds k x.skel) ?_).mono ?_
    · rw [List.forall₂_iff_get]
      refine ⟨by simp, fun i h1 h2 => ?_⟩
      have := h i h1
      simpa using ⟨this.sane, this.contract⟩
    · intro x hx
      obtain ⟨xs, h1, h2, h3⟩ := joinDom_iff.1 hx
      refine ⟨xs, h1, ?_⟩
      rw [List.forall₂_iff_get]
      refine ⟨by simp [h2], fun i a b => ?_⟩
      simpa using h3 i b
  · intro x o n i hx hD hh
    obtain ⟨sts, xs, os, ns, is, a1, a2, a3, a4⟩ := join_ok.1 hh
    cases a1; cases a4
    obtain ⟨ys, b1, b2, b3⟩ := joinDom_iff.1 hD
    rw [a2] at b1; cases b1
    have w := asSeq_WF a2 hx
    obtain ⟨c1, c2⟩ := hP w w b2 b2 b3 b3 (sts := List.replicate ops.length none) (by simp) a3 (by
      intro k s i' hk
      rw [List.getElem?_replicate] at hk
      split at hk <;> cases hk) a3
    exact ⟨os.map skel, by simp, by simpa using c1, fun k hk => by simpa using c2 k (by simpa using hk)⟩
  · intro x x' s o n i o' n' i' hx hD hx' hD' hh' hsk hh
    obtain ⟨sts', xs', os', ns', is', a1', a2', a3', a4'⟩ := join_ok.1 hh'
    cases a1'; cases a4'
    obtain ⟨ys', b1', b2', b3'⟩ := joinDom_iff.1 hD'
    rw [a2'] at b1'; cases b1'
    obtain ⟨ss, rfl, e⟩ := tup_of_skel hsk
    obtain ⟨sts, xs, os, ns, is, a1, a2, a3, a4⟩ := join_ok.1 hh
    cases a1; cases a4
    obtain ⟨ys, b1, b2, b3⟩ := joinDom_iff.1 hD
    rw [a2] at b1; cases b1
    have l1 := (joinLoop_length a3').2.2
    simp [b2'] at l1
    have l2 : ss.length = is'.length := by simpa using congrArg List.length e
    obtain ⟨c1, c2⟩ := hP (asSeq_WF a2 hx) (asSeq_WF a2' hx') b2 b2' b3 b3' (sts := ss.map some) (by simp; omega) a3' (by
      intro k s i' hk hi
      rw [List.getElem?_map] at hk
      cases hk' : ss[k]? with
      | none => rw [hk'] at hk; cases hk
      | some t =>
        rw [hk'] at hk; cases hk
        have e := congrArg (fun l => l[k]?) e
        simpa [List.getElem?_map, hk', hi] using e) a3
    exact ⟨os.map skel, by simp, by simpa using c1, fun k hk => by simpa using c2 k (by simpa using hk)⟩

theorem LibOK.map {op : Operator α} {D E : PyVal Unit → Prop} (h : LibOK op D E) (size : Int) : LibOK (Map op size) D E := by
  refine ⟨Map_sane h.sane size, Map_uniform h.sane h.uniform size, Map_contract h.sane size _, ?_, ?_⟩
  · intro x o n i hx hD hh
    obtain ⟨ps, x0, ov, nx, init, prev, oty, sty, rows, o1, n1, a, b, c, d, h0, h1, h2, h3, h4, h5, h6, h7, h8⟩ :=
      (Map_ok h.sane hx (by simp)).1 hh
    cases h8
    have w0 := (sliceAt_WF h0).2 hx
    rw [(h5.series_WF a h6 h7).1, ← h3.1]
    refine h.post.fresh x0 ov nx init w0 ?_ ((call_step_ok w0 (by simp)).1 h1).2.2
    rw [sliceAt_skel h0]; exact hD
  · intro x x' s o n i o' n' i' hx hD hx' hD' hh' hsk hh
    have hw' := Map_sane h.sane size x' none o' n' i' hx' (by simp) hh'
    have hs : ∀ t ∈ some s, t.WF := by rintro _ ⟨⟩; exact (WF_of_skel_eq hsk).2 hw'.2.2
    obtain ⟨ps, x0, ov, nx, init, prev, oty, sty, rows, o1, n1, a, b, c, d, h0, h1, h2, h3, h4, h5, h6, h7, h8⟩ :=
      (Map_ok h.sane hx hs).1 hh
    cases h8
    have w0 := (sliceAt_WF h0).2 hx
    rw [(h5.series_WF a h6 h7).1, ← h3.1]
    refine h.post.fresh x0 ov nx init w0 ?_ ((call_step_ok w0 (by simp)).1 h1).2.2
    rw [sliceAt_skel h0]; exact hD

section
variable [TFNum α]

theorem LibOK.ffill {op : Operator α} {D E : PyVal Unit → Prop} (h : LibOK op D E) :
    LibOK (FFill op) D (fun sk => ∃ t, E t ∧ sk = unpackSkel (unpackSkel t)) := by
  refine ⟨FFill_sane h.sane, FFill_uniform h.sane h.uniform, FFill_contract h.sane h.contract, ?_, ?_⟩
  · intro x o n i hx hD hh
    obtain ⟨z, po, ps, o1, n1, i1, po1, sel, sst, hz, hst', hcall, hpo, hsel, hss, e⟩ := ffill_ok.1 hh
    cases e
    rcases hst' with ⟨-, rfl, rfl⟩ | ⟨s, a, b, h0, -⟩
    · have hw := h.sane.call hx (by simp) hcall
      rcases hpo with ⟨-, hpo⟩ | hpo
      · have hpw := (WF_of_skel_eq (zerosLike_skel hw.1 hpo).1).2 hw.1
        exact ⟨o1.skel, h.post.fresh _ _ _ _ hx hD ((call_step_ok hx (by simp)).1 hcall).2.2, tfCond_skel hsel hpw hw.1⟩
      · cases hpo
    · cases h0
  · intro x x' s o n i o' n' i' hx hD hx' hD' hh' hsk hh
    have hw0' := FFill_sane h.sane x' none o' n' i' hx' (by simp) hh'
    have hsw := (WF_of_skel_eq hsk).2 hw0'.2.2
    obtain ⟨z, po, ps, o1, n1, i1, po1, sel, sst, hz, hst', hcall, hpo, hsel, hss, e⟩ := ffill_ok.1 hh
    obtain ⟨z', po', ps', o1', n1', i1', po1', sel', sst', hz', hst'', hcall', hpo', hsel', hss', e'⟩ := ffill_ok.1 hh'
    cases e; cases e'
    rcases hst'' with ⟨-, rfl, rfl⟩ | ⟨s, a, b, h0, -⟩
    · obtain ⟨ys, rfl, hl⟩ := tup_of_skel hsk
      have hl2 := congrArg List.length hl
      simp only [List.length_map, List.length_cons, List.length_nil, Nat.zero_add] at hl2
      obtain ⟨a, b, rfl⟩ := List.length_eq_two.1 hl2
      simp only [List.map_cons, List.map_nil, List.cons.injEq, and_true] at hl
      rcases hst' with ⟨h0, -, -⟩ | ⟨s, a', b', h0, ha, hb, rfl, rfl⟩
      · cases h0
      · cases h0
        cases ha; cases hb
        rcases hpo with ⟨hpo, -⟩ | hpo
        · cases hpo
        · cases hpo
          rw [WF_tup] at hsw
          have aw := hsw po1 (by simp)
          have bw : ∀ t ∈ some b, t.WF := by rintro _ ⟨⟩; exact hsw b (by simp)
          have hw := h.sane.call hx bw hcall
          exact ⟨o1.skel, h.post.next _ _ _ _ _ _ _ _ _ hx hD hx' hD' ((call_step_ok hx' (by simp)).1 hcall').2.2 hl.2
            ((call_step_ok hx bw).1 hcall).2.2, tfCond_skel hsel aw hw.1⟩
    · cases h0

theorem Basic.regular {op : Operator α} {n : Nat} {sk : PyVal Unit} (h : Basic op n sk) : Regular op n sk := by
  cases h with
  | sub => exact Sub_regular
  | add => exact Add_regular
  | mul => exact Mul_regular
  | positive => exact Positive_regular
  | negative => exact Negative_regular
  | lag => exact Lag_regular _
  | globalMinimum => exact GlobalMinimum_regular
  | globalMaximum => exact GlobalMaximum_regular
  | localMinimum => exact LocalMinimum_regular _
  | localMaximum => exact LocalMaximum_regular _
  | correlation => exact Correlation_regular _
  | crossCorrelation => exact CrossCorrelation_regular _ _
  | autoCorrelation => exact AutoCorrelation_regular _ _
  | sma => exact SMA_regular _
  | msd => exact MSD_regular _
  | ema => exact EMA_regular _
  | rma => exact RMA_regular _
  | bollingerBands => exact BollingerBands_regular _ _
  | macd => exact MACD_regular _ _ _
  | return_ => exact Return_regular _
  | logReturn => exact LogReturn_regular _
  | sharpeRatio => exact SharpeRatio_regular _
  | skewness => exact Skewness_regular _
  | rsi => exact RSI_regular _
  | atr => exact ATR_regular _
  | supertrend => exact Supertrend_regular _ _
  | heikinAshi => exact HeikinAshi_regular
  | drawdown => exact Drawdown_regular
  | zeroCrossover => exact ZeroCrossoverSignal_regular
  | riskRatio => exact RiskRatioEvaluator_regular _

theorem IsArgs.leaves {n : Nat} {x : Val α} (h : IsArgs n x.skel) : ∀ a ∈ unpackArgs x, a.skel = .leaf () := by
  intro a ha
  obtain ⟨l, rfl⟩ := (TensorArgs_iff.2 h).2 a ha
  rfl

theorem Regular.libOK {op : Operator α} {n : Nat} {sk : PyVal Unit} (R : Regular op n sk) :
    LibOK op (IsArgs n) (· = sk) := by
  refine ⟨R.sane, R.uniform, R.contract.mono (fun x hx => TensorArgs_iff.2 hx), ?_, ?_⟩
  · intro x o n i hx _ hh
    exact R.outSkel x none o n i hx (by simp) hh
  · intro x x' s o n i o' n' i' hx _ hx' _ hh' hsk hh
    have := R.sane x' none o' n' i' hx' (by simp) hh'
    exact R.outSkel x (some s) o n i hx (by rintro _ ⟨⟩; exact (WF_of_skel_eq hsk).2 this.2.2) hh

/-- Everything that can be built is regular. -/
theorem Lib.ok {op : Operator α} {D E : PyVal Unit → Prop} (h : Lib op D E) : LibOK op D E := by
  induction h with
  | basic h => exact h.regular.libOK
  | fork c =>
    refine ⟨Fork_sane c, Fork_uniform c, makeStreamable_contract _ _, makeStreamable_post ?_⟩
    intro x o hD h
    obtain ⟨y, e, rfl⟩ := Fork_ok h
    have := hD.leaves y (by simp [e])
    simp [this]
  | identity D =>
    refine ⟨Identity_sane, Identity_uniform, makeStreamable_contract _ _, makeStreamable_post ?_⟩
    rintro x o ⟨s, hs, hD⟩ h
    have e := Identity_ok h
    rw [argSkels_skel, e] at hs
    simp at hs
    rw [hs]; exact hD
  | selectInt n i =>
    refine ⟨Select_sane _, Select_uniform _, makeStreamable_contract _ _, makeStreamable_post ?_⟩
    intro x o hD h
    exact hD.leaves o (pyIndex_mem h)
  | selectField l k hk =>
    refine ⟨Select_sane _, Select_uniform _, makeStreamable_contract _ _, makeStreamable_post ?_⟩
    intro x o hD h
    rw [argSkels_skel] at hD
    subst hD
    have hk' : k < (unpackArgs x).length := by simpa using hk
    simp only [pyIndex] at h
    rw [if_neg (by omega), if_neg (by omega), Int.toNat_natCast, List.getElem?_eq_getElem hk'] at h
    cases h
    simp
  | selectList n is =>
    refine ⟨Select_sane _, Select_uniform _, makeStreamable_contract _ _, makeStreamable_post ?_⟩
    intro x o hD h
    simp only [bind_eq_ok] at h
    obtain ⟨l, h1, h2⟩ := h
    cases h2
    obtain ⟨h3, h4⟩ := mapM_eq_ok_iff_get.1 h1
    simp only [skel_node, PyVal.node.injEq, true_and, List.eq_replicate_iff]
    refine ⟨by simp [h3], ?_⟩
    intro b hb
    obtain ⟨y, hy, rfl⟩ := List.mem_map.1 hb
    obtain ⟨k, hk, rfl⟩ := List.mem_iff_getElem.1 hy
    exact hD.leaves _ (pyIndex_mem (h4 k (by omega)))
  | selectTuple n is =>
    refine ⟨Select_sane _, Select_uniform _, makeStreamable_contract _ _, makeStreamable_post ?_⟩
    intro x o hD h
    cases h; rfl
  | setDuring v p D =>
    refine ⟨SetDuring_sane v p, SetDuring_uniform v p, SetDuring_contract v p _, ?_, ?_⟩
    · intro x o n i hx hD h
      obtain ⟨it, -, h2, -, -⟩ := setDuring_ok hx h
      rw [((traverse_eq_ok_iff _ _ _).1 h2).1]; exact hD
    · intro x x' s o n i o' n' i' hx hD _ _ _ _ h
      obtain ⟨it, -, h2, -, -⟩ := setDuring_ok hx h
      rw [((traverse_eq_ok_iff _ _ _).1 h2).1]; exact hD
  | automaton hA D hE =>
    rename_i ts q d E
    have key : ∀ {x : Val α} {st o n i}, x.WF → (∀ s ∈ st, s.WF) → D x.skel →
        (Automaton ts q d).forwardStep x st = .ok (o, n, i) → E o.skel := by
      intro x st o n i hx hs hD h
      have ho := (Automaton_sane hA x st o n i hx hs h).1
      obtain ⟨args, prev, n', dv, ty, ha, -, -, rfl, rfl, hd, h1, h2, -⟩ := Automaton_ok h
      have := hE x args dv hD ha hd
      have hdw := hA.default _ _ (asSeq_WF ha hx) hd
      rw [((toType_ok hdw).1 h1).1, ← ((toType_ok ho).1 h2).1] at this
      exact this
    refine ⟨Automaton_sane hA, Automaton_uniform hA, Automaton_contract _ _ _ _, ?_, ?_⟩
    · intro x o n i hx hD h
      exact key hx (by simp) hD h
    · intro x x' s o n i o' n' i' hx hD hx' _ h' hsk h
      have := Automaton_sane hA x' none o' n' i' hx' (by simp) h'
      exact key hx (by rintro _ ⟨⟩; exact (WF_of_skel_eq hsk).2 this.2.2) hD h
  | compose _ ih => exact .compose ih
  | join _ ih => exact .join ih
  | map _ size ih => exact ih.map size
  | ffill _ ih => exact ih.ffill
  | weaken _ hD hE ih =>
    exact ⟨ih.sane, ih.uniform, ih.contract.mono fun x hx => hD _ hx,
      ⟨fun x o n i hx hd h => hE _ (ih.post.fresh x o n i hx (hD _ hd) h),
       fun x x' s o n i o' n' i' hx hd hx' hd' h' hsk h =>
        hE _ (ih.post.next x x' s o n i o' n' i' hx (hD _ hd) hx' (hD _ hd') h' hsk h)⟩⟩

end
end TS
