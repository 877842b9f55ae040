import Verif.Lemmas.Sim
import Verif.Props.Contract
/-
C10-C11: Compose.
-/
namespace TS
open PyVal
variable {α : Type}

/-- **C10 Compose streams like a pipeline, from given states.**  If streaming the operators one after
the other from the states `ss` gives `z`, then streaming `Compose` from the tuple of these states gives
the same `z`, and its final and initial states are the tuples of the operators' states in execution
order. -/
theorem C10_compose_pipeline_resume {ops : List (Operator α)} (hne : ops ≠ []) (hop : ∀ op ∈ ops, op.Sane ∧ op.Uniform)
    {ss : List (Val α)} (hs : ∀ s ∈ ss, s.WF) {v z : Val α} (hw : v.WF) {sfs s0s : List (Val α)}
    (h : Pipeline ops.reverse (ss.map some) v z sfs s0s) :
    call (Compose ops) v (some (.tup ss)) = .ok (z, .tup sfs, .tup s0s) ∧ s0s = ss := by
  have hop' : ∀ op ∈ ops.reverse, op.Sane ∧ op.Uniform := fun op h => hop op (by simpa using h)
  have hne' : ops.reverse ≠ [] := by simpa using hne
  -- the streamed series
  obtain ⟨hl, x, xs, hin, es⟩ : flatten v ≠ [] ∧ ∃ x xs, IsSeries v (x :: xs) ∧ s0s = ss := by
    have aux : ∀ {ops : List (Operator α)} {sts : List (Option (Val α))} {v z : Val α} {sfs s0s : List (Val α)},
        Pipeline ops sts v z sfs s0s → ∀ {ss : List (Val α)}, sts = ss.map some → (∀ op ∈ ops, op.Sane ∧ op.Uniform) →
        v.WF → (∀ s ∈ ss, s.WF) → (ops ≠ [] → flatten v ≠ [] ∧ ∃ x xs, IsSeries v (x :: xs)) ∧ s0s = ss := by
      intro ops sts v z sfs s0s h
      induction h with
      | nil v =>
        intro ss e _ _ _
        cases ss with
        | nil => exact ⟨fun h => absurd rfl h, rfl⟩
        | cons s ss => simp at e
      | @cons op ops st sts v y z sf s0 sfs s0s h rest ih =>
        intro ss e hop hw hs
        cases ss with
        | nil => simp at e
        | cons s ss =>
          simp only [List.map_cons, List.cons.injEq] at e
          obtain ⟨rfl, rfl⟩ := e
          have hop1 := hop op (by simp)
          have hsw : ∀ t ∈ some s, t.WF := by rintro _ ⟨⟩; exact hs _ (by simp)
          obtain ⟨hl, x, xs, hin, o, n, i, h1, rfl, h2, h3, tr, h4, h5, h6, h7⟩ :=
            (C01_streaming_eq_stepping hop1.1 hop1.2 hw hsw _ _ _).1 h
          have hyw : y.WF := by
            obtain ⟨o', n', i', tr', k1, k2, rfl⟩ := stepAll_cons_ok.1 h4
            exact (sliceAt_WF (by simpa using h6.slice 0 (by simp))).1
              (hop1.1.call (hin.mem_WF hw x (by simp)) hsw k1).1
          refine ⟨fun _ => ⟨hl, x, xs, hin⟩, ?_⟩
          rw [(ih rfl (fun op h => hop op (by simp [h])) hyw (fun s h => hs s (by simp [h]))).2]
    obtain ⟨a, b⟩ := aux h rfl hop' hw hs
    obtain ⟨hl, x, xs, hin⟩ := a hne'
    exact ⟨hl, x, xs, hin, b⟩
  subst es
  refine ⟨?_, rfl⟩
  obtain ⟨tr, g1, g2, g3, g4, g5, g6⟩ := pipeline_chain h hw hin hop' (by
    intro st hst s hs'
    obtain ⟨t, ht, rfl⟩ := List.mem_map.1 hst
    cases hs'
    exact hs _ ht)
  have hsane : (Compose ops).Sane := Compose_sane fun op h => (hop op h).1
  have hunif : (Compose ops).Uniform := Compose_uniform hop
  have hx := hin.mem_WF hw
  obtain ⟨o, ns, is, tr', k1, k2, rfl⟩ := chainAll_cons_ok.1 g1
  have hstep := compose_call_some (fun op h => (hop' op h).1) hne' (hx x (by simp)) hs g6 k1
  have hall := chainAll_stepAll (fun op h => (hop' op h).1) hne' hx hs g6 g1
  rw [List.reverse_reverse] at hstep hall
  refine (C01_streaming_eq_stepping hsane hunif hw (by rintro _ ⟨⟩; exact WF_tup.2 hs) _ _ _).2
    ⟨hl, x, xs, hin, o, _, _, hstep, rfl, tensors_tup.2 fun s h => (g5 s h).2, ?_, _, hall, ?_, ?_, ?_⟩
  · exact g2.mem_tensors o (by simp)
  · intro e he
    obtain ⟨e', he', rfl⟩ := List.mem_map.1 he
    exact ⟨g2.sameType _ (List.mem_map_of_mem he') _ (by simp), sameType_tup (g4 _ he')⟩
  · simpa [List.map_map, Function.comp_def] using g2
  · have : List.map (·.2) (((o, ns) :: tr').map fun e => (e.1, PyVal.tup e.2)) = (((o, ns) :: tr').map (·.2)).map .tup := by
      simp [List.map_map, Function.comp_def]
    rw [this, List.getLast?_map, g3]
    rfl
example := C10_compose_pipeline_resume (α := XR ℚ) (ops := [Lag 1, SMA 2]) (by simp)
  (by simp only [List.mem_cons, List.not_mem_nil, or_false]; rintro op (rfl | rfl)
      · exact ⟨(Lib.basic (.lag 1)).ok.sane, (Lib.basic (.lag 1)).ok.uniform⟩
      · exact ⟨(Lib.basic (.sma 2)).ok.sane, (Lib.basic (.sma 2)).ok.uniform⟩)
  (ss := [.tup [vI 3, series [5, 2]], series [7 / 2]]) (by simp [WF_tup]) (v := series [1, 2]) (nums_ok _).1
  (.cons (y := series [3, 3 / 2]) (z := series [7 / 2, 3]) (sf := .tup [vI 5, series [2, 1]]) (s0 := .tup [vI 3, series [5, 2]]) (by decide +kernel)
    (.cons (sf := series [3 / 2]) (s0 := series [7 / 2]) (by decide +kernel) (.nil _)))

/-- **C10 Compose streams like a pipeline, without states.**  `ChainContract D ops.reverse`: the operators
honour the initial state contract, the first one (the last argument of `Compose`) on `D`, each following
one on what its predecessor returns. -/
theorem C10_compose_pipeline {D : Val α → Prop} {ops : List (Operator α)} (hne : ops ≠ [])
    (hc : ChainContract D ops.reverse) (hu : ∀ op ∈ ops, op.Uniform) {v z : Val α} (hw : v.WF)
    (hD : ∀ x, sliceAt 0 v = .ok x → D x) {sfs s0s : List (Val α)}
    (h : Pipeline ops.reverse (List.replicate ops.length none) v z sfs s0s) :
    call (Compose ops) v none = .ok (z, .tup sfs, .tup s0s) := by
  have hop' : ∀ op ∈ ops.reverse, op.Sane ∧ op.Uniform := fun op h => ⟨hc.sane op h, hu op (by simpa using h)⟩
  have hop : ∀ op ∈ ops, op.Sane ∧ op.Uniform := fun op h => hop' op (by simpa using h)
  have hne' : ops.reverse ≠ [] := by simpa using hne
  obtain ⟨hl, x, xs, hin⟩ : flatten v ≠ [] ∧ ∃ x xs, IsSeries v (x :: xs) := by
    generalize hr : ops.reverse = rops at h hne'
    generalize hr' : List.replicate ops.length none = sts at h
    cases h with
    | nil v => exact absurd rfl hne'
    | @cons op ops' st sts v y z sf s0 sfs s0s h rest =>
      have hst : st = none := List.eq_of_mem_replicate (hr' ▸ List.mem_cons_self : st ∈ List.replicate ops.length none)
      subst hst
      exact call_isSeries hw (by simp) h
  have hx := hin.mem_WF hw
  have hDx := hD x (hin.slice 0 (by simp))
  have hlen : ops.reverse.length = ops.length := by simp
  rw [← hlen] at h
  obtain ⟨tr, g1, g2, g3, g4, g5, g6⟩ := pipeline_chain h hw hin hop' (by simp)
  obtain ⟨o, ns, k1⟩ := pipeline_fresh hc h hw hin hDx (fun op h => (hop' op h).2)
  have k2 := (hc.fresh (hx x (by simp)) hDx k1).1
  obtain ⟨o', ns', is', tr', k3, k4, rfl⟩ := chainAll_cons_ok.1 g1
  rw [k2] at k3
  cases k3
  have hsane : (Compose ops).Sane := Compose_sane fun op h => (hop op h).1
  have hunif : (Compose ops).Uniform := Compose_uniform hop
  have hstep := compose_call_none hne' (hx x (by simp)) k1
  have hall := chainAll_stepAll (fun op h => (hop' op h).1) hne' hx (fun s h => (g5 s h).1) g6 g1
  rw [List.reverse_reverse] at hstep hall
  refine (C01_streaming_eq_stepping hsane hunif hw (by simp) _ _ _).2
    ⟨hl, x, xs, hin, o, _, _, hstep, rfl, tensors_tup.2 fun s h => (g5 s h).2, ?_, _, hall, ?_, ?_, ?_⟩
  · exact g2.mem_tensors o (by simp)
  · intro e he
    obtain ⟨e', he', rfl⟩ := List.mem_map.1 he
    exact ⟨g2.sameType _ (List.mem_map_of_mem he') _ (by simp), sameType_tup (g4 _ he')⟩
  · simpa [List.map_map, Function.comp_def] using g2
  · have : List.map (·.2) (((o, ns) :: tr').map fun e => (e.1, PyVal.tup e.2)) = (((o, ns) :: tr').map (·.2)).map .tup := by
      simp [List.map_map, Function.comp_def]
    rw [this, List.getLast?_map, g3]
    rfl
example := C10_compose_pipeline (α := XR ℚ) (ops := [Lag 1, SMA 2]) (by simp) (D := fun x => x.skel = .leaf ())
  (.cons (D' := fun x => x.skel = .leaf ()) (Lib.basic (.sma 2)).ok.sane (Lib.weaken (D' := (· = .leaf ())) (Lib.basic (.sma 2)) (by rintro _ rfl; rfl) fun _ h => h).ok.contract (Lib.weaken (D' := (· = .leaf ())) (Lib.basic (.sma 2)) (by rintro _ rfl; rfl) fun _ h => h).ok.post
    (.cons (Lib.basic (.lag 1)).ok.sane (Lib.weaken (D' := (· = .leaf ())) (Lib.basic (.lag 1)) (by rintro _ rfl; rfl) fun _ h => h).ok.contract (Lib.weaken (D' := (· = .leaf ())) (Lib.basic (.lag 1)) (by rintro _ rfl; rfl) fun _ h => h).ok.post (.nil _)))
  (by simp only [List.mem_cons, List.not_mem_nil, or_false]; rintro op (rfl | rfl)
      · exact (Lib.basic (.lag 1)).ok.uniform
      · exact (Lib.basic (.sma 2)).ok.uniform)
  (v := series [1, 2, 5]) (nums_ok _).1 (by intro x h; cases h; rfl) (z := series [0, 0, 3 / 2]) (sfs := [.tup [vI 3, series [5, 2]], series [7 / 2]]) (s0s := [.tup [vI 0, series [0, 0]], series [0]])
  (.cons (y := series [0, 3 / 2, 7 / 2]) (by decide +kernel) (.cons (by decide +kernel) (.nil _)))

/-- **C10 for the operators of the library.** -/
theorem C10_compose_pipeline_library [TFNum α] {ops : List (Operator α)} (hne : ops ≠ []) {Ds : Nat → PyVal Unit → Prop}
    (hlib : ∀ k (hk : k < ops.reverse.length), Lib ops.reverse[k] (Ds k) (Ds (k + 1))) {v z : Val α} (hw : v.WF)
    (hD : Ds 0 v.skel) {sfs s0s : List (Val α)}
    (h : Pipeline ops.reverse (List.replicate ops.length none) v z sfs s0s) :
    call (Compose ops) v none = .ok (z, .tup sfs, .tup s0s) := by
  refine C10_compose_pipeline hne (D := fun x => Ds 0 x.skel)
    (chain_of 0 fun k hk => by simpa using (hlib k hk).ok) ?_ hw ?_ h
  · intro op h
    obtain ⟨k, hk, rfl⟩ := List.mem_iff_getElem.1 (List.mem_reverse.2 h)
    exact (hlib k hk).ok.uniform
  · intro x hx
    rw [sliceAt_skel hx]; exact hD

/-- C10 is not vacuous: `Compose(Lag(1), SMA(2))` over 1, 2, 5 with all the intermediate results. -/
example : Pipeline [SMA 2, Lag 1] [none, none] (series [1, 2, 5]) (series [0, 0, 3 / 2])
    [.tup [vI 3, series [5, 2]], series [7 / 2]] [.tup [vI 0, series [0, 0]], series [0]] :=
  .cons (y := series [0, 3 / 2, 7 / 2]) (by decide +kernel) (.cons (by decide +kernel) (.nil _))

/-- Both sides of C11, in execution order, simulate each other. -/
theorem nest_sim {cs bs as : List (Operator α)} (hb : bs ≠ []) (hop : ∀ op ∈ cs ++ bs ++ as, op.Sane) :
    Sim (Compose (cs ++ Compose bs.reverse :: as).reverse) (Compose (cs ++ bs ++ as).reverse)
      (NestState cs.length bs.length as.length) ∧
    Sim (Compose (cs ++ bs ++ as).reverse) (Compose (cs ++ Compose bs.reverse :: as).reverse)
      (fun s s' => NestState cs.length bs.length as.length s' s) := by
  have hop' : ∀ op ∈ cs ++ Compose bs.reverse :: as, op.Sane := by
    intro op h
    simp only [List.mem_append, List.mem_cons] at h hop
    rcases h with h | rfl | h
    · exact hop op (.inl (.inl h))
    · exact Compose_sane fun op h => hop op (.inl (.inr (by simpa using h)))
    · exact hop op (.inr h)
  have ne1 : cs ++ Compose bs.reverse :: as ≠ [] := by simp
  have ne2 : cs ++ bs ++ as ≠ [] := by simp [hb]
  have r1 : List.replicate (cs ++ Compose bs.reverse :: as).length (none : Option (Val α)) =
      List.replicate cs.length none ++ none :: List.replicate as.length none := by
    rw [← List.replicate_succ, List.replicate_append_replicate]; simp
  have r2 : List.replicate (cs ++ bs ++ as).length (none : Option (Val α)) =
      List.replicate cs.length none ++ List.replicate bs.length none ++ List.replicate as.length none := by
    simp [Nat.add_assoc]
  have nest := fun {x : Val α} {o : Val α} (hx : x.WF) => composeLoop_nest (o := o) hb hop
    (stc := List.replicate cs.length none) (stb := List.replicate bs.length none) (sta := List.replicate as.length none)
    (stn := none) (by simp) (by simp) (by simp) (.inl ⟨rfl, rfl⟩) (by simp) hx
  have nestS := fun {x : Val α} {o : Val α} (hx : x.WF) {sc sb sa : List (Val α)} (h1 : sc.length = cs.length)
    (h2 : sb.length = bs.length) (h3 : sa.length = as.length) (hw : ∀ t ∈ sc ++ sb ++ sa, t.WF) =>
    composeLoop_nest (o := o) hb hop (stc := sc.map some) (stb := sb.map some) (sta := sa.map some)
    (stn := some (.tup sb)) (by simp [h1]) (by simp [h2]) (by simp [h3]) (.inr ⟨sb, rfl, rfl⟩) (by
      intro st hst s hs
      rw [← List.map_append, ← List.map_append] at hst
      obtain ⟨t, ht, rfl⟩ := List.mem_map.1 hst
      cases hs
      exact hw _ ht) hx
  have wfn : ∀ {sc sb sa : List (Val α)}, (∀ t ∈ sc ++ sb ++ sa, t.WF) → ∀ t ∈ sc ++ .tup sb :: sa, t.WF := by
    intro sc sb sa hw t ht
    simp only [List.mem_append, List.mem_cons] at ht hw
    rcases ht with h | rfl | h
    · exact hw t (.inl (.inl h))
    · exact WF_tup.2 fun u hu => hw u (.inl (.inr hu))
    · exact hw t (.inr h)
  constructor
  · refine ⟨?_, ?_, fun s s' h _ => h.wf.2, fun s s' h => h.tensors.1, fun s s' t t' h h' => (h.types h').1⟩
    · intro x o n i hx h
      rw [compose_call_none_iff ne1 hx, r1] at h
      obtain ⟨o', ns, is, h1, h2⟩ := h
      cases h2
      obtain ⟨ns', is', g1, g2, g3⟩ := (nest hx).1 h1
      exact ⟨.tup ns', .tup is', (compose_call_none_iff ne2 hx).2 ⟨o, ns', is', r2 ▸ g1, rfl⟩, g2, g3⟩
    · rintro x s s' o n i hx ⟨sc, sb, sa, l1, l2, l3, hw, rfl, rfl⟩ h
      rw [compose_call_some_iff hop' ne1 hx (wfn hw) (by simp [l1, l3])] at h
      obtain ⟨o', ns, is, h1, h2⟩ := h
      cases h2
      obtain ⟨ns', is', g1, g2, g3⟩ := (nestS hx l1 l2 l3 hw).1 (by simpa using h1)
      exact ⟨.tup ns', .tup is', (compose_call_some_iff hop ne2 hx hw (by simp [l1, l2, l3])).2
        ⟨o, ns', is', by simpa using g1, rfl⟩, g2, g3⟩
  · refine ⟨?_, ?_, fun s s' h _ => h.wf.1, fun s s' h => h.tensors.2, fun s s' t t' h h' => (h.types h').2⟩
    · intro x o n i hx h
      rw [compose_call_none_iff ne2 hx, r2] at h
      obtain ⟨o', ns, is, h1, h2⟩ := h
      cases h2
      obtain ⟨ns', is', g1, g2, g3⟩ := (nest hx).2 h1
      exact ⟨.tup ns', .tup is', (compose_call_none_iff ne1 hx).2 ⟨o, ns', is', r1 ▸ g1, rfl⟩, g2, g3⟩
    · rintro x s s' o n i hx ⟨sc, sb, sa, l1, l2, l3, hw, rfl, rfl⟩ h
      rw [compose_call_some_iff hop ne2 hx hw (by simp [l1, l2, l3])] at h
      obtain ⟨o', ns, is, h1, h2⟩ := h
      cases h2
      obtain ⟨ns', is', g1, g2, g3⟩ := (nestS hx l1 l2 l3 hw).2 (by simpa using h1)
      exact ⟨.tup ns', .tup is', (compose_call_some_iff hop' ne1 hx (wfn hw) (by simp [l1, l3])).2
        ⟨o, ns', is', by simpa using g1, rfl⟩, g2, g3⟩

section nesting
variable {as bs cs : List (Operator α)}

theorem nest_sim' (hb : bs ≠ []) (hop : ∀ op ∈ as ++ bs ++ cs, op.Sane) :
    Sim (Compose (as ++ Compose bs :: cs)) (Compose (as ++ bs ++ cs)) (NestState cs.length bs.length as.length) ∧
    Sim (Compose (as ++ bs ++ cs)) (Compose (as ++ Compose bs :: cs))
      (fun s s' => NestState cs.length bs.length as.length s' s) := by
  have := @nest_sim α cs.reverse bs.reverse as.reverse (by simpa using hb) (by
    intro op h
    refine hop op ?_
    simp only [List.mem_append, List.mem_reverse] at h ⊢
    tauto)
  simpa using this

/-- **C11 Compose is associative, one step.**  An inner `Compose` anywhere among the operators can be
dissolved: with no state, and with states that agree up to this bracketing (`NestState`), both make the
same step.  `Compose(f, Compose(g, h))` is the case `as = [f], bs = [g, h], cs = []` and
`Compose(Compose(f, g), h)` the case `as = [], bs = [f, g], cs = [h]`. -/
theorem C11_compose_assoc_step (hb : bs ≠ []) (hop : ∀ op ∈ as ++ bs ++ cs, op.Sane) {x : Val α} (hx : x.WF)
    {st st' : Option (Val α)} (hst : (st = none ∧ st' = none) ∨
      ∃ s s', st = some s ∧ st' = some s' ∧ NestState cs.length bs.length as.length s s') :
    (∀ o n i, call (Compose (as ++ Compose bs :: cs)) x st false = .ok (o, n, i) →
      ∃ n' i', call (Compose (as ++ bs ++ cs)) x st' false = .ok (o, n', i') ∧
        NestState cs.length bs.length as.length n n' ∧ NestState cs.length bs.length as.length i i') ∧
    (∀ o n' i', call (Compose (as ++ bs ++ cs)) x st' false = .ok (o, n', i') →
      ∃ n i, call (Compose (as ++ Compose bs :: cs)) x st false = .ok (o, n, i) ∧
        NestState cs.length bs.length as.length n n' ∧ NestState cs.length bs.length as.length i i') := by
  have h := nest_sim' hb hop
  rcases hst with ⟨rfl, rfl⟩ | ⟨s, s', rfl, rfl, hR⟩
  · exact ⟨fun o n i => h.1.fresh x o n i hx, fun o n i => h.2.fresh x o n i hx⟩
  · exact ⟨fun o n i => h.1.next x s s' o n i hx hR, fun o n i => h.2.next x s' s o n i hx hR⟩
example := C11_compose_assoc_step (α := XR ℚ) (as := [Lag 1]) (bs := [Lag 1, SMA 2]) (cs := []) (by simp)
  (by simp only [List.append_nil, List.mem_append, List.mem_cons, List.not_mem_nil, or_false]; rintro op (rfl | rfl | rfl)
      · exact (Lib.basic (.lag 1)).ok.sane
      · exact (Lib.basic (.lag 1)).ok.sane
      · exact (Lib.basic (.sma 2)).ok.sane)
  (x := vS (.fin 3)) (by simp [vS]) (st := none) (st' := none) (.inl ⟨rfl, rfl⟩)

/-- **C11 Compose is associative, whole series.** -/
theorem C11_compose_assoc_stream (hb : bs ≠ []) (hop : ∀ op ∈ as ++ bs ++ cs, op.Sane ∧ op.Uniform) {v : Val α} (hw : v.WF)
    {st st' : Option (Val α)} (hst : (st = none ∧ st' = none) ∨
      ∃ s s', st = some s ∧ st' = some s' ∧ NestState cs.length bs.length as.length s s') :
    (∀ o n i, call (Compose (as ++ Compose bs :: cs)) v st = .ok (o, n, i) →
      ∃ n' i', call (Compose (as ++ bs ++ cs)) v st' = .ok (o, n', i') ∧
        NestState cs.length bs.length as.length n n' ∧ NestState cs.length bs.length as.length i i') ∧
    (∀ o n' i', call (Compose (as ++ bs ++ cs)) v st' = .ok (o, n', i') →
      ∃ n i, call (Compose (as ++ Compose bs :: cs)) v st = .ok (o, n, i) ∧
        NestState cs.length bs.length as.length n n' ∧ NestState cs.length bs.length as.length i i') := by
  have h := nest_sim' hb fun op h => (hop op h).1
  have hop' : ∀ op ∈ as ++ Compose bs :: cs, op.Sane ∧ op.Uniform := by
    intro op h
    simp only [List.mem_append, List.mem_cons] at h hop
    rcases h with h | rfl | h
    · exact hop op (.inl (.inl h))
    · exact ⟨Compose_sane fun op h => (hop op (.inl (.inr h))).1, Compose_uniform fun op h => hop op (.inl (.inr h))⟩
    · exact hop op (.inr h)
  have s1 : (Compose (as ++ Compose bs :: cs)).Sane := Compose_sane fun op h => (hop' op h).1
  have u1 : (Compose (as ++ Compose bs :: cs)).Uniform := Compose_uniform hop'
  have s2 : (Compose (as ++ bs ++ cs)).Sane := Compose_sane fun op h => (hop op h).1
  have u2 : (Compose (as ++ bs ++ cs)).Uniform := Compose_uniform hop
  have w1 : ∀ s ∈ st, s.WF := by
    rcases hst with ⟨rfl, rfl⟩ | ⟨s, s', rfl, rfl, hR⟩
    · simp
    · rintro _ ⟨⟩; exact hR.wf.1
  have w2 : ∀ s ∈ st', s.WF := by
    rcases hst with ⟨rfl, rfl⟩ | ⟨s, s', rfl, rfl, hR⟩
    · simp
    · rintro _ ⟨⟩; exact hR.wf.2
  constructor
  · intro o n i hc
    exact h.1.call s1 u1 s2 u2 hw w1 hst hc
  · intro o n i hc
    refine h.2.call s2 u2 s1 u1 hw w2 ?_ hc
    rcases hst with ⟨rfl, rfl⟩ | ⟨s, s', rfl, rfl, hR⟩
    · exact .inl ⟨rfl, rfl⟩
    · exact .inr ⟨s', s, rfl, rfl, hR⟩

end nesting

/-- C11 is not vacuous: the two nestings and the flat version over 1, 2, 5, with their states. -/
example : call (Compose [Lag 1, Compose [Lag 1, SMA 2]]) (series [1, 2, 5]) =
    .ok (series [0, 0, 0], .tup [.tup [.tup [vI 3, series [5, 2]], series [7 / 2]], series [3 / 2]],
      .tup [.tup [.tup [vI 0, series [0, 0]], series [0]], series [0]]) := by decide +kernel
example : call (Compose [Compose [Lag 1, Lag 1], SMA 2]) (series [1, 2, 5]) =
    .ok (series [0, 0, 0], .tup [.tup [vI 3, series [5, 2]], .tup [series [7 / 2], series [3 / 2]]],
      .tup [.tup [vI 0, series [0, 0]], .tup [series [0], series [0]]]) := by decide +kernel
example : call (Compose [Lag 1, Lag 1, SMA 2]) (series [1, 2, 5]) =
    .ok (series [0, 0, 0], .tup [.tup [vI 3, series [5, 2]], series [7 / 2], series [3 / 2]],
      .tup [.tup [vI 0, series [0, 0]], series [0], series [0]]) := by decide +kernel

theorem compose_singleton_step {f : Operator α} {x : Val α} (hx : x.WF) {st : Option (Val α)} (hst : ∀ s ∈ st, s.WF)
    {o n i : Val α} : call (Compose [f]) x (st.map fun s => .tup [s]) false = .ok (o, n, i) ↔
      ∃ n' i', call f x st false = .ok (o, n', i') ∧ n = .tup [n'] ∧ i = .tup [i'] := by
  have key : call (Compose [f]) x (st.map fun s => .tup [s]) false = .ok (o, n, i) ↔
      (∀ s ∈ st, Tensors s) ∧ Tensors x ∧ ∃ o' ns is, composeLoop [(f, st)] x = .ok (o', ns, is) ∧ (o, n, i) = (o', .tup ns, .tup is) := by
    rw [call_step_ok hx (by
      intro t ht
      obtain ⟨s, hs, rfl⟩ := Option.map_eq_some_iff.1 ht
      exact WF_tup.2 (by simpa using hst s hs))]
    have := @compose_ok α [f] x (st.map fun s => .tup [s]) (o, n, i)
    simp only [List.reverse_cons, List.reverse_nil, List.nil_append] at this
    rw [this]
    cases st with
    | none =>
      simp only [Option.map_none, opStates_none]
      constructor
      · rintro ⟨h1, -, sts, o', ns, is, h2, h3, h4, h5⟩
        cases h2
        exact ⟨by simp, h1, o', ns, is, h4, h5⟩
      · rintro ⟨-, h1, o', ns, is, h4, h5⟩
        exact ⟨h1, by simp, _, o', ns, is, rfl, by simp, h4, h5⟩
    | some s =>
      simp only [Option.map_some, opStates_tup]
      constructor
      · rintro ⟨h1, h0, sts, o', ns, is, h2, h3, h4, h5⟩
        cases h2
        refine ⟨?_, h1, o', ns, is, h4, h5⟩
        rintro _ ⟨⟩
        exact tensors_tup.1 (h0 _ rfl) s (by simp)
      · rintro ⟨h0, h1, o', ns, is, h4, h5⟩
        refine ⟨h1, ?_, _, o', ns, is, rfl, by simp, h4, h5⟩
        rintro _ ⟨⟩
        exact tensors_tup.2 (by simpa using h0 s rfl)
  rw [key]
  constructor
  · rintro ⟨-, -, o', ns, is, h, e⟩
    cases e
    obtain ⟨o1, n', i', ns', is', h1, h2, rfl, rfl⟩ := composeLoop_cons_ok.1 h
    cases h2
    exact ⟨n', i', h1, rfl, rfl⟩
  · rintro ⟨n', i', h, rfl, rfl⟩
    have ht := call_ok_tensors hx hst h
    exact ⟨ht.2, ht.1, o, [n'], [i'], composeLoop_cons_ok.2 ⟨o, n', i', [], [], h, rfl, rfl, rfl⟩, rfl⟩

/-- **C11 `Compose(f)` is `f`, one step** (its states are wrapped in a one-element tuple). -/
theorem C11_compose_single_step {f : Operator α} {x : Val α} (hx : x.WF) {st : Option (Val α)} (hst : ∀ s ∈ st, s.WF)
    (o : Val α) : (∃ n i, call (Compose [f]) x (st.map fun s => .tup [s]) false = .ok (o, .tup [n], .tup [i])) ↔
      ∃ n i, call f x st false = .ok (o, n, i) := by
  constructor
  · rintro ⟨n, i, h⟩
    obtain ⟨n', i', h, -⟩ := (compose_singleton_step hx hst).1 h
    exact ⟨n', i', h⟩
  · rintro ⟨n, i, h⟩
    exact ⟨n, i, (compose_singleton_step hx hst).2 ⟨n, i, h, rfl, rfl⟩⟩
example := C11_compose_single_step (α := XR ℚ) (f := SMA 2) (x := vS (.fin 3)) (by simp [vS]) (st := some (.tup [vI 3, series [5, 2]])) (by simp [WF_tup])

/-- **C11 `Compose(f)` is `f`, whole series.** -/
theorem C11_compose_single_stream {f : Operator α} (hs : f.Sane) (hu : f.Uniform) {v : Val α} (hw : v.WF)
    {st : Option (Val α)} (hst : ∀ s ∈ st, s.WF) (o n i : Val α) :
    call (Compose [f]) v (st.map fun s => .tup [s]) = .ok (o, n, i) ↔
      ∃ n' i', call f v st = .ok (o, n', i') ∧ n = .tup [n'] ∧ i = .tup [i'] := by
  have sim1 : Sim (Compose [f]) f (fun s s' => s = .tup [s'] ∧ s'.WF) := by
    refine ⟨?_, ?_, fun s s' h _ => h.2, ?_, ?_⟩
    · intro x o n i hx h
      obtain ⟨n', i', h', rfl, rfl⟩ := (compose_singleton_step (st := none) hx (by simp)).1 h
      have w := hs.call hx (by simp) h'
      exact ⟨n', i', h', ⟨rfl, w.2.1⟩, ⟨rfl, w.2.2⟩⟩
    · rintro x _ s' o n i hx ⟨rfl, hw⟩ h
      have hsw : ∀ t ∈ some s', t.WF := by rintro _ ⟨⟩; exact hw
      obtain ⟨n', i', h', rfl, rfl⟩ := (compose_singleton_step (st := some s') hx hsw).1 h
      have w := hs.call hx hsw h'
      exact ⟨n', i', h', ⟨rfl, w.2.1⟩, ⟨rfl, w.2.2⟩⟩
    · rintro _ s' ⟨rfl, -⟩ h
      exact tensors_tup.1 h s' (by simp)
    · rintro _ s' _ t' ⟨rfl, -⟩ ⟨rfl, -⟩ h
      have := sameType_tup_iff.1 h
      simpa [SameType] using this
  have sim2 : Sim f (Compose [f]) (fun s s' => s' = .tup [s] ∧ s.WF) := by
    refine ⟨?_, ?_, ?_, ?_, ?_⟩
    · intro x o n i hx h
      have w := hs.call hx (by simp) h
      exact ⟨_, _, (compose_singleton_step (st := none) hx (by simp)).2 ⟨n, i, h, rfl, rfl⟩, ⟨rfl, w.2.1⟩, ⟨rfl, w.2.2⟩⟩
    · rintro x s _ o n i hx ⟨rfl, hw⟩ h
      have hsw : ∀ t ∈ some s, t.WF := by rintro _ ⟨⟩; exact hw
      have w := hs.call hx hsw h
      exact ⟨_, _, (compose_singleton_step (st := some s) hx hsw).2 ⟨n, i, h, rfl, rfl⟩, ⟨rfl, w.2.1⟩, ⟨rfl, w.2.2⟩⟩
    · rintro s _ ⟨rfl, h⟩ -
      exact WF_tup.2 (by simpa using h)
    · rintro s _ ⟨rfl, -⟩ h
      exact tensors_tup.2 (by simpa using h)
    · rintro s _ t _ ⟨rfl, -⟩ ⟨rfl, -⟩ h
      exact sameType_tup_iff.2 (by simpa [SameType] using h)
  have hs' : (Compose [f]).Sane := Compose_sane (by simpa using hs)
  have hu' : (Compose [f]).Uniform := Compose_uniform (by simpa using ⟨hs, hu⟩)
  constructor
  · intro h
    obtain ⟨n', i', h, e1, e2⟩ := sim1.call hs' hu' hs hu hw (st' := st) (by
      intro t ht
      obtain ⟨s, h, rfl⟩ := Option.map_eq_some_iff.1 ht
      exact WF_tup.2 (by simpa using hst s h)) (by
      cases st with
      | none => exact .inl ⟨rfl, rfl⟩
      | some s => exact .inr ⟨_, s, rfl, rfl, rfl, hst s rfl⟩) h
    exact ⟨n', i', h, e1.1, e2.1⟩
  · rintro ⟨n', i', h, rfl, rfl⟩
    obtain ⟨n, i, h, ⟨rfl, -⟩, ⟨rfl, -⟩⟩ := sim2.call hs hu hs' hu' hw (st' := st.map fun s => .tup [s]) hst (by
      cases st with
      | none => exact .inl ⟨rfl, rfl⟩
      | some s => exact .inr ⟨s, _, rfl, rfl, rfl, hst s rfl⟩) h
    exact h
example := C11_compose_single_stream (α := XR ℚ) (f := SMA 2) (Lib.basic (.sma 2)).ok.sane (Lib.basic (.sma 2)).ok.uniform (v := series [1, 2]) (nums_ok _).1
  (st := some (.tup [vI 3, series [5, 2]])) (by simp [WF_tup])

/-- **C11 `Compose()` of nothing fails** on every input, with every state, streamed or not. -/
theorem C11_compose_empty (x : Val α) (st : Option (Val α)) (b : Bool) (r : Step α) : call (Compose []) x st b ≠ .ok r := by
  have hf : ∀ x st r, (Compose ([] : List (Operator α))).forwardStep x st ≠ .ok r := by
    intro x st r h
    have := (@compose_ok α [] x st r).1 (by simpa using h)
    obtain ⟨sts, o, ns, is, -, h, -⟩ := this
    simp at h
  intro h
  rw [call] at h
  obtain ⟨x', -, h⟩ := bind_eq_ok.1 h
  have h' : ∃ st', (if b then callStreamed (Compose []) x' st' else (Compose []).forwardStep x' st') = .ok r := by
    cases st with
    | none => exact ⟨none, h⟩
    | some s =>
      dsimp only at h
      obtain ⟨s', -, h⟩ := bind_eq_ok.1 h
      exact ⟨_, h⟩
  obtain ⟨st', h⟩ := h'
  cases b with
  | false => exact hf _ _ _ h
  | true =>
    simp only [if_true, callStreamed] at h
    obtain ⟨sizes, -, h⟩ := bind_eq_ok.1 h
    cases sizes with
    | nil => cases h
    | cons n sizes =>
      dsimp only at h
      split at h
      · cases h
      · obtain ⟨x0, -, h⟩ := bind_eq_ok.1 h
        obtain ⟨r0, h0, -⟩ := bind_eq_ok.1 h
        exact hf _ _ _ h0
example := C11_compose_empty (α := XR ℚ) (series [1, 2]) none true

end TS
