import Verif.Spec.Meta
import Verif.Props.Streaming
import Verif.Lemmas.MetaRegular
/-
Streaming `Compose` and `Join` in terms of streaming their operators.
-/
namespace TS
open PyVal
variable {α : Type}
set_option linter.unusedSimpArgs false

theorem call_isSeries {op : Operator α} {v : Val α} {st : Option (Val α)} {r : Step α} (hw : v.WF) (hst : ∀ s ∈ st, s.WF)
    (h : call op v st = .ok r) : flatten v ≠ [] ∧ ∃ x xs, IsSeries v (x :: xs) := by
  have ht := call_ok_tensors hw hst h
  rw [call_eq true hw ht.1 fun s hs => ⟨hst s hs, ht.2 s hs⟩] at h
  simp only [if_true] at h
  obtain ⟨hl, xs, hx, hin⟩ := callStreamed_isSeries hw h
  obtain ⟨x, xs, rfl⟩ := List.exists_cons_of_ne_nil hx
  exact ⟨hl, x, xs, hin⟩

/-- Stepping a chain of operators over slices. -/
def chainAll (ops : List (Operator α)) : List (Val α) → List (Val α) → Res (List (Val α × List (Val α)))
  | [], _ => .ok []
  | x :: xs, ss => do
    let (o, ns, _) ← composeLoop (ops.zip (ss.map some)) x
    let tr ← chainAll ops xs ns
    .ok ((o, ns) :: tr)

theorem chainAll_cons_ok {ops : List (Operator α)} {x : Val α} {xs ss : List (Val α)} {tr} :
    chainAll ops (x :: xs) ss = .ok tr ↔ ∃ o ns is tr', composeLoop (ops.zip (ss.map some)) x = .ok (o, ns, is) ∧
      chainAll ops xs ns = .ok tr' ∧ tr = (o, ns) :: tr' := by
  simp only [chainAll, bind_eq_ok, Except.ok.injEq]
  constructor
  · rintro ⟨⟨o, n, i⟩, h1, tr', h2, rfl⟩; exact ⟨o, n, i, tr', h1, h2, rfl⟩
  · rintro ⟨o, n, i, tr', h1, h2, rfl⟩; exact ⟨(o, n, i), h1, tr', h2, rfl⟩

theorem chainAll_nil_ops {xs : List (Val α)} : chainAll ([] : List (Operator α)) xs [] = .ok (xs.map fun x => (x, [])) := by
  induction xs with
  | nil => rfl
  | cons x xs ih => exact chainAll_cons_ok.2 ⟨x, [], [], _, rfl, ih, rfl⟩

theorem chainAll_length {ops : List (Operator α)} {xs ss : List (Val α)} {tr} (h : chainAll ops xs ss = .ok tr) :
    tr.length = xs.length := by
  induction xs generalizing ss tr with
  | nil => cases h; rfl
  | cons x xs ih =>
    obtain ⟨o, ns, is, tr', h1, h2, rfl⟩ := chainAll_cons_ok.1 h
    simp [ih h2]

theorem chainAll_cons {op : Operator α} {ops : List (Operator α)} : ∀ {xs ss : List (Val α)} {s : Val α} {tr1 tr2},
    stepAll op xs s = .ok tr1 → chainAll ops (tr1.map (·.1)) ss = .ok tr2 →
    chainAll (op :: ops) xs (s :: ss) = .ok (List.zipWith (fun e1 e2 => (e2.1, e1.2 :: e2.2)) tr1 tr2) := by
  intro xs
  induction xs with
  | nil => intro ss s tr1 tr2 h1 h2; cases h1; cases h2; rfl
  | cons x xs ih =>
    intro ss s tr1 tr2 h1 h2
    obtain ⟨o, n, i, tr1', a1, a2, rfl⟩ := stepAll_cons_ok.1 h1
    obtain ⟨z, ns, is, tr2', b1, b2, rfl⟩ := chainAll_cons_ok.1 h2
    refine chainAll_cons_ok.2 ⟨z, n :: ns, i :: is, _, ?_, ih a2 b2, rfl⟩
    rw [List.map_cons, List.zip_cons_cons]
    exact composeLoop_cons_ok.2 ⟨o, n, i, ns, is, a1, b1, rfl, rfl⟩

theorem composeLoop_tensors {ops : List (Operator α)} (hop : ∀ op ∈ ops, op.Sane) :
    ∀ {ss : List (Val α)} {x o : Val α} {ns is : List (Val α)}, x.WF → (∀ s ∈ ss, s.WF) → ss.length = ops.length →
    composeLoop (ops.zip (ss.map some)) x = .ok (o, ns, is) → ∀ s ∈ ss, Tensors s := by
  induction ops with
  | nil => intro ss x o ns is _ _ hl _; have : ss = [] := by simpa using hl
           simp [this]
  | cons op ops ih =>
    intro ss x o ns is hx hs hl h
    cases ss with
    | nil => simp at hl
    | cons s ss =>
      rw [List.map_cons, List.zip_cons_cons] at h
      obtain ⟨o1, n, i, ns', is', h1, h2, rfl, rfl⟩ := composeLoop_cons_ok.1 h
      have hsw : ∀ t ∈ some s, t.WF := by rintro _ ⟨⟩; exact hs s (by simp)
      have w := (hop op (by simp)).call hx hsw h1
      intro t ht
      rcases List.mem_cons.1 ht with rfl | ht
      · exact (call_ok_tensors hx hsw h1).2 _ rfl
      · exact ih (fun op h => hop op (by simp [h])) w.1 (fun s h => hs s (by simp [h])) (by simpa using hl) h2 t ht

theorem compose_call_some {ops : List (Operator α)} (hop : ∀ op ∈ ops, op.Sane) (hne : ops ≠ [])
    {ss : List (Val α)} {x o : Val α} {ns is : List (Val α)} (hx : x.WF) (hs : ∀ s ∈ ss, s.WF)
    (hl : ss.length = ops.length) (h : composeLoop (ops.zip (ss.map some)) x = .ok (o, ns, is)) :
    call (Compose ops.reverse) x (some (.tup ss)) false = .ok (o, .tup ns, .tup is) := by
  have ht := composeLoop_tensors hop hx hs hl h
  refine (call_step_ok hx ?_).2 ⟨?_, ?_, ?_⟩
  · rintro _ ⟨⟩; rw [WF_tup]; exact hs
  · cases ops with
    | nil => exact absurd rfl hne
    | cons op ops =>
      cases ss with
      | nil => simp at hl
      | cons s ss =>
        rw [List.map_cons, List.zip_cons_cons] at h
        obtain ⟨o1, n, i, ns', is', h1, h2, rfl, rfl⟩ := composeLoop_cons_ok.1 h
        exact (call_ok_tensors hx (by rintro _ ⟨⟩; exact hs s (by simp)) h1).1
  · rintro _ ⟨⟩; rw [tensors_tup]; exact ht
  · refine compose_ok.2 ⟨_, o, ns, is, opStates_tup _ _, ?_, h, rfl⟩
    intro e
    have := congrArg List.length e
    simp only [List.length_zip, List.length_map, hl, List.length_nil, Nat.min_self] at this
    exact hne (List.length_eq_zero_iff.1 this)

theorem compose_call_none {ops : List (Operator α)} (hne : ops ≠ []) {x o : Val α} {ns is : List (Val α)} (hx : x.WF)
    (h : composeLoop (ops.zip (List.replicate ops.length none)) x = .ok (o, ns, is)) :
    call (Compose ops.reverse) x none false = .ok (o, .tup ns, .tup is) := by
  refine (call_step_ok hx (by simp)).2 ⟨?_, by simp, ?_⟩
  · cases ops with
    | nil => exact absurd rfl hne
    | cons op ops =>
      simp only [List.length_cons, List.replicate_succ, List.zip_cons_cons] at h
      obtain ⟨o1, n, i, ns', is', h1, h2, rfl, rfl⟩ := composeLoop_cons_ok.1 h
      exact (call_ok_tensors hx (by simp) h1).1
  · refine compose_ok.2 ⟨_, o, ns, is, opStates_none _, ?_, h, rfl⟩
    intro e
    have := congrArg List.length e
    simp at this
    exact hne this

theorem chainAll_stepAll {ops : List (Operator α)} (hop : ∀ op ∈ ops, op.Sane) (hne : ops ≠ []) :
    ∀ {xs ss : List (Val α)} {tr}, (∀ x ∈ xs, x.WF) → (∀ s ∈ ss, s.WF) → ss.length = ops.length →
    chainAll ops xs ss = .ok tr → stepAll (Compose ops.reverse) xs (.tup ss) = .ok (tr.map fun e => (e.1, .tup e.2)) := by
  intro xs
  induction xs with
  | nil => intro ss tr _ _ _ h; cases h; rfl
  | cons x xs ih =>
    intro ss tr hx hs hl h
    obtain ⟨o, ns, is, tr', h1, h2, rfl⟩ := chainAll_cons_ok.1 h
    have hxw := hx x (by simp)
    have hw := composeLoop_sane (fun p hp => hop p.1 (List.of_mem_zip hp).1) (fun p hp => by
      obtain ⟨s, hs', e⟩ := List.mem_map.1 (List.of_mem_zip hp).2
      rw [← e]; rintro _ ⟨⟩; exact hs s hs') hxw h1
    have l1 := (composeLoop_length h1).1
    simp [hl] at l1
    exact stepAll_cons_ok.2 ⟨o, .tup ns, .tup is, _, compose_call_some hop hne hxw hs hl h1,
      ih (fun x h => hx x (by simp [h])) hw.2.1 l1 h2, rfl⟩

/-- What `C01` says about the trace of one operator. -/
theorem pipeline_chain {ops : List (Operator α)} {sts : List (Option (Val α))} {v z : Val α} {sfs s0s : List (Val α)}
    (hp : Pipeline ops sts v z sfs s0s) : ∀ {x : Val α} {xs : List (Val α)}, v.WF → IsSeries v (x :: xs) →
    (∀ op ∈ ops, op.Sane ∧ op.Uniform) → (∀ st ∈ sts, ∀ s ∈ st, s.WF) →
    ∃ tr, chainAll ops (x :: xs) s0s = .ok tr ∧ IsSeries z (tr.map (·.1)) ∧ (tr.map (·.2)).getLast? = some sfs ∧
      (∀ e ∈ tr, List.Forall₂ SameType e.2 s0s) ∧ (∀ s ∈ s0s, s.WF ∧ Tensors s) ∧ s0s.length = ops.length := by
  induction hp with
  | nil v =>
    intro x xs hw hv _ _
    refine ⟨_, chainAll_nil_ops, ?_, ?_, ?_, by simp, rfl⟩
    · rw [List.map_map]; simpa [Function.comp_def] using hv
    · rw [List.map_map]
      cases h : xs.getLast? <;> simp [List.getLast?_cons, h]
    · intro e he
      obtain ⟨x, hx, rfl⟩ := List.mem_map.1 he
      exact .nil
  | @cons op ops st sts v y z sf s0 sfs s0s h rest ih =>
    intro x xs hw hv hop hst
    have hop1 := hop op (by simp)
    have hst1 := hst st (by simp)
    obtain ⟨hl, x', xs', hin, o, n, i, h1, rfl, h2, h3, tr, h4, h5, h6, h7⟩ :=
      (C01_streaming_eq_stepping hop1.1 hop1.2 hw hst1 _ _ _).1 h
    have e := hin.det hl hv
    simp only [List.cons.injEq] at e
    obtain ⟨rfl, rfl⟩ := e
    have hxw := hin.mem_WF hw
    have hsw : (st.getD i).WF := by
      have := hop1.1.call (hxw x' (by simp)) hst1 h1
      cases st with
      | none => exact this.2.2
      | some s => exact hst1 s rfl
    obtain ⟨o', n', i', tr', k1, k2, rfl⟩ := stepAll_cons_ok.1 h4
    have ho' := (hop1.1.call (hxw x' (by simp)) (by rintro _ ⟨⟩; exact hsw) k1).1
    have hyw : y.WF := (sliceAt_WF (by simpa using h6.slice 0 (by simp))).1 ho'
    obtain ⟨tr2, g1, g2, g3, g4, g5, g6⟩ := ih hyw (by simpa using h6) (fun op h => hop op (by simp [h]))
      (fun st h => hst st (by simp [h]))
    have len2 := chainAll_length g1
    have len1 := stepAll_length h4
    simp only [List.length_cons, List.length_map] at len1 len2
    refine ⟨_, chainAll_cons h4 (by simpa using g1), ?_, ?_, ?_, ?_, by simp [g6]⟩
    · have : List.map (·.1) (List.zipWith (fun (e1 : Val α × Val α) (e2 : Val α × List (Val α)) => (e2.1, e1.2 :: e2.2))
          ((o', n') :: tr') tr2) = tr2.map (·.1) := by
        refine List.ext_getElem (by simp [len2]) fun k a b => ?_
        simp
      rw [this]; exact g2
    · have hne : tr2 ≠ [] := by rintro rfl; simp at len2
      rw [List.getLast?_eq_getElem?] at h7 g3 ⊢
      simp only [List.length_map, List.length_zipWith, List.length_cons, List.getElem?_map] at h7 g3 ⊢
      rw [len2] at g3 ⊢
      simp only [Nat.min_self, Nat.add_sub_cancel] at h7 g3 ⊢
      rw [List.getElem?_zipWith]
      cases e1 : ((o', n') :: tr')[tr'.length]? with
      | none => rw [e1] at h7; cases h7
      | some a =>
        cases e2 : tr2[tr'.length]? with
        | none => rw [e2] at g3; cases g3
        | some b =>
          rw [e1] at h7; rw [e2] at g3
          cases h7; cases g3
          rfl
    · intro e he
      obtain ⟨k, hk, rfl⟩ := List.mem_iff_getElem.1 he
      rw [List.getElem_zipWith]
      exact .cons (h5 _ (List.getElem_mem _)).2 (g4 _ (List.getElem_mem _))
    · intro s hs
      rcases List.mem_cons.1 hs with rfl | hs
      · exact ⟨hsw, h2⟩
      · exact g5 s hs

theorem sameType_tup {as bs : List (Val α)} (h : List.Forall₂ SameType as bs) : SameType (.tup as) (.tup bs) := by
  simp only [SameType, map_node]
  congr 1
  induction h with
  | nil => rfl
  | cons h _ ih => simp [ih]; exact h

/-- The probe of the first slice without states. -/
theorem pipeline_fresh {D : Val α → Prop} {ops : List (Operator α)} (hc : ChainContract D ops) :
    ∀ {v z : Val α} {sfs s0s : List (Val α)}, Pipeline ops (List.replicate ops.length none) v z sfs s0s →
    ∀ {x : Val α} {xs : List (Val α)}, v.WF → IsSeries v (x :: xs) → D x → (∀ op ∈ ops, op.Uniform) →
    ∃ o ns, composeLoop (ops.zip (List.replicate ops.length none)) x = .ok (o, ns, s0s) := by
  induction hc with
  | nil D =>
    intro v z sfs s0s hp x xs _ _ _ _
    cases hp
    exact ⟨x, [], rfl⟩
  | @cons D D' op ops sane contract post rest ih =>
    intro v z sfs s0s hp x xs hw hv hD hu
    rw [List.length_cons, List.replicate_succ] at hp
    cases hp with
    | @cons _ _ _ _ _ y _ sf s0 sfs s0s h hrest =>
      obtain ⟨hl, x', xs', hin, o, n, i, h1, rfl, h2, h3, tr, h4, h5, h6, h7⟩ :=
        (C01_streaming_eq_stepping sane (hu op (by simp)) hw (by simp) _ _ _).1 h
      have e := hin.det hl hv
      simp only [List.cons.injEq] at e
      obtain ⟨rfl, rfl⟩ := e
      have hxw := hin.mem_WF hw x' (by simp)
      change stepAll op (x' :: xs') s0 = _ at h4
      obtain ⟨o', n', i', tr', k1, k2, rfl⟩ := stepAll_cons_ok.1 h4
      have := contract.call_fresh sane hxw hD h1
      rw [this] at k1
      cases k1
      have ho := (sane.call hxw (by simp) h1).1
      have hyw : y.WF := (sliceAt_WF (by simpa using h6.slice 0 (by simp))).1 ho
      obtain ⟨z', ns, g⟩ := ih hrest hyw (by simpa using h6)
        (post.fresh _ _ _ _ hxw hD ((call_step_ok hxw (by simp)).1 h1).2.2) (fun op h => hu op (by simp [h]))
      refine ⟨z', n :: ns, ?_⟩
      simp only [List.length_cons, List.replicate_succ, List.zip_cons_cons]
      exact composeLoop_cons_ok.2 ⟨o, n, _, ns, s0s, h1, g, rfl, rfl⟩

theorem ChainContract.sane {D : Val α → Prop} {ops : List (Operator α)} (hc : ChainContract D ops) : ∀ op ∈ ops, op.Sane := by
  induction hc with
  | nil D => simp
  | cons sane contract post rest ih =>
    intro op h
    rcases List.mem_cons.1 h with rfl | h
    · exact sane
    · exact ih op h

end TS
