import Verif.Props.Progress
import Verif.Props.Coordinates
import Verif.Props.Equations
import Verif.Props.RSI
import Verif.Props.Returns
import Verif.Props.Moments
/-
C68: what Map computes.
-/
namespace TS
open PyVal
variable {α : Type} [TFNum α]
set_option linter.unusedSimpArgs false

/-- What an operator does on series, step by step. -/
theorem StreamsAs.steps {A B : Type} [Nonempty A] {op : Operator α} {X O S} (hT : Typed op X O S) {ser : List A → Val α} {outs : List B → Val α} {y : List A → B}
    (hy : StreamsAs op ser outs y) {enc : A → Val α} (hser : ∀ l, (ser l).WF ∧ flatten (ser l) ≠ [] ∧ IsSeries (ser l) (l.map enc))
    (henc : ∀ a, HasSig (enc a) X) {dec : B → Val α} (houts : ∀ l, IsSeries (outs l) (l.map dec)) (hO : ∀ b, flatten (outs b) ≠ []) :
    ∃ st : List A → Val α, (∀ h, (st h).WF ∧ HasSig (st h) S) ∧ (∀ a, ∃ o n, call op (enc a) none false = .ok (o, n, st []) ∧ HasSig o O) ∧
      (∀ h a, ∃ i, call op (enc a) (some (st h)) false = .ok (dec (y (h ++ [a])), st (h ++ [a]), i)) := by
  obtain ⟨hop, hu⟩ := hT.regular
  obtain ⟨hst, i0, h0⟩ := hT.rooted
  obtain ⟨st, hf, hn⟩ := hy
  have hencw : ∀ a, (enc a).WF := fun a => (hser [a]).2.2.mem_WF (hser [a]).1 _ (by simp)
  have key : ∀ h, (st h).WF ∧ HasSig (st h) S := by
    have : ∀ h, h ≠ [] → ((st h).WF ∧ HasSig (st h) S) ∧ ((st []).WF ∧ HasSig (st []) S) := by
      intro h hh
      obtain ⟨I, hI, hs1, hs2⟩ := hst
      obtain ⟨z, sf, s0, os, h1, -, -, -, h5, h6⟩ := steady_call hI hs1 hs2 (hser h).1 (hser h).2.1 (hser h).2.2 (by simpa using hh)
        (by simp only [List.mem_map]; rintro _ ⟨a, -, rfl⟩; exact henc a) none (by simp)
      rw [hf h hh] at h1
      cases h1
      exact ⟨hI _ h5, hI _ h6⟩
    intro h
    rcases eq_or_ne h [] with rfl | hh
    · exact (this [Classical.arbitrary A] (by simp)).2
    · exact (this h hh).1
  refine ⟨st, key, fun a => ?_, fun h a => ?_⟩
  · obtain ⟨-, x, xs, hin, o, n, i, h1, h2, -⟩ := (C01_streaming_eq_stepping hop hu (hser [a]).1 (by simp) _ _ _).1 (hf [a] (by simp))
    have := hin.det (hser [a]).2.1 (hser [a]).2.2
    simp only [List.map_cons, List.map_nil, List.cons.injEq] at this
    obtain ⟨rfl, rfl⟩ := this
    change st [] = i at h2
    obtain ⟨o', n', h5, -, -, h6, -⟩ := rooted_call hst h0 (hencw a) (henc a)
    rw [h1] at h5; cases h5
    exact ⟨o, n, by rw [h2, h1], h6⟩
  · obtain ⟨-, x, xs, hin, o, n, i, h1, -, -, -, tr, h4, -, h6, h7⟩ :=
      (C01_streaming_eq_stepping hop hu (hser [a]).1 (by rintro _ ⟨⟩; exact (key h).1) _ _ _).1 (hn h [a] (by simp))
    have := hin.det (hser [a]).2.1 (hser [a]).2.2
    simp only [List.map_cons, List.map_nil, List.cons.injEq] at this
    obtain ⟨rfl, rfl⟩ := this
    simp only [stepAll, h1, bind, Except.bind, Except.ok.injEq] at h4
    subst h4
    simp only [List.map_cons, List.map_nil, List.getLast?_singleton, Option.some.injEq] at h7
    have := h6.det (hO _) (houts _)
    simp only [scan, List.map_cons, List.map_nil, List.length_cons, List.length_nil, List.range_succ, List.range_zero, List.nil_append, List.take_succ_cons, List.take_zero,
      List.cons.injEq, and_true, Nat.zero_add] at this
    exact ⟨i, by rw [h1, this, h7]⟩

/-- **C68 What Map computes.**  If `op` outputs `y` on every history, `Map(op, m)` outputs `y` on every column of the history. -/
theorem C68_map {A B A' B' : Type} [Nonempty A] {op : Operator α} {X O S} (hT : Typed op X O S) {ser : List A → Val α} {outs : List B → Val α} {y : List A → B}
    (hy : StreamsAs op ser outs y) {enc : A → Val α} (hser : ∀ l, (ser l).WF ∧ flatten (ser l) ≠ [] ∧ IsSeries (ser l) (l.map enc))
    (henc : ∀ a, HasSig (enc a) X) {dec : B → Val α} (houts : ∀ l, IsSeries (outs l) (l.map dec)) (hO : ∀ l, flatten (outs l) ≠ [])
    (hdec : ∀ b, (dec b).WF ∧ HasSig (dec b) O) {m : Nat} (hm : 0 < m)
    {ser' : List A' → Val α} {enc' : A' → Val α} (hser' : ∀ l, (ser' l).WF ∧ flatten (ser' l) ≠ [] ∧ IsSeries (ser' l) (l.map enc')) {col : A' → Fin m → A}
    (henc' : ∀ a, IsSeries (enc' a) (List.ofFn fun k => enc (col a k)))
    {outs' : List B' → Val α} {dec' : B' → Val α} (houts' : ∀ l, IsSeries (outs' l) (l.map dec')) {colB : B' → Fin m → B}
    (hdec' : ∀ b, IsSeries (dec' b) (List.ofFn fun k => dec (colB b k)))
    {y' : List A' → B'} (hy' : ∀ h k, colB (y' h) k = y (h.map fun a => col a k)) : StreamsAs (Map op (m : Int)) ser' outs' y' := by
  obtain ⟨hop, -⟩ := hT.regular
  obtain ⟨st, hst, hfirst, hnext⟩ := hy.steps hT hser henc houts hO
  have ne : ∀ {C : Type} (f : Fin m → C), List.ofFn f ≠ [] := by
    intro C f e
    have := congrArg List.length e
    simp at this
    omega
  have hS : ∀ h : List A', ∃ z, IsSeries z (List.ofFn fun k => st (h.map fun a => col a k)) := fun h => by
    obtain ⟨z, hz, -⟩ := exists_series (os := List.ofFn fun k => st (h.map fun a => col a k)) (ty := S) (by
      simp only [List.mem_ofFn]; rintro _ ⟨k, rfl⟩; exact (hst _).2)
    exact ⟨z, hz⟩
  choose ST hST using hS
  have wf_of : ∀ {v : Val α} {xs : List (Val α)}, IsSeries v xs → xs ≠ [] → (∀ x ∈ xs, x.WF) → v.WF := by
    intro v xs h hne hx
    have h0 := h.slice 0 (List.length_pos_iff.2 hne)
    exact (sliceAt_WF h0).1 (hx _ (List.getElem_mem _))
  have hSTw : ∀ h, (ST h).WF ∧ HasSig (ST h) (tMany m S) := fun h => by
    refine ⟨wf_of (hST h) (ne _) (by simp only [List.mem_ofFn]; rintro _ ⟨k, rfl⟩; exact (hst _).1), ?_⟩
    have := (hST h).hasSig (ne _) (X := S) (by simp only [List.mem_ofFn]; rintro _ ⟨k, rfl⟩; exact (hst _).2)
    simpa using this
  have hencw : ∀ a, (enc' a).WF ∧ Tensors (enc' a) := fun a => ⟨(hser' [a]).2.2.mem_WF (hser' [a]).1 _ (by simp), (henc' a).tensors⟩
  have hflat : ∀ a, flatten (enc' a) ≠ [] := by
    intro a e
    have h1 := (hser' [a]).2.2.slice 0 (by simp)
    have h2 := length_flatten_of_skel_eq (sliceAt_skel h1)
    simp only [List.map_cons, List.map_nil, List.getElem_cons_zero] at h2
    rw [e] at h2
    exact (hser' [a]).2.1 (List.length_eq_zero_iff.1 h2.symm)
  have hout : ∀ b, (dec' b).WF ∧ HasSig (dec' b) (tMany m O) := fun b => by
    refine ⟨wf_of (hdec' b) (ne _) (by simp only [List.mem_ofFn]; rintro _ ⟨k, rfl⟩; exact (hdec _).1), ?_⟩
    have := (hdec' b).hasSig (ne _) (X := O) (by simp only [List.mem_ofFn]; rintro _ ⟨k, rfl⟩; exact (hdec _).2)
    simpa using this
  -- one step
  have key : ∀ h a st', (∀ s ∈ st', s.WF) → MapPrev (m : Int) (st []) st' (ST h) →
      (Map op (m : Int)).forwardStep (enc' a) st' = .ok (dec' (y' (h ++ [a])), .tup [ST (h ++ [a])], .tup [ST h]) := by
    intro h a st' hst' hp
    obtain ⟨o, n, h1, h2⟩ := hfirst (col a ⟨0, hm⟩)
    have hx0 : sliceAt 0 (enc' a) = .ok (enc (col a ⟨0, hm⟩)) := by
      have := (henc' a).slice 0 (by simpa using hm)
      rwa [List.getElem_ofFn] at this
    refine (Map_ok hop (hencw a).1 hst').2 ⟨List.ofFn fun k => (enc (col a k), st (h.map fun a => col a k)), _, o, n, st [], ST h, O.map Prod.fst, (tMany m S).map Prod.fst,
      List.ofFn fun k => (dec (colB (y' (h ++ [a])) k), st ((h ++ [a]).map fun a => col a k)), _, _,
      ne _, by simp [hflat a], ?_, ?_, hx0, h1, hp, h2.hasType, (hSTw h).2.hasType, ?_, ?_, ?_, rfl⟩
    · rw [List.map_ofFn]; exact henc' a
    · rw [List.map_ofFn]; exact hST h
    · rw [RowsOK, List.forall₂_iff_get]
      refine ⟨by simp, fun k hk _ => ?_⟩
      simp only [List.get_eq_getElem, List.getElem_ofFn]
      obtain ⟨i, hi⟩ := hnext (h.map fun a => col a ⟨k, by simpa using hk⟩) (col a ⟨k, by simpa using hk⟩)
      refine ⟨mapRow_ok.2 ⟨i, ?_⟩, (hdec _).2.hasType, ?_⟩
      · rw [hi, hy']
        simp
      · have := (hst ((h ++ [a]).map fun a => col a ⟨k, by simpa using hk⟩)).2.hasType
        simpa [tMany, PyVal.map_map, Function.comp_def] using this
    · rw [List.map_ofFn]; exact hdec' _
    · rw [List.map_ofFn]; exact hST _
  have T : Tracks (Map op (m : Int)) Any enc' (fun h => dec' (y' h)) (fun h => .tup [ST h]) := by
    refine ⟨fun a _ => ?_, fun h a _ => ?_, hencw, ⟨_, fun h _ => hout _⟩, ⟨.tup [(tMany m S).map Prod.fst], fun h => ⟨WF_tup.2 (by simpa using (hSTw h).1), ?_⟩⟩⟩
    · refine key [] a none (by simp) ?_
      obtain ⟨w, hw1, hw2⟩ := tile_total (m := m) (hst []).2.tensors
      have := hST []
      simp only [List.map_nil, List.ofFn_const] at this
      rw [this.unique (by intro e; have := congrArg List.length e; simp at this; omega) hw2]
      exact hw1
    · exact key h a _ (by rintro _ ⟨⟩; exact WF_tup.2 (by simpa using (hSTw h).1)) rfl
    · exact hasType_tup (.cons (hSTw h).2.hasType .nil)
  exact T.streams hser' houts' fun _ => rfl

/-- A tensor of shape `m :: s` is the series of its rows. -/
theorem isSeries_rows {m : Nat} {s : List Nat} (x : Idx (m :: s) → α) : IsSeries (vF x) (List.ofFn fun k : Fin m => vF fun c : Idx s => x (k, c)) := by
  have := (isSeries_leaf (t := .f ⟨m :: s, x⟩) (ls := List.ofFn fun k : Fin m => .f ⟨s, fun c => x (k, c)⟩)).2
    ⟨by simp [Leaf.size0, Tensor.size0], fun i hi => by
      have hi' : i < m := by simpa using hi
      simp [Leaf.index, Tensor.index, hi']⟩
  rwa [List.map_ofFn] at this

theorem isSeries_intRows {m : Nat} {s : List Nat} (x : Idx (m :: s) → Int) : IsSeries (vIs x : Val α) (List.ofFn fun k : Fin m => vIs fun c : Idx s => x (k, c)) := by
  have := (isSeries_leaf (α := α) (t := .i ⟨m :: s, x⟩) (ls := List.ofFn fun k : Fin m => .i ⟨s, fun c => x (k, c)⟩)).2
    ⟨by simp [Leaf.size0, Tensor.size0], fun i hi => by
      have hi' : i < m := by simpa using hi
      simp [Leaf.index, Tensor.index, hi']⟩
  rwa [List.map_ofFn] at this

/-- The history of row `k`. -/
def rowOf {m : Nat} {s : List Nat} {β : Type} (k : Fin m) (h : List (Idx (m :: s) → β)) : List (Idx s → β) := h.map fun x c => x (k, c)

/-- **C68**, for operators from tensors to tensors: row `k` of the outputs is what `op` outputs on the history of row `k`, -/
theorem C68_map_tensors {op : Operator α} {s s' : List Nat} {S} (hT : Typed op (tF s) (tF s') S) {y : List (Idx s → α) → Idx s' → α}
    (hy : StreamsAs op (vBuf (s := s)) (vBuf (s := s')) y) {m : Nat} (hm : 0 < m) :
    StreamsAs (Map op (m : Int)) (vBuf (s := m :: s)) (vBuf (s := m :: s')) fun h c => y (rowOf c.1 h) c.2 := by
  haveI : Nonempty (Idx s → α) := ⟨fun _ => Arith.zero⟩
  exact C68_map hT hy rows_ok (fun _ => rfl) isSeries_vBuf (fun _ => by simp [flatten]) (fun _ => ⟨by simp, rfl⟩) hm rows_ok (col := fun x k c => x (k, c)) isSeries_rows
    isSeries_vBuf (colB := fun x k c => x (k, c)) isSeries_rows fun _ _ => rfl
example := C68_map_tensors (α := XR ℚ) (TypedIn.sma [2] (p := 3) (by norm_num)) (C25_sma (by norm_num) [2]) (m := 4) (by norm_num)

/-- from tensors to int tensors, -/
theorem C68_map_ints {op : Operator α} {s s' : List Nat} {S} (hT : Typed op (tF s) (tI s') S) {y : List (Idx s → α) → Idx s' → Int}
    (hy : StreamsAs op (vBuf (s := s)) (vIsBuf (s := s')) y) {m : Nat} (hm : 0 < m) :
    StreamsAs (Map op (m : Int)) (vBuf (s := m :: s)) (vIsBuf (s := m :: s')) fun h c => y (rowOf c.1 h) c.2 := by
  haveI : Nonempty (Idx s → α) := ⟨fun _ => Arith.zero⟩
  exact C68_map hT hy rows_ok (fun _ => rfl) isSeries_vIsBuf (fun _ => by simp [flatten]) (fun _ => ⟨by simp, rfl⟩) hm rows_ok (col := fun x k c => x (k, c)) isSeries_rows
    isSeries_vIsBuf (colB := fun x k c => x (k, c)) isSeries_intRows fun _ _ => rfl
example := C68_map_ints (α := XR ℚ) (.zeroCrossover [2]) (C33_zero_crossover_streams [2]) (m := 3) (by norm_num)

/-- and for operators from numbers to numbers: `Map` takes them to vectors. -/
theorem C68_map_numbers {op : Operator α} {S} (hT : Typed op (tF []) (tF []) S) {y : List α → α} (hy : StreamsAs op vSBuf vSBuf y) {m : Nat} (hm : 0 < m) :
    StreamsAs (Map op (m : Int)) (vBuf (s := [m])) (vBuf (s := [m])) fun h c => y (h.map (· c)) := by
  haveI : Nonempty α := ⟨Arith.zero⟩
  exact C68_map hT hy nums_ok (fun _ => rfl) isSeries_vSBuf (fun _ => by simp [flatten, vSBuf]) (fun _ => ⟨by simp, rfl⟩) hm rows_ok (col := fun x k => x (k, ())) isSeries_rows
    isSeries_vBuf (colB := fun x k => x (k, ())) isSeries_rows fun _ _ => rfl
example (k : Nat) (hk : 0 < k) := haveI : Nonempty (Idx [2] → XR ℚ) := ⟨fun _ => .fin 0⟩
  C68_map (α := XR ℚ) (.sma [2] (p := 3) (by norm_num)) (C25_sma (by norm_num) [2]) rows_ok (fun _ => rfl) isSeries_vBuf (fun _ => by simp [flatten]) (fun _ => ⟨by simp, rfl⟩) hk
  rows_ok (col := fun x k c => x (k, c)) isSeries_rows isSeries_vBuf (colB := fun x k c => x (k, c)) isSeries_rows (y' := fun h (c : Idx [k, 2]) => movingAvg 3 (rowOf c.1 h) c.2) fun _ _ => rfl
example := C68_map_numbers (α := XR ℚ) (TypedIn.localMaximum (p := 3) (by norm_num)) (C21_local_max_streams (p := 3) (by norm_num)) (m := 4) (by norm_num)

/-! ### Mapping an operator that works coordinate by coordinate changes nothing -/

theorem StreamsAs.mapSame {op : Operator α} {S : List Nat → PyVal (DType × List Nat)} (hT : ∀ s, Typed op (tF s) (tF s) (S s)) {y : ∀ s, List (Idx s → α) → Idx s → α}
    (hy : ∀ s, StreamsAs op (vBuf (s := s)) (vBuf (s := s)) (y s)) (g : List α → α) (hg : ∀ s k c, y s k c = g (k.map (· c))) {m : Nat} (hm : 0 < m) (s : List Nat) :
    SameStreams (Map op (m : Int)) op (vBuf (s := m :: s)) :=
  (C68_map_tensors (hT s) (hy s) hm).same (hy (m :: s)) fun k _ => by
    funext c
    rw [hg, hg, rowOf, List.map_map]
    rfl

/-- **C68 Mapping the elementwise operators.**  On rows of shape `m :: s`, `Map(op, m)` gives the same outputs as `op` itself: moving average, -/
theorem C68_map_sma {p : Nat} (hp : 0 < p) {m : Nat} (hm : 0 < m) (s : List Nat) :
    SameStreams (Map (SMA (p : Int)) (m : Int)) (SMA (p : Int) : Operator α) (vBuf (s := m :: s)) :=
  StreamsAs.mapSame (fun s => .sma s hp) (C25_sma hp) (movingAvg p) (fun _ k c => movingAvg_apply p k c) hm s
example := C68_map_sma (α := XR ℚ) (p := 2) (by norm_num) (m := 2) (by norm_num) [2]

/-- exponential average, -/
theorem C68_map_ema {p : Nat} (hp : 0 < p) {m : Nat} (hm : 0 < m) (s : List Nat) :
    SameStreams (Map (EMA (p : Int)) (m : Int)) (EMA (p : Int) : Operator α) (vBuf (s := m :: s)) :=
  StreamsAs.mapSame (fun s => .ema s hp) (C26_ema hp) (expAvg p) (fun _ k c => expAvg_apply p k c) hm s
example := C68_map_ema (α := XR ℚ) (p := 2) (by norm_num) (m := 2) (by norm_num) [2]

/-- rolling average, -/
theorem C68_map_rma {p : Nat} (hp : 0 < p) {m : Nat} (hm : 0 < m) (s : List Nat) :
    SameStreams (Map (RMA (p : Int)) (m : Int)) (RMA (p : Int) : Operator α) (vBuf (s := m :: s)) :=
  StreamsAs.mapSame (fun s => .rma s hp) (C27_rma hp) (rollAvg p) (fun _ k c => rollAvg_apply p k c) hm s
example := C68_map_rma (α := XR ℚ) (p := 2) (by norm_num) (m := 2) (by norm_num) [2]

/-- moving standard deviation, -/
theorem C68_map_msd {p : Nat} (hp : 0 < p) {m : Nat} (hm : 0 < m) (s : List Nat) :
    SameStreams (Map (MSD (p : Int)) (m : Int)) (MSD (p : Int) : Operator α) (vBuf (s := m :: s)) :=
  StreamsAs.mapSame (fun s => .msd s hp) (C29_msd_streams hp) (movingStd p) (fun _ k c => movingStd_apply p k c) hm s
example := C68_map_msd (α := XR ℚ) (p := 2) (by norm_num) (m := 2) (by norm_num) [2]

/-- lag, -/
theorem C68_map_lag {p : Nat} (hp : 0 < p) {m : Nat} (hm : 0 < m) (s : List Nat) :
    SameStreams (Map (Lag (p : Int)) (m : Int)) (Lag (p : Int) : Operator α) (vBuf (s := m :: s)) :=
  StreamsAs.mapSame (fun s => .lag .float s hp) (C17_lag_streams hp) (lagged Arith.zero p) (fun _ k c => lagged_apply p k c) hm s
example := C68_map_lag (α := XR ℚ) (p := 2) (by norm_num) (m := 2) (by norm_num) [2]

/-- momentum, -/
theorem C68_map_momentum {p : Nat} (hp : 0 < p) {m : Nat} (hm : 0 < m) (s : List Nat) :
    SameStreams (Map (Momentum (p : Int)) (m : Int)) (Momentum (p : Int) : Operator α) (vBuf (s := m :: s)) :=
  StreamsAs.mapSame (C56_momentum_typed hp) (C19_momentum_streams hp) (momentum p) (fun _ k c => by
    simp only [momentum, List.length_map]
    split
    · rfl
    · rw [sub_apply', lagged_apply, getLastD_apply]) hm s
example := C68_map_momentum (α := XR ℚ) (p := 2) (by norm_num) (m := 2) (by norm_num) [2]

/-- difference of two moving averages, -/
theorem C68_map_crossover {slow fast : Nat} (hs : 0 < slow) (hf : 0 < fast) {m : Nat} (hm : 0 < m) (s : List Nat) :
    SameStreams (Map (SMACrossover (slow : Int) fast) (m : Int)) (SMACrossover (slow : Int) fast : Operator α) (vBuf (s := m :: s)) :=
  StreamsAs.mapSame (C56_smaCrossover_typed hs hf) (C32_crossover hs hf) (smaDiff slow fast) (fun _ k c => by
    simp only [smaDiff, sub_apply', movingAvg_apply, List.length_map]
    congr 1
    split
    · rfl
    · rw [movingAvg_apply]) hm s
example := C68_map_crossover (α := XR ℚ) (slow := 3) (fast := 2) (by norm_num) (by norm_num) (m := 2) (by norm_num) [2]

/-- crossings of zero, -/
theorem C68_map_zero_crossover {m : Nat} (hm : 0 < m) (s : List Nat) :
    SameStreams (Map ZeroCrossoverSignal (m : Int)) (ZeroCrossoverSignal : Operator α) (vBuf (s := m :: s)) :=
  (C68_map_ints (.zeroCrossover s) (C33_zero_crossover_streams s) hm).same (C33_zero_crossover_streams (m :: s)) fun k _ => by
    funext c
    simp only [rowOf, List.map_map]
    rfl
example := C68_map_zero_crossover (α := XR ℚ) (m := 2) (by norm_num) [2]

/-- the signals of moving average crossovers, -/
theorem C68_map_sma_signal {slow fast : Nat} (hs : 0 < slow) (hf : 0 < fast) {m : Nat} (hm : 0 < m) (s : List Nat) :
    SameStreams (Map (SMACrossoverSignal (slow : Int) fast) (m : Int)) (SMACrossoverSignal (slow : Int) fast : Operator α) (vBuf (s := m :: s)) :=
  (C68_map_ints (C56_smaSignal_typed trivial hs hf s)
      ((smaSignal_tracks (α := α) hs hf s).streams rows_ok isSeries_vIsBuf (y := fun h c => smaSignal slow fast (h.map (· c))) fun _ => rfl) hm).same
    ((smaSignal_tracks (α := α) hs hf (m :: s)).streams rows_ok isSeries_vIsBuf (y := fun h c => smaSignal slow fast (h.map (· c))) fun _ => rfl) fun k _ => by
    funext c
    simp only [rowOf, List.map_map]
    rfl
example := C68_map_sma_signal (α := XR ℚ) (slow := 3) (fast := 2) (by norm_num) (by norm_num) (m := 2) (by norm_num) [2]

/-- and MACD signals. -/
theorem C68_map_macd_signal {slow fast n : Nat} (hs : 0 < slow) (hf : 0 < fast) (hn : 0 < n) {m : Nat} (hm : 0 < m) (s : List Nat) :
    SameStreams (Map (MACDSignal (slow : Int) fast n) (m : Int)) (MACDSignal (slow : Int) fast n : Operator α) (vBuf (s := m :: s)) :=
  (C68_map_ints (C56_macdSignal_typed trivial hs hf hn s)
      ((macdTrade_tracks (α := α) hs hf hn s).streams rows_ok isSeries_vIsBuf (y := fun h c => macdTrade slow fast n (h.map (· c))) fun _ => rfl) hm).same
    ((macdTrade_tracks (α := α) hs hf hn (m :: s)).streams rows_ok isSeries_vIsBuf (y := fun h c => macdTrade slow fast n (h.map (· c))) fun _ => rfl) fun k _ => by
    funext c
    simp only [rowOf, List.map_map]
    rfl
example := C68_map_macd_signal (α := XR ℚ) (slow := 3) (fast := 2) (n := 3) (by norm_num) (by norm_num) (by norm_num) (m := 2) (by norm_num) [2]

/-! ### Mapping operators on numbers -/

/-- The indicators that take single numbers run on vectors of `m` numbers through `Map`, each coordinate by itself: returns, -/
theorem C68_map_return (hz : TFNum.eq (Arith.zero : α) (Arith.ofRat 0) = true) {p : Nat} (hp : 0 < p) {m : Nat} (hm : 0 < m) :
    StreamsAs (Map (Return (p : Int)) (m : Int) : Operator α) (vBuf (s := [m])) (vBuf (s := [m]))
      fun h c => growth (fun now before => now / before - Arith.ofRat 1) p (h.map (· c)) :=
  C68_map_numbers (.return_ hz hp) (C37_return_streams hz hp) hm
example := C68_map_return (α := XR ℚ) (by simp) (p := 2) (by norm_num) (m := 2) (by norm_num)

theorem C68_map_logReturn (hz : TFNum.eq (Arith.zero : α) (Arith.ofRat 0) = true) {p : Nat} (hp : 0 < p) {m : Nat} (hm : 0 < m) :
    StreamsAs (Map (LogReturn (p : Int)) (m : Int) : Operator α) (vBuf (s := [m])) (vBuf (s := [m]))
      fun h c => growth (fun now before => Arith.log (now / before)) p (h.map (· c)) :=
  C68_map_numbers (.logReturn hz hp) (C37_logReturn_streams hz hp) hm
example := C68_map_logReturn (α := XR ℚ) (by simp) (p := 2) (by norm_num) (m := 2) (by norm_num)

/-- volatility, -/
theorem C68_map_volatility (hz : TFNum.eq (Arith.zero : α) (Arith.ofRat 0) = true) {n r : Nat} (hn : 0 < n) (hr : 0 < r) {m : Nat} (hm : 0 < m) :
    StreamsAs (Map (Volatility (n : Int) r) (m : Int) : Operator α) (vBuf (s := [m])) (vBuf (s := [m])) fun h c => volatility n r (h.map (· c)) :=
  C68_map_numbers (C56_volatility_typed hz hn hr) (C38_volatility_streams hz hn hr) hm
example := C68_map_volatility (α := XR ℚ) (by simp) (n := 3) (r := 3) (by norm_num) (by norm_num) (m := 2) (by norm_num)

/-- relative strength, -/
theorem C68_map_rsi {p : Nat} (hp : 0 < p) {m : Nat} (hm : 0 < m) :
    StreamsAs (Map (RSI (p : Int)) (m : Int) : Operator α) (vBuf (s := [m])) (vBuf (s := [m])) fun h c => rsi p (h.map (· c)) :=
  C68_map_numbers (.rsi hp) (C36_rsi_streams hp) hm
example := C68_map_rsi (α := XR ℚ) (p := 2) (by norm_num) (m := 2) (by norm_num)

/-- skewness, -/
theorem C68_map_skewness {p : Nat} (hp : 0 < p) {m : Nat} (hm : 0 < m) :
    StreamsAs (Map (Skewness (p : Int)) (m : Int) : Operator α) (vBuf (s := [m])) (vBuf (s := [m])) fun h c => computeSkewness (window p (h.map (· c))) :=
  C68_map_numbers (.skewness hp) (skewness_streams hp) hm
example := C68_map_skewness (α := XR ℚ) (p := 2) (by norm_num) (m := 2) (by norm_num)

/-- and the extrema. -/
theorem C68_map_extrema {m : Nat} (hm : 0 < m) :
    StreamsAs (Map GlobalMinimum (m : Int) : Operator α) (vBuf (s := [m])) (vBuf (s := [m])) (fun h c => runMin (h.map (· c))) ∧
      StreamsAs (Map GlobalMaximum (m : Int) : Operator α) (vBuf (s := [m])) (vBuf (s := [m])) (fun h c => runMax (h.map (· c))) ∧
      ∀ p : Nat, 0 < p → StreamsAs (Map (LocalMinimum (p : Int)) (m : Int) : Operator α) (vBuf (s := [m])) (vBuf (s := [m])) (fun h c => Arith.redMin (window p (h.map (· c)))) ∧
        StreamsAs (Map (LocalMaximum (p : Int)) (m : Int) : Operator α) (vBuf (s := [m])) (vBuf (s := [m])) (fun h c => Arith.redMax (window p (h.map (· c)))) :=
  ⟨C68_map_numbers .globalMinimum C20_global_min_streams hm, C68_map_numbers .globalMaximum C20_global_max_streams hm, fun _ hp =>
    ⟨C68_map_numbers (.localMinimum hp) (C21_local_min_streams hp) hm, C68_map_numbers (.localMaximum hp) (C21_local_max_streams hp) hm⟩⟩

/-- Moving averages of two columns, with and without Map, -/
example : (call (Map (SMA 2) 2) (matrix 2 [[1, 2], [3, 4], [5, 0]]) none).map (·.1) = .ok (matrix 2 [[0, 0], [2, 3], [4, 2]]) ∧
    (call (SMA 2) (matrix 2 [[1, 2], [3, 4], [5, 0]]) none).map (·.1) = .ok (matrix 2 [[0, 0], [2, 3], [4, 2]]) :=
  ⟨by decide +kernel, by decide +kernel⟩
/-- and the running minima, which GlobalMinimum alone computes for single numbers only. -/
example : (call (Map GlobalMinimum 2) (matrix 2 [[1, 2], [0, 3], [4, 0]]) none).map (·.1) = .ok (matrix 2 [[1, 2], [0, 2], [0, 0]]) := by decide +kernel
/-- `FFill(SMA)` is not elementwise: on a row with one zero it holds all columns, mapped it holds the column. -/
example : (call (Map (FFill (SMA 1)) 2) (matrix 2 [[1, 2], [0, 3]]) none).map (·.1) = .ok (matrix 2 [[1, 2], [1, 3]]) ∧
    (call (FFill (SMA 1)) (matrix 2 [[1, 2], [0, 3]]) none).map (·.1) = .ok (matrix 2 [[1, 2], [1, 2]]) :=
  ⟨by decide +kernel, by decide +kernel⟩

end TS
